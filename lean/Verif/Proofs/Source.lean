import Verif.Model.Source
import Verif.Proofs.Text
import Verif.Proofs.Frame

/-! `Parse` on the tokens of a program. -/
namespace APS.Prog
open APS.Lex (Token TokenType)
open APS.Parse (Constraint marker statementMode)
open APS.Circuit hiding execute compile Prog
open APS.LangSpec
open APS.ParseSpec (Ex indexText tree trees)

variable {H : Name → Nat} {q : Nat}

/-- no public input among the constraints -/
def NoPublic (cs : List Constraint) : Prop := cs.filter (fun c => c.output.type == .publicT) = []

theorem NoPublic.append {a b : List Constraint} (ha : NoPublic a) (hb : NoPublic b) : NoPublic (a ++ b) := by
  unfold NoPublic at *; rw [List.filter_append, ha, hb]; rfl

mutual
theorem noPublic_emit : ∀ st : Stm, NoPublic (emit st)
  | .decl x e => by rw [emit]; rfl
  | .declArr a es => by rw [emit]; rfl
  | .assign x idx e => by rw [emit]; rfl
  | .call f args => by rw [emit]; rfl
  | .loop l cmp r x step body => by
    rw [emit, ← List.singleton_append]
    exact NoPublic.append rfl (NoPublic.append (noPublic_emits body) rfl)
  | .cond l cmp r body fin => by
    rw [emit, ← List.singleton_append]
    exact NoPublic.append rfl (NoPublic.append (noPublic_emits body) (NoPublic.append (by cases fin <;> rfl) rfl))
theorem noPublic_emits : ∀ sts : List Stm, NoPublic (emits sts)
  | [] => by rw [emits]; rfl
  | st :: sts => by rw [emits]; exact (noPublic_emit st).append (noPublic_emits sts)
end

theorem public_emitFun (pubs : List (Name × List Nat)) (F : Fun) :
    (emitFun pubs F).filter (fun c => c.output.type == .publicT) = pubs.map emitPublic := by
  have h1 : (pubs.map emitPublic).filter (fun c => c.output.type == .publicT) = pubs.map emitPublic := by
    rw [List.filter_eq_self]
    intro c hc
    obtain ⟨p, _, rfl⟩ := List.mem_map.mp hc
    rfl
  have h2 : NoPublic (emits F.body ++ [marker .ret [tree F.ret]]) := (noPublic_emits _).append rfl
  unfold NoPublic at h2
  rw [emitFun, ← List.singleton_append, List.filter_append, List.filter_append, List.filter_append, h1, h2]
  have a : ([Constraint.mk ⟨.functionDefine, F.name⟩ (F.names.map fun x => .mk ⟨.argument, x⟩ [])].filter fun c => c.output.type == .publicT) = [] := rfl
  have b : ([marker .nestedEnd].filter fun c => c.output.type == .publicT) = [] := rfl
  rw [a, b]
  simp

theorem public_emit (p : Program) : p.emit.filter (fun c => c.output.type == .publicT) = p.pubs.map emitPublic := by
  have h : ∀ Fs : List Fun, NoPublic (Fs.flatMap (emitFun [])) := by
    intro Fs
    induction Fs with
    | nil => rfl
    | cons F Fs ih =>
      rw [List.flatMap_cons]
      exact NoPublic.append (by unfold NoPublic; rw [public_emitFun]; rfl) ih
  have h1 := h p.before
  have h2 := h p.after
  unfold NoPublic at h1 h2
  rw [Program.emit, List.filter_append, List.filter_append, h1, h2, public_emitFun]
  simp

theorem resolve_numbers (n : Nat) : ∀ (is : List Nat) (x : Name) (w : W), (∀ i ∈ is, i < 2 ^ 63) →
    (resolveArray (compile H q (n + 1)) 0 (is.map fun k => .mk ⟨.number, Nat.toDigits 10 k⟩ []) x w).map Prod.fst = some (x ++ indexText is)
  | [], x, w, _ => by simp [resolveArray, indexText]
  | i :: is, x, w, h => by
    have hi := h i (by simp)
    have hp : parseInt (Nat.toDigits 10 i) = some (i : Int) := by
      have hd : ∀ c ∈ Nat.toDigits 10 i, c.isDigit = true := fun c hc => Nat.isDigit_of_mem_toDigits (by omega) (by omega) hc
      rw [parseInt_digits _ Nat.toDigits_ne_nil hd, Nat.ofDigitChars_ten_toDigits]
    have ih := fun x w => resolve_numbers n is x w fun k hk => h k (by simp [hk])
    have hc : compile H q (n + 1) 0 (.mk ⟨.number, Nat.toDigits 10 i⟩ []) { w with s := {} } =
        some ({ facs := [⟨⟨true, Nat.toDigits 10 i⟩, (i : Int) % (q : Int)⟩] }, { w with s := {} }) := by
      simp [compile, compileStep, Constraint.output, compileNum, hp, Fq.stringToField]
    rw [List.map_cons, resolveArray, hc]
    simp only [hp, Option.bind_eq_bind, Option.bind_some, show (0 : Int) ≤ (i : Int) ∧ (i : Int) < 2 ^ 63 from ⟨by omega, by omega⟩, if_true, and_self,
      Int.toNat_natCast]
    rw [ih]
    simp [indexText]

theorem publicName_emit (n : Nat) {p : Name × List Nat} (h : ∀ i ∈ p.2, i < 2 ^ 63) :
    publicName H q (n + 1) (emitPublic p) = some (p.1 ++ indexText p.2) := resolve_numbers n p.2 p.1 _ h

/-- `Parse` gives the public inputs and the function objects of a written program -/
theorem parse_spelled {p : Program} (hp : p.written) (rf : List Char → Option (List Token)) {ts : List Token} (hs : p.spelled ts) {n : Nat}
    (hn : ts.length < n) : parse H q (n + 1) rf ts = (program p.emit).map fun m => (APS.Spec.oneName :: p.publics, m) := by
  have h1 := APS.Parse.program_reads_spelled (rf := rf) hp hs hn
  have h2 : (p.pubs.map emitPublic).mapM (publicName H q (n + 1)) = some p.publics := by
    unfold Program.publics
    have := hp.2.2
    generalize p.pubs = ps at this
    induction ps with
    | nil => rfl
    | cons x ps ih =>
      rw [List.map_cons, List.mapM_cons, publicName_emit n (this x (by simp)).2, ih fun y hy => this y (by simp [hy])]
      rfl
  unfold parse
  simp only [h1, Option.bind_eq_bind, Option.bind_some, if_true, public_emit, h2]
  cases program p.emit <;> rfl

theorem parse_write {p : Program} (hp : p.written) (rf : List Char → Option (List Token)) {n : Nat} (hn : p.write.length < n) :
    parse H q (n + 1) rf p.write = (program p.emit).map fun m => (APS.Spec.oneName :: p.publics, m) := parse_spelled hp rf p.spelled_write hn

end APS.Prog
