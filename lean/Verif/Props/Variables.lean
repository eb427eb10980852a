import Verif.Proofs.ValueCall
import Verif.Proofs.Compile

/-!
C95: a variable keeps the value that was assigned to it.
-/
namespace APS.Prog
open APS.Lex (Token TokenType)
open APS.Parse (Constraint)
open APS.Circuit hiding execute compile Prog
open APS.LangSpec (builtins)
open APS.Spec hiding Err

/-- C95: a form (names all different, at most one constant, constants written as decimals, no builtin names) is stored and bound to a
name in the object that is being executed.  Whenever reading the name gives a result, it is a form with the same value for all
values of the wires; reading produces no gate and leaves all objects and the other bindings as they are. -/
theorem C95_variable {H : Name → Nat} {q : Nat} [Fact q.Prime] {g : Factors} {m m1 m2 : Mem} {o cur n : Nat} {name : Name} {fo : FObj} {w w' : W} {r : Res}
    (hok : MemOK m) (hne : g ≠ []) (hsep : Sep g) (hcall : Callable g) (htext : ∀ x ∈ g, TextOK q x) (hb : name ∉ builtins)
    (hcur : m.objs[cur]? = some fo) (hctx : fo.context ≠ none)
    (hst : store q g m = some (o, m1)) (hset : m1.setFunction cur name o = some m2) (hw : w.m = m2)
    (h : compile H q n cur (node .functionCall name) w = some (r, w')) :
    (∀ ν : Name → ZMod q, formVal ν r.facs = formVal ν g) ∧ r.ret = false ∧ w'.s = w.s ∧
      (∀ a, a < m2.objs.length → w'.m.objs[a]? = m2.objs[a]?) ∧ ∀ i, i < m2.maps.length → w'.m.maps[i]? = m2.maps[i]? := by
  obtain ⟨h1, ok1, g1, v1, -⟩ := store_spec q g hok hne hsep hst
  obtain ⟨fo', i, ho, hi, rfl⟩ := set_eq hset
  have hcur1 := g1.obj hcur
  rw [hcur1] at ho
  cases ho
  have lo : o < m1.objs.length := v1.1.lt
  have ok2 : MemOK w.m := by rw [hw]; exact modify_ok ok1 i name lo
  have li := ok1.bound _ _ _ hcur1 hi
  have hgrow : Grow (fun j => j = i) m1 w.m := by
    rw [hw]
    refine ⟨le_refl _, by simp, fun a _ => rfl, fun j _ hj => ?_⟩
    simp only [List.getElem?_modify, if_neg (fun e => hj (Eq.symm e))]
    simp
  have v2 : Val w.m g o := v1.grow hgrow fun a f j ha hf hj e => by
    subst e
    have := ok1.inj _ _ _ _ _ ha hcur1 hj hi
    subst this
    rw [ha] at hcur1
    cases hcur1
    exact hctx hf
  have hown : w.m.ownFunction cur name = some o := by
    rw [hw]
    obtain ⟨mp, hmp⟩ := List.getElem?_eq_some_iff.2 ⟨li, rfl⟩ |> fun e => (⟨_, e⟩ : ∃ mp, m1.maps[i]? = some mp)
    simp [Mem.ownFunction, hcur1, hi, List.getElem?_modify, hmp, put_lookup]
  obtain ⟨a1, a2, a3, -, a5, -⟩ := body_call n ok2 hsep hcall hb v2.1 (find_own hown) h
  refine ⟨fun ν => (rereadSum_spec ν g _ htext a1).2.2, a2, a3, fun a ha => ?_, fun j hj => ?_⟩
  · rw [← hw] at ha ⊢; exact a5.objs a ha
  · rw [← hw] at hj ⊢; exact a5.maps j hj (by simp)

/-- C95: two constants are stored as the constant that is their sum. -/
theorem C95_constants {q : Nat} {a b : Factor} (ha : a.tok.isNum = true) (hb : b.tok.isNum = true) {m m' : Mem} {o : Nat}
    (h : store q [a, b] m = some (o, m')) :
    ∃ f, m'.objs[o]? = some f ∧ f.isNumber = true ∧ f.value = Fq.add q a.mul b.mul ∧ f.inputs = [] ∧
      f.tasks = [node .ret [] [node .number (intStr (Fq.add q a.mul b.mul))]] := by
  simp only [store, Option.bind_eq_bind, Option.bind_eq_some_iff, Prod.exists, Option.some.injEq] at h
  obtain ⟨o2, m2, h2, h3⟩ := h
  rw [storeOne_eq] at h2 h3
  simp only at h2 h3
  rw [storeOne_eq] at h2
  cases h2
  have e1 : ∀ (M : Mem) (x : Factor), x.tok.isNum = true → ((M.newCircuit x.tok.ident none).2.update M.objs.length fun g =>
      { g with tasks := [oneTask x], isNumber := g.isNumber || x.tok.isNum, value := if x.tok.isNum then x.mul else g.value }).objs[M.objs.length]? =
      some { name := x.tok.ident, fmap := some M.maps.length, tasks := [oneTask x], isNumber := true, value := x.mul } := by
    intro M x hx
    rw [update_obj, if_pos rfl, newCircuit_obj]; simp [hx]
  generalize hM : ((m.newCircuit a.tok.ident none).2.update m.objs.length fun g =>
      { g with tasks := [oneTask a], isNumber := g.isNumber || a.tok.isNum, value := if a.tok.isNum then a.mul else g.value }) = M at *
  have ea := e1 m a ha
  rw [hM] at ea
  have eb := e1 M b hb
  have hlt : m.objs.length < M.objs.length := lt_of_obj ea
  have ea' : ((M.newCircuit b.tok.ident none).2.update M.objs.length fun g =>
      { g with tasks := [oneTask b], isNumber := g.isNumber || b.tok.isNum, value := if b.tok.isNum then b.mul else g.value }).objs[m.objs.length]? =
      some { name := a.tok.ident, fmap := some m.maps.length, tasks := [oneTask a], isNumber := true, value := a.mul } := by
    rw [update_obj, if_neg (by omega), (newCircuit_grow M b.tok.ident none).objs _ hlt, ea]
  unfold combine at h3
  rw [ea', eb] at h3
  simp only [Option.bind_eq_bind, Option.bind_some, Bool.and_self, if_true, Option.pure_def, Option.some.injEq] at h3
  rw [storeOne_eq] at h3
  cases h3
  refine ⟨_, e1 _ (numF (Fq.add q a.mul b.mul)) rfl, rfl, rfl, rfl, ?_⟩
  simp [oneTask, numF, node, tokOf]

/-! ### a variable that holds 3x + 5 -/

/-- a heap with the global object and `main` -/
def heap2 : Mem := ((({} : Mem).newCircuit "global".toList none).2.newCircuit "main".toList (some 0)).2

def form35 : Factors := [argF ['x'] 3, numF 5]

theorem heap2_ok : MemOK heap2 := newCircuit_ok (newCircuit_ok ⟨by simp, by simp, by simp, by simp⟩ _ _) _ _

instance prime1009 : Fact (Nat.Prime 1009) := ⟨by norm_num⟩

/-- all hypotheses of C95 hold, and the read succeeds -/
example : ∃ (o : Nat) (m1 m2 : Mem) (fo : FObj) (r : Res) (w' : W), heap2.objs[1]? = some fo ∧ fo.context ≠ none ∧
    store 1009 form35 heap2 = some (o, m1) ∧ m1.setFunction 1 ['z'] o = some m2 ∧
    compile (fun _ => 0) 1009 20 1 (node .functionCall ['z']) { m := m2 } = some (r, w') ∧
    ∀ ν : Name → ZMod 1009, formVal ν r.facs = formVal ν form35 := by
  have h : ((store 1009 form35 heap2).bind fun p => (p.2.setFunction 1 ['z'] p.1).bind fun m2 =>
      (compile (fun _ => 0) 1009 20 1 (node .functionCall ['z']) { m := m2 })).isSome = true := by decide +kernel
  obtain ⟨x, hx⟩ := Option.isSome_iff_exists.mp h
  obtain ⟨⟨o, m1⟩, h1, h2⟩ := Option.bind_eq_some_iff.mp hx
  obtain ⟨m2, h3, h4⟩ := Option.bind_eq_some_iff.mp h2
  obtain ⟨r, w'⟩ := x
  have hc : heap2.objs[1]? = some { name := "main".toList, context := some 0, fmap := some 1 } := rfl
  refine ⟨o, m1, m2, _, r, w', hc, by simp, h1, h3, h4, ?_⟩
  refine (C95_variable heap2_ok (by decide) ⟨by decide, by decide, by decide⟩ ?_ ?_ (by decide) hc (by simp) h1 h3 rfl h4).1
  · unfold Callable; decide
  · intro x hx hn
    simp [form35, argF, numF] at hx
    rcases hx with rfl | rfl
    · simp at hn
    · exact ⟨5, by decide, rfl⟩

end APS.Prog
