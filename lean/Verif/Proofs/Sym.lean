import Verif.Proofs.Lang
import Verif.Proofs.Statement

/-!
Compilation of the language of Spec/Lang with an environment of linear forms instead of the heap (`Sym`), and its
correctness: what the gates say is what the interpreter computes.
-/
namespace APS.Sym
open APS.ParseSpec (Ex indexText)
open APS.LangSpec (Stm Fun Store Err arithOp compareOp get put start find kwBase kwEqual kwSplit evalList runList element declareFrom eval run)
open APS.Circuit
open APS.Spec (IsLit NoConfusion NoConstSplit GateHolds formVal)

variable {q : Nat}

/-- an arithmetic operation on linear forms -/
def arithGate (H : Name → Nat) (q : Nat) (op : Name) (l r : Factors) (s : St) : Option (Factors × St) :=
  if op = ['*'] then mulGate H q l r s
  else if op = ['/'] then divGate H q l r s
  else if op = ['+'] then some (addFactors q l r, s)
  else if op = ['-'] then some (addFactors q l (negateFactors r), s)
  else none

/-- `completeFunction` at the top only -/
def complete (H : Name → Nat) (top : Bool) (f : Factors) (s : St) : Option St :=
  if top then completeFunction H f s else some s

/-- what is derived -/
inductive Judg where
  | ex (env : Env) (e : Ex) (s : St) (f : Factors) (s' : St)
  | exs (env : Env) (es : List Ex) (s : St) (fs : List Factors) (s' : St)
  | idx (env : Env) (is : List Ex) (ks : List Nat)
  | decls (top : Bool) (env : Env) (a : Name) (i : Nat) (es : List Ex) (s : St) (env' : Env) (s' : St)
  | stm (top : Bool) (env : Env) (st : Stm) (s : St) (env' : Env) (s' : St)
  | stms (top : Bool) (env : Env) (sts : List Stm) (s : St) (env' : Env) (s' : St)
  | fn (top : Bool) (env : Env) (sts : List Stm) (ret : Ex) (s : St) (f : Factors) (s' : St)

/-- a static number: computed without gates -/
structure Static (q : Nat) (x : Factor) : Prop where
  num : x.tok.isNum = true
  pos : 0 ≤ x.mul
  lt : x.mul < q

inductive Sym (H : Name → Nat) (q : Nat) (P : List Fun) : Judg → Prop
  | num {env w s f} : IsLit w → compileNum q w = some f → Sym H q P (.ex env (.num w) s f s)
  | var {env x s g f} : env.lookup x = some g → readVar q g = some f → Sym H q P (.ex env (.var x) s f s)
  | paren {env e s f s'} : Sym H q P (.ex env e s f s') → Sym H q P (.ex env (.paren e) s f s')
  | bin {env op l r s a s1 b s2 f s'} : Sym H q P (.ex env l s a s1) → Sym H q P (.ex env r s1 b s2) →
      arithGate H q op.text a b s2 = some (f, s') → Sym H q P (.ex env (.bin op l r) s f s')
  | arr {env a is ks s g f} : Sym H q P (.idx env is ks) → env.lookup (a ++ indexText ks) = some g →
      rereadSum q g = some f → Sym H q P (.ex env (.arr a is) s f s)
  | base {env e s l s1 f s'} : Sym H q P (.ex env e s l s1) → baseGate H l s1 = some (f, s') →
      Sym H q P (.ex env (.call kwBase [e]) s f s')
  | call {env F args s fs s1 f s3} : F.name ≠ kwBase → find P F.name = .ok F → F.names.length = args.length →
      Sym H q P (.exs env args s fs s1) → Sym H q P (.fn false (F.names.zip fs) F.body F.ret s1 f s3) →
      Sym H q P (.ex env (.call F.name args) s f s3)
  | exsNil {env s} : Sym H q P (.exs env [] s [] s)
  | exsCons {env e es s f s1 fs s2} : Sym H q P (.ex env e s f s1) → Sym H q P (.exs env es s1 fs s2) →
      Sym H q P (.exs env (e :: es) s (f :: fs) s2)
  | idxNil {env} : Sym H q P (.idx env [] [])
  | idxCons {env e es x k ks} : Sym H q P (.ex env e {} [x] {}) → Static q x → x.mul = (k : Nat) →
      Sym H q P (.idx env es ks) → Sym H q P (.idx env (e :: es) (k :: ks))
  | declsNil {top env a i s} : Sym H q P (.decls top env a i [] s env s)
  | declsCons {top env a i e es s f s1 s2 env' s3} : Sym H q P (.ex env e s f s1) → complete H top f s1 = some s2 →
      Sym H q P (.decls top ((a ++ indexText [i], f) :: env) a (i + 1) es s2 env' s3) →
      Sym H q P (.decls top env a i (e :: es) s env' s3)
  | decl {top env x e s f s1 s2} : Sym H q P (.ex env e s f s1) → complete H top f s1 = some s2 →
      Sym H q P (.stm top env (.decl x e) s ((x, f) :: env) s2)
  | declArr {top env a es s env' s'} : Sym H q P (.decls top env a 0 es s env' s') →
      Sym H q P (.stm top env (.declArr a es) s env' s')
  | assign {top env x is ks e s f s1 s2 g} : Sym H q P (.idx env is ks) → Sym H q P (.ex env e s f s1) →
      env.lookup (x ++ indexText ks) = some g → complete H top f s1 = some s2 →
      Sym H q P (.stm top env (.assign x is e) s ((x ++ indexText ks, f) :: env) s2)
  | equal {top env a b s l s1 r s2 g s3} : Sym H q P (.ex env a s l s1) → Sym H q P (.ex env b s1 r s2) →
      s2.add H { typ := .equality, left := l, right := r, noNew := true } = some (s3, g) →
      Sym H q P (.stm top env (.call kwEqual [a, b]) s env s3)
  | split {top env a s f s1 s2} : Sym H q P (.ex env a s f s1) → splitGate H q f s1 = some s2 →
      Sym H q P (.stm top env (.call kwSplit [a]) s env s2)
  | callS {top env f args s g s1 s2} : f ≠ kwEqual → f ≠ kwSplit → Sym H q P (.ex env (.call f args) s g s1) →
      complete H top g s1 = some s2 → Sym H q P (.stm top env (.call f args) s env s2)
  | stop {top env l cmp r x step body s a b} : Sym H q P (.ex env l {} [a] {}) → Sym H q P (.ex env r {} [b] {}) →
      Static q a → Static q b → compareOp cmp a.mul.toNat b.mul.toNat = .ok false →
      Sym H q P (.stm top env (.loop l cmp r x step body) s env s)
  | go {top env l cmp r x step body s a b env1 s1 f s2 g env2 s3} : Sym H q P (.ex env l {} [a] {}) →
      Sym H q P (.ex env r {} [b] {}) → Static q a → Static q b → compareOp cmp a.mul.toNat b.mul.toNat = .ok true →
      Sym H q P (.stms false env body s env1 s1) → Sym H q P (.ex env1 step s1 f s2) → env1.lookup x = some g →
      Sym H q P (.stm top ((x, f) :: env1) (.loop l cmp r x step body) s2 env2 s3) →
      Sym H q P (.stm top env (.loop l cmp r x step body) s env2 s3)
  | skip {top env l cmp r body s a b} : Sym H q P (.ex env l {} [a] {}) → Sym H q P (.ex env r {} [b] {}) →
      Static q a → Static q b → compareOp cmp a.mul.toNat b.mul.toNat = .ok false →
      Sym H q P (.stm top env (.cond l cmp r body none) s env s)
  | take {top env l cmp r body s a b env1 s1} : Sym H q P (.ex env l {} [a] {}) → Sym H q P (.ex env r {} [b] {}) →
      Static q a → Static q b → compareOp cmp a.mul.toNat b.mul.toNat = .ok true →
      Sym H q P (.stms false env body s env1 s1) → Sym H q P (.stm top env (.cond l cmp r body none) s env1 s1)
  | stmsNil {top env s} : Sym H q P (.stms top env [] s env s)
  | stmsCons {top env st sts s env1 s1 env2 s2} : Sym H q P (.stm top env st s env1 s1) →
      Sym H q P (.stms top env1 sts s1 env2 s2) → Sym H q P (.stms top env (st :: sts) s env2 s2)
  | fnEnd {top env ret s f s'} : Sym H q P (.ex env ret s f s') → Sym H q P (.fn top env [] ret s f s')
  | fnStep {top env st sts ret s env1 s1 f s'} : st.isExit = false → Sym H q P (.stm top env st s env1 s1) →
      Sym H q P (.fn top env1 sts ret s1 f s') → Sym H q P (.fn top env (st :: sts) ret s f s')
  | fnSkip {top env l cmp r body e sts ret s a b f s'} : Sym H q P (.ex env l {} [a] {}) → Sym H q P (.ex env r {} [b] {}) →
      Static q a → Static q b → compareOp cmp a.mul.toNat b.mul.toNat = .ok false →
      Sym H q P (.fn top env sts ret s f s') → Sym H q P (.fn top env (.cond l cmp r body (some e) :: sts) ret s f s')
  | fnQuit {top env l cmp r body e sts ret s a b env1 s1 f s'} : Sym H q P (.ex env l {} [a] {}) → Sym H q P (.ex env r {} [b] {}) →
      Static q a → Static q b → compareOp cmp a.mul.toNat b.mul.toNat = .ok true →
      Sym H q P (.stms false env body s env1 s1) → Sym H q P (.ex env1 e s1 f s') →
      Sym H q P (.fn top env (.cond l cmp r body (some e) :: sts) ret s f s')

/-! ### shape of results -/

theorem arithGate_wf [Fact q.Prime] {H : Name → Nat} {I : List Name} {op : Name} {l r f : Factors} {s s' : St}
    (hw : WF I s) (hl : GoodF q l) (hr : GoodF q r) (kl : KnownF (I ++ s.c.computed) l)
    (kr : KnownF (I ++ s.c.computed) r) (h : arithGate H q op l r s = some (f, s')) : Circuit.Res I q s f s' := by
  unfold arithGate at h
  split at h
  · exact mulGate_wf hw hl hr kl kr h
  · split at h
    · exact divGate_wf hw hl hr kl kr h
    · split at h
      · simp at h; obtain ⟨rfl, rfl⟩ := h
        exact addRes (Ext.refl _) hw hl hr kl kr
      · split at h
        · simp at h; obtain ⟨rfl, rfl⟩ := h
          exact addRes (Ext.refl _) hw hl (negateFactors_good hr) kl (fun n hn => kr n (by rwa [negateFactors_keys] at hn))
        · cases h

theorem complete_wf {H : Name → Nat} {top : Bool} {I : List Name} {f : Factors} {s s' : St} (hw : WF I s) (hf : GoodF q f)
    (kf : KnownF (I ++ s.c.computed) f) (h : complete H top f s = some s') : Ext s s' ∧ WF I s' := by
  unfold complete at h
  split at h
  · exact completeFunction_wf hw hf kf h
  · cases h; exact ⟨Ext.refl _, hw⟩

theorem mem_of_lookup {β : Type} {l : List (Name × β)} {n : Name} {f : β} (h : l.lookup n = some f) : (n, f) ∈ l := by
  induction l with
  | nil => simp at h
  | cons p l ih =>
    obtain ⟨m, g⟩ := p
    rw [List.lookup_cons] at h
    split at h
    · rename_i hb
      cases h
      rw [eq_of_beq hb]; exact List.mem_cons_self
    · exact List.mem_cons_of_mem _ (ih h)

theorem envOK_zip {I : List Name} {s : St} {xs : List Name} {fs : List Factors}
    (h : ∀ f ∈ fs, GoodF q f ∧ KnownF (I ++ s.c.computed) f) : EnvOK I q (xs.zip fs) s := by
  intro n f hn
  exact h f (List.of_mem_zip (mem_of_lookup hn)).2

/-- well-formedness of what is derived -/
def JWF (q : Nat) : Judg → Prop
  | .ex env _ s f s' | .fn _ env _ _ s f s' => ∀ I, WF I s → EnvOK I q env s → Circuit.Res I q s f s'
  | .exs env es s fs s' => fs.length = es.length ∧ ∀ I, WF I s → EnvOK I q env s →
      Ext s s' ∧ WF I s' ∧ ∀ f ∈ fs, GoodF q f ∧ KnownF (I ++ s'.c.computed) f
  | .idx _ _ _ => True
  | .decls _ env _ _ _ s env' s' | .stm _ env _ s env' s' | .stms _ env _ s env' s' =>
    ∀ I, WF I s → EnvOK I q env s → Ext s s' ∧ WF I s' ∧ EnvOK I q env' s'

theorem sym_wf [Fact q.Prime] {H : Name → Nat} {P : List Fun} {j : Judg} (h : Sym H q P j) : JWF q j := by
  induction h with
  | num hl hc =>
    intro I hw _
    obtain ⟨h1, h2, -⟩ := compileNum_spec (fun _ => 0) hc
    exact ⟨Ext.refl _, hw, h1, fun n hn => by cases h2 _ hn⟩
  | var hl hr =>
    intro I hw henv
    obtain ⟨h1, h2, -⟩ := readVar_spec (fun _ => 0) (henv _ _ hl).1 hr
    exact ⟨Ext.refl _, hw, h1, fun n hn => (henv _ _ hl).2 n ((h2 _ hn).resolve_left (by simp))⟩
  | paren _ ih => exact ih
  | bin _ _ hg ihl ihr =>
    intro I hw henv
    have r1 := ihl I hw henv
    have r2 := ihr I r1.wf (henv.mono hw r1.wf r1.ext)
    have r3 := arithGate_wf r2.wf r1.good r2.good (r1.known.mono (known_mono r2.ext r1.wf r2.wf)) r2.known hg
    exact ⟨(r1.ext.trans r2.ext).trans r3.ext, r3.wf, r3.good, r3.known⟩
  | arr _ hl hr _ =>
    intro I hw henv
    obtain ⟨h1, h2, -⟩ := rereadSum_spec (fun _ => 0) _ _ (henv _ _ hl).1.text hr
    exact ⟨Ext.refl _, hw, h1, fun n hn => (henv _ _ hl).2 n ((h2 _ hn).resolve_left (by simp))⟩
  | base _ hg ih =>
    intro I hw henv
    have r1 := ih I hw henv
    have r3 := baseGate_wf r1.wf r1.good r1.known hg
    exact ⟨r1.ext.trans r3.ext, r3.wf, r3.good, r3.known⟩
  | call _ _ _ _ _ ih1 ih2 =>
    intro I hw henv
    obtain ⟨-, ih1⟩ := ih1
    obtain ⟨e1, w1, g1⟩ := ih1 I hw henv
    have r3 := ih2 I w1 (envOK_zip g1)
    exact ⟨e1.trans r3.ext, r3.wf, r3.good, r3.known⟩
  | exsNil => exact ⟨rfl, fun I hw _ => ⟨Ext.refl _, hw, by simp⟩⟩
  | exsCons _ _ ih1 ih2 =>
    obtain ⟨hlen, ih2⟩ := ih2
    refine ⟨by simp [hlen], fun I hw henv => ?_⟩
    have r1 := ih1 I hw henv
    obtain ⟨e2, w2, g2⟩ := ih2 I r1.wf (henv.mono hw r1.wf r1.ext)
    refine ⟨r1.ext.trans e2, w2, fun f hf => ?_⟩
    rcases List.mem_cons.mp hf with rfl | hf
    · exact ⟨r1.good, r1.known.mono (known_mono e2 r1.wf w2)⟩
    · exact g2 f hf
  | idxNil => trivial
  | idxCons => trivial
  | declsNil => exact fun I hw henv => ⟨Ext.refl _, hw, henv⟩
  | declsCons _ hc _ ih1 ih2 =>
    intro I hw henv
    have r := ih1 I hw henv
    obtain ⟨he, hw'⟩ := complete_wf r.wf r.good r.known hc
    obtain ⟨e2, w2, v2⟩ := ih2 I hw' (((henv.mono hw r.wf r.ext).cons r.good r.known).mono r.wf hw' he)
    exact ⟨(r.ext.trans he).trans e2, w2, v2⟩
  | decl _ hc ih1 =>
    intro I hw henv
    have r := ih1 I hw henv
    obtain ⟨he, hw'⟩ := complete_wf r.wf r.good r.known hc
    exact ⟨r.ext.trans he, hw', ((henv.mono hw r.wf r.ext).cons r.good r.known).mono r.wf hw' he⟩
  | declArr _ ih => exact ih
  | assign _ _ _ hc _ ih1 =>
    intro I hw henv
    have r := ih1 I hw henv
    obtain ⟨he, hw'⟩ := complete_wf r.wf r.good r.known hc
    exact ⟨r.ext.trans he, hw', ((henv.mono hw r.wf r.ext).cons r.good r.known).mono r.wf hw' he⟩
  | equal _ _ hg ih1 ih2 =>
    intro I hw henv
    have r1 := ih1 I hw henv
    have r2 := ih2 I r1.wf (henv.mono hw r1.wf r1.ext)
    have hw' := equal_wf r2.wf r1.good r2.good (r1.known.mono (known_mono r2.ext r1.wf r2.wf)) r2.known hg
    have he := (r1.ext.trans r2.ext).trans (St.add_ext hg (fun _ => rfl))
    exact ⟨he, hw', henv.mono hw hw' he⟩
  | split _ hf ih =>
    intro I hw henv
    have r := ih I hw henv
    obtain ⟨he, hw'⟩ := splitGate_wf r.wf r.known hf
    exact ⟨r.ext.trans he, hw', henv.mono hw hw' (r.ext.trans he)⟩
  | callS _ _ _ hc ih1 =>
    intro I hw henv
    have r := ih1 I hw henv
    obtain ⟨he, hw'⟩ := complete_wf r.wf r.good r.known hc
    exact ⟨r.ext.trans he, hw', henv.mono hw hw' (r.ext.trans he)⟩
  | stop => exact fun I hw henv => ⟨Ext.refl _, hw, henv⟩
  | go _ _ _ _ _ _ _ _ _ _ _ ih3 ih4 ih5 =>
    intro I hw henv
    obtain ⟨e1, w1, v1⟩ := ih3 I hw henv
    have r := ih4 I w1 v1
    obtain ⟨e3, w3, v3⟩ := ih5 I r.wf ((v1.mono w1 r.wf r.ext).cons r.good r.known)
    exact ⟨(e1.trans r.ext).trans e3, w3, v3⟩
  | skip => exact fun I hw henv => ⟨Ext.refl _, hw, henv⟩
  | take _ _ _ _ _ _ _ _ ih3 => exact ih3
  | stmsNil => exact fun I hw henv => ⟨Ext.refl _, hw, henv⟩
  | stmsCons _ _ ih1 ih2 =>
    intro I hw henv
    obtain ⟨e1, w1, v1⟩ := ih1 I hw henv
    obtain ⟨e2, w2, v2⟩ := ih2 I w1 v1
    exact ⟨e1.trans e2, w2, v2⟩
  | fnEnd _ ih => exact ih
  | fnStep _ _ _ ih1 ih2 =>
    intro I hw henv
    obtain ⟨e1, w1, v1⟩ := ih1 I hw henv
    have r := ih2 I w1 v1
    exact ⟨e1.trans r.ext, r.wf, r.good, r.known⟩
  | fnSkip _ _ _ _ _ _ _ _ ih => exact ih
  | fnQuit _ _ _ _ _ _ _ _ _ ih3 ih4 =>
    intro I hw henv
    obtain ⟨e1, w1, v1⟩ := ih3 I hw henv
    have r := ih4 I w1 v1
    exact ⟨e1.trans r.ext, r.wf, r.good, r.known⟩

end APS.Sym
