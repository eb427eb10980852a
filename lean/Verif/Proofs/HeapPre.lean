import Verif.Proofs.HeapRun

/-! Building the function objects of a program (`preCompile`, circuitcompiler/circuit.go:72-262) makes no number objects. -/
namespace APS.Alias
open APS.Circuit APS.Prog APS.Parse

theorem none_new {m : Mem} (h : NoNumbers m) (n : Name) (c : Option Nat) : NoNumbers (m.newCircuit n c).2 := by
  intro f hf
  simp only [Mem.newCircuit, List.mem_append, List.mem_singleton] at hf
  rcases hf with hf | rfl
  · exact h f hf
  · rfl

theorem none_update {m : Mem} (h : NoNumbers m) (a : Nat) {g : FObj → FObj} (hg : ∀ o, (g o).isNumber = o.isNumber) :
    NoNumbers (m.update a g) := by
  intro f hf
  simp only [Mem.update] at hf
  obtain ⟨i, hi, e⟩ := List.getElem_of_mem hf
  rw [List.getElem_modify] at e
  rw [← e]
  split
  · rw [hg]; exact h _ (List.getElem_mem _)
  · exact h _ (List.getElem_mem _)

theorem none_set {m m' : Mem} (h : NoNumbers m) {a : Nat} {k : Name} {v : Nat} (e : m.setFunction a k v = some m') :
    NoNumbers m' := by
  simp only [Mem.setFunction, Option.bind_eq_bind, Option.bind_eq_some_iff, Option.pure_def, Option.some.injEq] at e
  obtain ⟨_, _, _, _, rfl⟩ := e
  exact h

theorem none_task {m : Mem} (h : NoNumbers m) (a : Nat) (c : Constraint) : NoNumbers (m.addTask a c) :=
  none_update h a fun _ => rfl

theorem none_regArg {m m' : Mem} (h : NoNumbers m) {a : Nat} {c : Constraint} (e : registerArg a m c = some m') : NoNumbers m' := by
  simp only [registerArg] at e
  split at e
  · exact absurd e (by simp)
  · exact none_set (none_update (none_new (none_update h _ fun _ => by rfl) _ _) _ fun _ => by rfl) e

theorem none_regArgs {a : Nat} : ∀ (is : List Constraint) {m m' : Mem}, NoNumbers m → is.foldlM (registerArg a) m = some m' →
    NoNumbers m'
  | [], m, m', h, e => by
    simp only [List.foldlM_nil, Option.pure_def, Option.some.injEq] at e
    exact e ▸ h
  | i :: is, m, m', h, e => by
    simp only [List.foldlM_cons, Option.bind_eq_bind, Option.bind_eq_some_iff] at e
    obtain ⟨m1, e1, e2⟩ := e
    exact none_regArgs is (none_regArg h e1) e2

theorem none_register {m m' : Mem} (h : NoNumbers m) {c : Constraint} {x a : Nat} (e : register m c x = some (a, m')) : NoNumbers m' := by
  simp only [register, Option.bind_eq_bind, Option.bind_eq_some_iff, Option.pure_def, Option.some.injEq, Prod.mk.injEq] at e
  obtain ⟨m1, e1, _, rfl⟩ := e
  exact none_regArgs _ (none_new h _ _) e1

theorem none_declare {m m' : Mem} (h : NoNumbers m) {cur : Nat} {o : APS.Lex.Token} {is : List Constraint}
    (e : declare m cur o is = some m') : NoNumbers m' := by
  simp only [declare] at e
  split at e
  · exact absurd e (by simp)
  · simp only [Option.bind_eq_bind, Option.bind_eq_some_iff, Option.pure_def, Option.some.injEq] at e
    obtain ⟨m1, e1, _, _, rfl⟩ := e
    exact none_task (none_update (none_set (none_update (none_new h _ _) _ fun _ => by rfl) e1) _ fun _ => by rfl) _ _

theorem none_elems {cur : Nat} {a : Name} : ∀ (es : List Constraint) (i : Nat) {m m' : Mem}, NoNumbers m →
    declareElems cur a i es m = some m' → NoNumbers m'
  | [], i, m, m', h, e => by
    simp only [declareElems, Option.some.injEq] at e
    exact e ▸ h
  | x :: es, i, m, m', h, e => by
    simp only [declareElems, Option.bind_eq_bind, Option.bind_eq_some_iff] at e
    obtain ⟨m1, e1, e2⟩ := e
    split at e2
    · exact none_elems es _ (none_declare h e1) e2
    · exact absurd e2 (by simp)

theorem none_pre : ∀ (n : Nat) {m m' : Mem} {cur : Nat} {cs : List Constraint}, NoNumbers m → preCompile n m cur cs = some m' →
    NoNumbers m'
  | 0, m, m', cur, cs, h, e => by simp [preCompile] at e
  | n + 1, m, m', cur, [], h, e => by
    simp only [preCompile, Option.some.injEq] at e
    exact e ▸ h
  | n + 1, m, m', cur, c :: cs, h, e => by
    have nx : ∀ {m1 : Mem}, NoNumbers m1 →
        (if contextCheck.contextCheckAll m1 cur c.inputs then preCompile n m1 cur cs else none) = some m' → NoNumbers m' := by
      intro m1 h1 e1
      split at e1
      · exact none_pre n h1 e1
      · exact absurd e1 (by simp)
    simp only [preCompile] at e
    split at e
    · split at e
      · exact nx h e
      · exact absurd e (by simp)
    · simp only [Option.bind_eq_bind, Option.bind_eq_some_iff, Prod.exists] at e
      obtain ⟨_, _, _, m1, e1, _, _, _, m2, e2, _, _, m3, e3, m4, e4, e5⟩ := e
      exact none_pre n (none_pre n (none_pre n (none_task (none_set (none_new (none_task (none_set (none_new h _ _) e1) _ _) _ _) e2)
        _ _) e3) e4) e5
    · simp only [Option.bind_eq_bind, Option.bind_eq_some_iff, Prod.exists] at e
      obtain ⟨_, _, _, m1, e1, _, _, m2, e2, e3⟩ := e
      exact none_pre n (none_pre n (none_task (none_set (none_new h _ _) e1) _ _) e2) e3
    · split at e
      · exact absurd e (by simp)
      · simp only [Option.bind_eq_bind, Option.bind_eq_some_iff] at e
        obtain ⟨m1, e1, e2⟩ := e
        exact nx (none_elems _ _ (none_update h _ fun _ => by rfl) e1) e2
    · simp only [Option.bind_eq_bind, Option.bind_eq_some_iff] at e
      obtain ⟨m1, e1, e2⟩ := e
      exact nx (none_declare h e1) e2
    · simp only [Option.bind_eq_bind, Option.bind_eq_some_iff, Prod.exists] at e
      obtain ⟨_, _, _, e⟩ := e
      split at e
      · simp only [Option.bind_eq_some_iff, Prod.exists] at e
        obtain ⟨_, m1, e1, m2, e2, m3, e3, e4⟩ := e
        exact none_pre n (none_pre n (none_set (none_register h e1) e2) e3) e4
      · exact absurd e (by simp)
    · simp only [Option.bind_eq_bind, Option.bind_eq_some_iff, Prod.exists] at e
      obtain ⟨_, _, _, m1, e1, m2, e2, e3⟩ := e
      exact none_pre n (none_pre n (none_task (none_set (none_new h _ _) e1) _ _) e2) e3
    · exact nx (none_task h _ _) e
    · exact nx (none_task h _ _) e
    · exact nx (none_task h _ _) e
    · exact nx h e

/-- the function objects of a program hold no numbers before the program is executed -/
theorem none_program {cs : List Constraint} {m : Mem} (h : program cs = some m) : NoNumbers m := by
  simp only [program] at h
  exact none_pre _ (none_new (by intro f hf; simp at hf) _ _) h

end APS.Alias
