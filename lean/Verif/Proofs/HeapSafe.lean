import Verif.Proofs.HeapPre
import Verif.Proofs.Heap

/-! Programs whose subtractions have right operands that are computed on the spot run clean. -/
namespace APS.Alias
open APS.Circuit APS.Prog
open APS.Parse (Constraint)
open APS.Lex (TokenType)

variable {H : Name → Nat} {q : Nat}

/-- an operand that is computed on the spot: a literal, a product, a quotient, or a sum or difference of such operands -/
def simple : Constraint → Bool
  | .mk t is => t.type == .number || (t.type == .unassigned && match is with
    | [c] => simple c
    | [op, l, r] => op.output.type == .arithmetic && (op.output.text == ['*'] || op.output.text == ['/'] ||
        ((op.output.text == ['+'] || op.output.text == ['-']) && simple l && simple r))
    | _ => false)

/-- the right operand, if these are the inputs of a subtraction, is simple -/
def minusOK : List Constraint → Bool
  | [op, _, r] => !(op.output.type == .arithmetic && op.output.text == ['-']) || simple r
  | _ => true

mutual
/-- every subtraction in the constraint has a simple right operand -/
def safe : Constraint → Bool
  | .mk _ is => minusOK is && safeAll is
/-- every subtraction in the constraints has a simple right operand -/
def safeAll : List Constraint → Bool
  | [] => true
  | c :: cs => safe c && safeAll cs
end

theorem safeAll_iff {cs : List Constraint} : safeAll cs = true ↔ ∀ c ∈ cs, safe c = true := by
  induction cs with
  | nil => simp [safeAll]
  | cons c cs ih => simp [safeAll, ih]

/-- the inputs of a safe constraint -/
def SafeIs (is : List Constraint) : Prop := minusOK is = true ∧ ∀ c ∈ is, safe c = true

theorem safe_iff {c : Constraint} : safe c = true ↔ SafeIs c.inputs := by
  obtain ⟨t, is⟩ := c
  simp only [safe, Bool.and_eq_true, safeAll_iff]
  rfl

theorem safe_node {t : TokenType} {n : Name} {is : List Constraint} : safe (node t n is) = true ↔ SafeIs is := safe_iff

theorem SafeIs.nil : SafeIs [] := ⟨rfl, fun _ h => by cases h⟩
theorem SafeIs.one {c : Constraint} (h : safe c = true) : SafeIs [c] := ⟨rfl, fun x hx => by rw [List.mem_singleton.mp hx]; exact h⟩

/-- the statements of a function object -/
structure SafeObj (f : FObj) : Prop where
  tasks : ∀ c ∈ f.tasks, safe c = true
  cmap : ∀ p ∈ f.cmap, safe p.2 = true

/-- the statements of all function objects -/
def SafeMem (m : Mem) : Prop := ∀ f ∈ m.objs, SafeObj f

theorem SafeObj.nil {n : Name} {c : Option Nat} {i : Option Nat} : SafeObj { name := n, context := c, fmap := i } :=
  ⟨fun _ h => by simp at h, fun _ h => by simp at h⟩

theorem smem_new {m : Mem} (h : SafeMem m) (n : Name) (c : Option Nat) : SafeMem (m.newCircuit n c).2 := by
  intro f hf
  simp only [Mem.newCircuit, List.mem_append, List.mem_singleton] at hf
  rcases hf with hf | rfl
  · exact h f hf
  · exact SafeObj.nil

theorem smem_alloc {m : Mem} (h : SafeMem m) {f : FObj} (hf : SafeObj f) : SafeMem (m.alloc f).2 := by
  intro g hg
  simp only [Mem.alloc, List.mem_append, List.mem_singleton] at hg
  rcases hg with hg | rfl
  · exact h g hg
  · exact hf

theorem smem_update {m : Mem} (h : SafeMem m) (a : Nat) {g : FObj → FObj} (hg : ∀ o, SafeObj o → SafeObj (g o)) :
    SafeMem (m.update a g) := by
  intro f hf
  simp only [Mem.update] at hf
  obtain ⟨i, hi, e⟩ := List.getElem_of_mem hf
  rw [List.getElem_modify] at e
  rw [← e]
  split
  · exact hg _ (h _ (List.getElem_mem _))
  · exact h _ (List.getElem_mem _)

theorem smem_set {m m' : Mem} (h : SafeMem m) {a : Nat} {k : Name} {v : Nat} (e : m.setFunction a k v = some m') : SafeMem m' := by
  simp only [Mem.setFunction, Option.bind_eq_bind, Option.bind_eq_some_iff, Option.pure_def, Option.some.injEq] at e
  obtain ⟨_, _, _, _, rfl⟩ := e
  exact h

theorem smem_task {m : Mem} (h : SafeMem m) (a : Nat) {c : Constraint} (hc : safe c = true) : SafeMem (m.addTask a c) :=
  smem_update h a fun _ ho => ⟨fun x hx => by
    rcases List.mem_append.mp hx with hx | hx
    · exact ho.tasks x hx
    · rw [List.mem_singleton.mp hx]; exact hc, ho.cmap⟩

theorem safe_put {k : Name} {c : Constraint} {l : List (Name × Constraint)} (hc : safe c = true) (hl : ∀ p ∈ l, safe p.2 = true) :
    ∀ p ∈ put k c l, safe p.2 = true := fun p hp => by
  rcases put_mem hp with rfl | hp
  · exact hc
  · exact hl p hp

/-- set the only statement of an object -/
theorem smem_only {m : Mem} (h : SafeMem m) (a : Nat) {c : Constraint} (hc : safe c = true) {g : FObj → FObj}
    (ht : ∀ o, (g o).tasks = [c]) (hm : ∀ o, (g o).cmap = o.cmap) : SafeMem (m.update a g) :=
  smem_update h a fun o ho => ⟨fun x hx => by rw [ht o] at hx; rw [List.mem_singleton.mp hx]; exact hc, fun p hp => ho.cmap p (hm o ▸ hp)⟩

theorem smem_flat (n : Nat) : ∀ {m m' : Mem} {x c : Nat}, SafeMem m → flatCopy n m x = some (c, m') → SafeMem m' := by
  induction n with
  | zero => intro m m' x c _ h; cases h
  | succ n ih =>
    intro m m' x c hm h
    have key : ∀ (c : Nat) (es : List (Name × Nat)) (m m' : Mem), SafeMem m →
        (es.foldlM (fun (m : Mem) (x : Name × Nat) => do
          let (w, m) ← flatCopy n m x.2
          let m := m.update w fun g => { g with context := some c }
          m.setFunction c x.1 w) m) = some m' → SafeMem m' := by
      intro c es
      induction es with
      | nil => intro m m' hm h; cases h; exact hm
      | cons e es ihe =>
        intro m m' hm h
        simp only [List.foldlM_cons, Option.bind_eq_bind, Option.bind_eq_some_iff, Prod.exists] at h
        obtain ⟨m1, ⟨w, m2, h1, h2⟩, h3⟩ := h
        exact ihe _ _ (smem_set (smem_update (ih hm h1) _ (by exact fun _ ho => ⟨ho.tasks, ho.cmap⟩)) h2) (by simpa only [Option.bind_eq_bind] using h3)
    simp only [flatCopy, Option.bind_eq_bind, Option.bind_eq_some_iff, Option.pure_def, Option.some.injEq, Prod.mk.injEq] at h
    obtain ⟨f, hf, i, _, es, _, m1, h1, _, rfl⟩ := h
    have of := hm f (List.mem_of_getElem? hf)
    have hm1 : SafeMem ((m.newCircuit f.name f.context).2.update (m.newCircuit f.name f.context).1
        fun g => { g with inputs := f.inputs, cmap := f.cmap, tasks := f.tasks }) :=
      smem_update (smem_new hm _ _) _ fun _ _ => ⟨of.tasks, of.cmap⟩
    exact key _ es _ _ hm1 (by simpa only [Option.bind_eq_bind] using h1)

theorem smem_load {m m' : Mem} {x : Nat} {args : List Nat} {b : Bool} (hm : SafeMem m) (h : loadArgs m x args = some (b, m')) : SafeMem m' := by
  have key : ∀ (es : List (Name × Nat)) (m m' : Mem), SafeMem m →
      es.foldlM (fun (m : Mem) (p : Name × Nat) => m.setFunction x p.1 p.2) m = some m' → SafeMem m' := by
    intro es
    induction es with
    | nil => intro m m' hm h; cases h; exact hm
    | cons e es ihe =>
      intro m m' hm h
      simp only [List.foldlM_cons, Option.bind_eq_bind, Option.bind_eq_some_iff] at h
      obtain ⟨m1, h1, h2⟩ := h
      exact ihe _ _ (smem_set hm h1) h2
  simp only [loadArgs, Option.bind_eq_bind, Option.bind_eq_some_iff] at h
  obtain ⟨f, _, h⟩ := h
  split at h
  · cases h
  · simp only [Option.bind_eq_some_iff, Option.pure_def, Option.some.injEq, Prod.mk.injEq] at h
    obtain ⟨m1, h1, _, rfl⟩ := h
    exact smem_update (key _ _ _ hm h1) _ fun _ ho => ⟨ho.tasks, ho.cmap⟩

theorem safe_leaf (t : APS.Lex.Token) : safe (.mk t []) = true := safe_iff.mpr SafeIs.nil

theorem smem_storeOne {cs : Cells} {m : Mem} (hm : SafeMem m) (f : Factor) : SafeMem (hStoreOne cs m f).2 := by
  simp only [hStoreOne]
  have h1 : safe (node .ret [] [.mk (tokOf f.tok) []]) = true := safe_node.mpr (SafeIs.one (safe_leaf _))
  split
  · exact smem_only (smem_new hm _ _) _ h1 (fun _ => rfl) (fun _ => rfl)
  · split
    · exact smem_only (smem_new hm _ _) _ h1 (fun _ => rfl) (fun _ => rfl)
    · refine smem_only (smem_new hm _ _) _ (c := node .ret [] [node .arithmetic ['*'], node .number (intStr (val cs f.mul)), .mk (tokOf f.tok) []]) ?_ (fun _ => rfl) (fun _ => rfl)
      refine safe_node.mpr ⟨rfl, fun c hc => ?_⟩
      simp only [List.mem_cons, List.not_mem_nil, or_false] at hc
      rcases hc with rfl | rfl | rfl <;> exact safe_leaf _

theorem smem_combine {cs cs' : Cells} {m m' : Mem} {x y r : Nat} (hm : SafeMem m) (h : hCombine q m x y cs = some (r, m', cs')) : SafeMem m' := by
  simp only [hCombine, Option.bind_eq_bind, Option.bind_eq_some_iff] at h
  obtain ⟨fa, _, fb, _, h⟩ := h
  split at h
  · simp only [Option.pure_def, Option.some.injEq, Prod.mk.injEq, newCell] at h
    obtain ⟨_, rfl, rfl⟩ := h
    exact smem_storeOne hm _
  · simp only [Option.bind_eq_some_iff, Option.pure_def, Option.some.injEq, Prod.mk.injEq] at h
    obtain ⟨m1, h1, m2, h2, _, rfl, rfl⟩ := h
    refine smem_only (smem_set (smem_set (smem_new hm _ _) h1) h2) _ (c := node .ret [] [node .arithmetic ['+'], node .functionCall fa.name, node .functionCall fb.name]) ?_ (fun _ => rfl) (fun _ => rfl)
    refine safe_node.mpr ⟨rfl, fun c hc => ?_⟩
    simp only [List.mem_cons, List.not_mem_nil, or_false] at hc
    rcases hc with rfl | rfl | rfl <;> exact safe_leaf _

theorem smem_store (l : Factors) : ∀ {cs cs' : Cells} {m m' : Mem} {r : Nat}, SafeMem m → hStore q l m cs = some (r, m', cs') → SafeMem m' := by
  induction l with
  | nil =>
    intro cs cs' m m' r hm h
    simp only [hStore, Option.some.injEq, Prod.mk.injEq] at h
    obtain ⟨_, rfl, rfl⟩ := h
    exact smem_alloc hm SafeObj.nil
  | cons f fs ih =>
    intro cs cs' m m' r hm h
    cases fs with
    | nil =>
      simp only [hStore, Option.some.injEq, Prod.mk.injEq] at h
      obtain ⟨_, rfl, rfl⟩ := h
      exact smem_storeOne hm _
    | cons g fs =>
      simp only [hStore, Option.bind_eq_bind, Option.bind_eq_some_iff, Prod.exists] at h
      obtain ⟨b, m1, cs1, h1, h2⟩ := h
      exact smem_combine (ih (smem_storeOne hm _) h1) h2

theorem safe_find {m : Mem} (hm : SafeMem m) (n : Nat) : ∀ {a : Option Nat} {k : Name} {c : Constraint}, m.findConstraint n a k = some c → safe c = true := by
  induction n with
  | zero => intro a k c h; cases h
  | succ n ih =>
    intro a k c h
    cases a with
    | none => cases h
    | some a =>
      simp only [Mem.findConstraint] at h
      split at h
      · rename_i c' hc
        cases h
        obtain ⟨o, ho, hl⟩ := Option.bind_eq_some_iff.mp hc
        exact (hm o (List.mem_of_getElem? ho)).cmap _ (mem_of_lookup hl)
      · exact ih h

/-! ### the function objects of a safe program -/

theorem smem_regArg {m m' : Mem} (h : SafeMem m) {a : Nat} {c : Constraint} (hc : safe c = true) (e : registerArg a m c = some m') : SafeMem m' := by
  simp only [registerArg] at e
  split at e
  · exact absurd e (by simp)
  · refine smem_set (smem_only (smem_new (smem_update h _ fun o ho => ?_) _ _) _ (c := node .ret [] [c]) (safe_node.mpr (SafeIs.one hc)) (fun _ => by rfl) (fun _ => by rfl)) e
    exact ⟨ho.tasks, safe_put (safe_node.mpr (safe_iff.mp hc)) ho.cmap⟩

theorem smem_regArgs {a : Nat} : ∀ (is : List Constraint) {m m' : Mem}, SafeMem m → (∀ c ∈ is, safe c = true) →
    is.foldlM (registerArg a) m = some m' → SafeMem m'
  | [], m, m', h, _, e => by
    simp only [List.foldlM_nil, Option.pure_def, Option.some.injEq] at e
    exact e ▸ h
  | i :: is, m, m', h, hi, e => by
    simp only [List.foldlM_cons, Option.bind_eq_bind, Option.bind_eq_some_iff] at e
    obtain ⟨m1, e1, e2⟩ := e
    exact smem_regArgs is (smem_regArg h (hi i (List.mem_cons_self ..)) e1) (fun c hc => hi c (List.mem_cons_of_mem _ hc)) e2

theorem smem_register {m m' : Mem} (h : SafeMem m) {c : Constraint} (hc : safe c = true) {x a : Nat} (e : register m c x = some (a, m')) : SafeMem m' := by
  simp only [register, Option.bind_eq_bind, Option.bind_eq_some_iff, Option.pure_def, Option.some.injEq, Prod.mk.injEq] at e
  obtain ⟨m1, e1, _, rfl⟩ := e
  exact smem_regArgs _ (smem_new h _ _) (safe_iff.mp hc).2 e1

theorem smem_declare {m m' : Mem} (h : SafeMem m) {cur : Nat} {o : APS.Lex.Token} {is : List Constraint} (hi : SafeIs is)
    (e : declare m cur o is = some m') : SafeMem m' := by
  simp only [declare] at e
  split at e
  · exact absurd e (by simp)
  · simp only [Option.bind_eq_bind, Option.bind_eq_some_iff, Option.pure_def, Option.some.injEq] at e
    obtain ⟨m1, e1, x, hx, rfl⟩ := e
    have ht : safe (node .varOverload [] [.mk o [], x]) = true := by
      refine safe_node.mpr ⟨rfl, fun c hc => ?_⟩
      simp only [List.mem_cons, List.not_mem_nil, or_false] at hc
      rcases hc with rfl | rfl
      · exact safe_leaf _
      · exact hi.2 _ (List.mem_of_mem_head? hx)
    refine smem_task (smem_update (smem_set (smem_only (smem_new h _ _) _ (c := node .ret [] is) (safe_node.mpr hi) (fun _ => by rfl) (fun _ => by rfl)) e1) _ (by exact fun o ho =>
      ⟨ho.tasks, safe_put (safe_node.mpr SafeIs.nil) ho.cmap⟩)) _ ht

theorem smem_elems {cur : Nat} {a : Name} : ∀ (es : List Constraint) (i : Nat) {m m' : Mem}, SafeMem m → (∀ c ∈ es, safe c = true) →
    declareElems cur a i es m = some m' → SafeMem m'
  | [], i, m, m', h, _, e => by
    simp only [declareElems, Option.some.injEq] at e
    exact e ▸ h
  | x :: es, i, m, m', h, hi, e => by
    simp only [declareElems, Option.bind_eq_bind, Option.bind_eq_some_iff] at e
    obtain ⟨m1, e1, e2⟩ := e
    split at e2
    · exact smem_elems es _ (smem_declare h (SafeIs.one (hi x (List.mem_cons_self ..))) e1) (fun c hc => hi c (List.mem_cons_of_mem _ hc)) e2
    · exact absurd e2 (by simp)

theorem ifEnd_mem {cs l r : List Constraint} (h : splitAtIfEnd cs = some (l, r)) : ∀ c, c ∈ l ∨ c ∈ r → c ∈ cs := by
  induction cs generalizing l r with
  | nil => cases h
  | cons x cs ih =>
    simp only [splitAtIfEnd] at h
    split at h
    · cases h
      simp
    · simp only [Option.map_eq_some_iff, Prod.exists, Prod.mk.injEq] at h
      obtain ⟨l', r', h1, rfl, rfl⟩ := h
      intro c hc
      have := ih h1 c
      simp only [List.mem_cons] at hc ⊢
      tauto

theorem nested_mem {cs : List Constraint} : ∀ {i : Int} {l r : List Constraint}, nestedScan i cs = some (l, r) → ∀ c, c ∈ l ∨ c ∈ r → c ∈ cs := by
  induction cs with
  | nil => intro i l r h; cases h
  | cons x cs ih =>
    intro i l r h
    simp only [nestedScan] at h
    generalize (if x.output.type = .nestedEnd then _ else _ : Int) = j at h
    split at h
    · cases h
      intro c hc
      simp only [List.not_mem_nil, false_or] at hc
      exact List.mem_cons_of_mem _ hc
    · simp only [Option.map_eq_some_iff, Prod.exists, Prod.mk.injEq] at h
      obtain ⟨l', r', h1, rfl, rfl⟩ := h
      intro c hc
      have := ih h1 c
      simp only [List.mem_cons] at hc ⊢
      tauto

theorem smem_pre : ∀ (n : Nat) {m m' : Mem} {cur : Nat} {cs : List Constraint}, SafeMem m → (∀ c ∈ cs, safe c = true) →
    preCompile n m cur cs = some m' → SafeMem m'
  | 0, m, m', cur, cs, h, _, e => by simp [preCompile] at e
  | n + 1, m, m', cur, [], h, _, e => by
    simp only [preCompile, Option.some.injEq] at e
    exact e ▸ h
  | n + 1, m, m', cur, c :: cs, h, hc, e => by
    have hcs : ∀ x ∈ cs, safe x = true := fun x hx => hc x (List.mem_cons_of_mem _ hx)
    have hc0 : safe c = true := hc c (List.mem_cons_self ..)
    have nx : ∀ {m1 : Mem}, SafeMem m1 →
        (if contextCheck.contextCheckAll m1 cur c.inputs then preCompile n m1 cur cs else none) = some m' → SafeMem m' := by
      intro m1 h1 e1
      split at e1
      · exact smem_pre n h1 hcs e1
      · exact absurd e1 (by simp)
    have hd : ∀ {l : List Constraint} {f : Constraint}, l.head? = some f → (∀ x ∈ l, safe x = true) → SafeIs f.inputs :=
      fun hl hs => safe_iff.mp (hs _ (List.mem_of_mem_head? hl))
    have hdrop : ∀ {l : List Constraint}, (∀ x ∈ l, safe x = true) → ∀ x ∈ l.drop 1, safe x = true := fun hs x hx => hs x (List.mem_of_mem_drop hx)
    simp only [preCompile] at e
    split at e
    · split at e
      · exact nx h e
      · exact absurd e (by simp)
    · simp only [Option.bind_eq_bind, Option.bind_eq_some_iff, Prod.exists] at e
      obtain ⟨entire, outside, e0, m1, e1, first, rest, e1', m2, e2, f0, ef, m3, e3, m4, e4, e5⟩ := e
      have i1 := ifEnd_mem e0
      have i2 := nested_mem e1'
      have s1 : ∀ x ∈ outside, safe x = true := fun x hx => hc x (i1 x (Or.inr hx))
      have s2 : ∀ x ∈ first, safe x = true := fun x hx => hc x (i1 x (Or.inl (i2 x (Or.inl hx))))
      have s3 : ∀ x ∈ rest, safe x = true := fun x hx => hc x (i1 x (Or.inl (i2 x (Or.inr hx))))
      refine smem_pre n (smem_pre n (smem_pre n (smem_task (smem_set (smem_new (smem_task (smem_set (smem_new h _ _) e1) _ (safe_node.mpr SafeIs.nil)) _ _) e2) _
        (safe_node.mpr (hd ef s2))) s1 e3) (hdrop s2) e4) s3 e5
    · simp only [Option.bind_eq_bind, Option.bind_eq_some_iff, Prod.exists] at e
      obtain ⟨first, rest, e0, m1, e1, f0, ef, m2, e2, e3⟩ := e
      have i2 := nested_mem e0
      have s2 : ∀ x ∈ first, safe x = true := fun x hx => hc x (i2 x (Or.inl hx))
      have s3 : ∀ x ∈ rest, safe x = true := fun x hx => hc x (i2 x (Or.inr hx))
      exact smem_pre n (smem_pre n (smem_task (smem_set (smem_new h _ _) e1) _ (safe_node.mpr (hd ef s2))) s3 e2) (hdrop s2) e3
    · split at e
      · exact absurd e (by simp)
      · simp only [Option.bind_eq_bind, Option.bind_eq_some_iff] at e
        obtain ⟨m1, e1, e2⟩ := e
        exact nx (smem_elems _ _ (smem_update h _ (by exact fun o ho => ⟨ho.tasks, safe_put hc0 ho.cmap⟩)) (safe_iff.mp hc0).2 e1) e2
    · simp only [Option.bind_eq_bind, Option.bind_eq_some_iff] at e
      obtain ⟨m1, e1, e2⟩ := e
      exact nx (smem_declare h (safe_iff.mp hc0) e1) e2
    · simp only [Option.bind_eq_bind, Option.bind_eq_some_iff, Prod.exists] at e
      obtain ⟨inside, outside, e0, e⟩ := e
      have i2 := nested_mem e0
      have s2 : ∀ x ∈ inside, safe x = true := fun x hx => hc x (i2 x (Or.inl hx))
      have s3 : ∀ x ∈ outside, safe x = true := fun x hx => hc x (i2 x (Or.inr hx))
      split at e
      · simp only [Option.bind_eq_some_iff, Prod.exists] at e
        obtain ⟨_, m1, e1, m2, e2, m3, e3, e4⟩ := e
        exact smem_pre n (smem_pre n (smem_set (smem_register h hc0 e1) e2) s3 e3) (hdrop s2) e4
      · exact absurd e (by simp)
    · simp only [Option.bind_eq_bind, Option.bind_eq_some_iff, Prod.exists] at e
      obtain ⟨inside, outside, e0, m1, e1, m2, e2, e3⟩ := e
      have i2 := nested_mem e0
      have s2 : ∀ x ∈ inside, safe x = true := fun x hx => hc x (i2 x (Or.inl hx))
      have s3 : ∀ x ∈ outside, safe x = true := fun x hx => hc x (i2 x (Or.inr hx))
      exact smem_pre n (smem_pre n (smem_task (smem_set (smem_new h _ _) e1) _ (safe_node.mpr (safe_iff.mp hc0))) s3 e2) (hdrop s2) e3
    · exact nx (smem_task h _ hc0) e
    · exact nx (smem_task h _ hc0) e
    · exact nx (smem_task h _ hc0) e
    · exact nx h e

/-- the function objects of a safe program are safe -/
theorem smem_program {cs : List Constraint} {m : Mem} (hc : ∀ c ∈ cs, safe c = true) (h : program cs = some m) : SafeMem m := by
  simp only [program] at h
  exact smem_pre _ (smem_new (by intro f hf; simp at hf) _ _) hc h

end APS.Alias
