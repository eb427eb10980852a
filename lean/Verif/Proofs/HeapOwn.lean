import Verif.Proofs.HeapMem

/-!
Who holds the cells: the result of `compile` consists of cells of its own, of the package variables and of the numbers of
constant variables.  So a negation can only be seen elsewhere through `bigOne` or a constant variable.
-/
namespace APS.Alias
open APS.Circuit APS.Prog
open APS.Parse (Constraint)

/-- a number object of the program holds the cell -/
def Num (m : Mem) (a : Int) : Prop := ∃ f ∈ m.objs, f.isNumber = true ∧ f.value = a

/-- a gate holds the cell -/
def GHolds (s : St) (a : Int) : Prop := ∃ g ∈ s.c.gates, ∃ f ∈ g.left ++ g.right ++ g.expo ++ g.out, f.mul = a

/-- an object or a gate holds the cell -/
def Held (w : HW) (a : Int) : Prop := Num w.m a ∨ GHolds w.s a

/-! ### the function objects -/

theorem num_new {m : Mem} {n : Name} {c : Option Nat} {a : Int} : Num (m.newCircuit n c).2 a ↔ Num m a := by
  simp only [Num, Mem.newCircuit, List.mem_append, List.mem_singleton]
  constructor
  · rintro ⟨f, hf | rfl, h1, h2⟩
    · exact ⟨f, hf, h1, h2⟩
    · cases h1
  · rintro ⟨f, hf, h⟩
    exact ⟨f, Or.inl hf, h⟩

theorem num_update {m : Mem} {i : Nat} {g : FObj → FObj} (hg : ∀ o, (g o).isNumber = o.isNumber) (hv : ∀ o, (g o).value = o.value)
    {a : Int} : Num (m.update i g) a ↔ Num m a := by
  simp only [Num, Mem.update]
  constructor
  · rintro ⟨f, hf, h1, h2⟩
    obtain ⟨j, hj, e⟩ := List.getElem_of_mem hf
    rw [List.getElem_modify] at e
    refine ⟨m.objs[j]'(by simpa using hj), List.getElem_mem _, ?_⟩
    split at e
    · rw [← e] at h1 h2
      exact ⟨(hg _).symm.trans h1, (hv _).symm.trans h2⟩
    · rw [← e] at h1 h2
      exact ⟨h1, h2⟩
  · rintro ⟨f, hf, h1, h2⟩
    obtain ⟨j, hj, e⟩ := List.getElem_of_mem hf
    have hj' : j < (m.objs.modify i g).length := by simpa using hj
    refine ⟨(m.objs.modify i g)[j], List.getElem_mem _, ?_⟩
    rw [List.getElem_modify]
    split
    · rw [hg, hv, e]
      exact ⟨h1, h2⟩
    · rw [e]
      exact ⟨h1, h2⟩

theorem num_set {m m' : Mem} {i : Nat} {k : Name} {v : Nat} (e : m.setFunction i k v = some m') {a : Int} : Num m' a ↔ Num m a := by
  simp only [Mem.setFunction, Option.bind_eq_bind, Option.bind_eq_some_iff, Option.pure_def, Option.some.injEq] at e
  obtain ⟨_, _, _, _, rfl⟩ := e
  exact Iff.rfl

theorem num_alloc {m : Mem} {f : FObj} {a : Int} : Num (m.alloc f).2 a ↔ Num m a ∨ (f.isNumber = true ∧ f.value = a) := by
  simp only [Num, Mem.alloc, List.mem_append, List.mem_singleton]
  constructor
  · rintro ⟨g, hg | rfl, h⟩
    · exact Or.inl ⟨g, hg, h⟩
    · exact Or.inr h
  · rintro (⟨g, hg, h⟩ | h)
    · exact ⟨g, Or.inl hg, h⟩
    · exact ⟨f, Or.inr rfl, h⟩

theorem num_flat (n : Nat) : ∀ {m m' : Mem} {x c : Nat}, flatCopy n m x = some (c, m') → ∀ {a : Int}, Num m' a ↔ Num m a := by
  induction n with
  | zero => intro m m' x c h; cases h
  | succ n ih =>
    intro m m' x c h a
    have key : ∀ (c : Nat) (es : List (Name × Nat)) (m m' : Mem),
        (es.foldlM (fun (m : Mem) (x : Name × Nat) => do
          let (w, m) ← flatCopy n m x.2
          let m := m.update w fun g => { g with context := some c }
          m.setFunction c x.1 w) m) = some m' → (Num m' a ↔ Num m a) := by
      intro c es
      induction es with
      | nil => intro m m' h; cases h; exact Iff.rfl
      | cons e es ihe =>
        intro m m' h
        simp only [List.foldlM_cons, Option.bind_eq_bind, Option.bind_eq_some_iff, Prod.exists] at h
        obtain ⟨m1, ⟨w, m2, h1, h2⟩, h3⟩ := h
        refine (ihe _ _ (by simpa only [Option.bind_eq_bind] using h3)).trans ((num_set h2).trans ?_)
        exact (num_update (fun _ => by rfl) (fun _ => by rfl)).trans (ih h1)
    simp only [flatCopy, Option.bind_eq_bind, Option.bind_eq_some_iff, Option.pure_def, Option.some.injEq, Prod.mk.injEq] at h
    obtain ⟨f, _, i, _, es, _, m1, h1, _, rfl⟩ := h
    refine (key _ es _ _ (by simpa only [Option.bind_eq_bind] using h1)).trans ?_
    exact (num_update (fun _ => by rfl) (fun _ => by rfl)).trans num_new

theorem num_load {m m' : Mem} {x : Nat} {args : List Nat} {b : Bool} (h : loadArgs m x args = some (b, m')) {a : Int} :
    Num m' a ↔ Num m a := by
  have key : ∀ (es : List (Name × Nat)) (m m' : Mem),
      es.foldlM (fun (m : Mem) (p : Name × Nat) => m.setFunction x p.1 p.2) m = some m' → (Num m' a ↔ Num m a) := by
    intro es
    induction es with
    | nil => intro m m' h; cases h; exact Iff.rfl
    | cons e es ihe =>
      intro m m' h
      simp only [List.foldlM_cons, Option.bind_eq_bind, Option.bind_eq_some_iff] at h
      obtain ⟨m1, h1, h2⟩ := h
      exact (ihe _ _ h2).trans (num_set h1)
  simp only [loadArgs, Option.bind_eq_bind, Option.bind_eq_some_iff] at h
  obtain ⟨f, _, h⟩ := h
  split at h
  · cases h
  · simp only [Option.bind_eq_some_iff, Option.pure_def, Option.some.injEq, Prod.mk.injEq] at h
    obtain ⟨m1, h1, _, rfl⟩ := h
    exact (num_update (fun _ => by rfl) (fun _ => by rfl)).trans (key _ _ _ h1)

/-- storing one factor: a number shares its cell -/
theorem num_storeOne {cs : Cells} {m : Mem} {f : Factor} {a : Int} :
    Num (hStoreOne cs m f).2 a ↔ Num m a ∨ (f.tok.isNum = true ∧ f.mul = a) := by
  simp only [hStoreOne]
  split
  · rename_i e
    have hobj : ((m.newCircuit f.tok.ident none).2.update (m.newCircuit f.tok.ident none).1 fun g =>
        { g with tasks := [node .ret [] [.mk (tokOf f.tok) []]], isNumber := true, value := f.mul }).objs =
        m.objs ++ [{ name := f.tok.ident, fmap := some m.maps.length, tasks := [node .ret [] [.mk (tokOf f.tok) []]], isNumber := true, value := f.mul }] := by
      simp [Mem.update, Mem.newCircuit, List.modify_eq_set_getElem?, List.set_append_right]
    simp only [Num, hobj, List.mem_append, List.mem_singleton]
    constructor
    · rintro ⟨g, hg | rfl, h⟩
      · exact Or.inl ⟨g, hg, h⟩
      · exact Or.inr ⟨e, h.2⟩
    · rintro (⟨g, hg, h⟩ | h)
      · exact ⟨g, Or.inl hg, h⟩
      · exact ⟨_, Or.inr rfl, rfl, h.2⟩
  · rename_i e
    have e' : f.tok.isNum = false := by simpa using e
    split
    · refine (num_update (fun _ => by rfl) (fun _ => by rfl)).trans (num_new.trans ?_)
      simp [e']
    · refine (num_update (fun _ => by rfl) (fun _ => by rfl)).trans (num_new.trans ?_)
      simp [e']

theorem num_combine {q : Nat} {cs cs' : Cells} {m m' : Mem} {x y r : Nat} (h : hCombine q m x y cs = some (r, m', cs')) :
    cs.length ≤ cs'.length ∧ (∀ a, Num m a → Num m' a) ∧ ∀ a, Num m' a → Num m a ∨ ((cs.length : Int) ≤ a ∧ a < cs'.length) := by
  simp only [hCombine, Option.bind_eq_bind, Option.bind_eq_some_iff] at h
  obtain ⟨fa, _, fb, _, h⟩ := h
  split at h
  · simp only [Option.pure_def, Option.some.injEq, Prod.mk.injEq, newCell] at h
    obtain ⟨_, rfl, rfl⟩ := h
    refine ⟨by simp, fun a ha => num_storeOne.mpr (Or.inl ha), fun a ha => ?_⟩
    rcases num_storeOne.mp ha with ha | ⟨_, rfl⟩
    · exact Or.inl ha
    · exact Or.inr (by simp only [List.length_append, List.length_singleton]; omega)
  · simp only [Option.bind_eq_some_iff, Option.pure_def, Option.some.injEq, Prod.mk.injEq] at h
    obtain ⟨m1, h1, m2, h2, _, rfl, rfl⟩ := h
    have : ∀ a, Num (m2.update (m.newCircuit [] none).1 fun g => { g with tasks :=
        [node .ret [] [node .arithmetic ['+'], node .functionCall fa.name, node .functionCall fb.name]] }) a ↔ Num m a := fun a =>
      (num_update (fun _ => by rfl) (fun _ => by rfl)).trans ((num_set h2).trans ((num_set h1).trans num_new))
    exact ⟨le_refl _, fun a => (this a).mpr, fun a ha => Or.inl ((this a).mp ha)⟩

theorem num_store {q : Nat} (l : Factors) : ∀ {cs cs' : Cells} {m m' : Mem} {r : Nat}, hStore q l m cs = some (r, m', cs') →
    cs.length ≤ cs'.length ∧ (∀ a, Num m a → Num m' a) ∧
    ∀ a, Num m' a → Num m a ∨ ((cs.length : Int) ≤ a ∧ a < cs'.length) ∨ ∃ f ∈ l, f.tok.isNum = true ∧ f.mul = a := by
  induction l with
  | nil =>
    intro cs cs' m m' r h
    simp only [hStore, Option.some.injEq, Prod.mk.injEq] at h
    obtain ⟨_, rfl, rfl⟩ := h
    refine ⟨le_refl _, fun a ha => num_alloc.mpr (Or.inl ha), fun a ha => ?_⟩
    rcases num_alloc.mp ha with ha | ⟨h, _⟩
    · exact Or.inl ha
    · cases h
  | cons f fs ih =>
    intro cs cs' m m' r h
    cases fs with
    | nil =>
      simp only [hStore, Option.some.injEq, Prod.mk.injEq] at h
      obtain ⟨_, rfl, rfl⟩ := h
      refine ⟨le_refl _, fun a ha => num_storeOne.mpr (Or.inl ha), fun a ha => ?_⟩
      rcases num_storeOne.mp ha with ha | ha
      · exact Or.inl ha
      · exact Or.inr (Or.inr ⟨f, by simp, ha⟩)
    | cons g fs =>
      simp only [hStore, Option.bind_eq_bind, Option.bind_eq_some_iff, Prod.exists] at h
      obtain ⟨b, m1, cs1, h1, h2⟩ := h
      obtain ⟨i1, i2, i3⟩ := ih h1
      obtain ⟨j1, j2, j3⟩ := num_combine h2
      refine ⟨i1.trans j1, fun a ha => j2 _ (i2 _ (num_storeOne.mpr (Or.inl ha))), fun a ha => ?_⟩
      rcases j3 a ha with ha | ha
      · rcases i3 a ha with ha | ha | ⟨x, hx, e⟩
        · rcases num_storeOne.mp ha with ha | ha
          · exact Or.inl ha
          · exact Or.inr (Or.inr ⟨f, by simp, ha⟩)
        · exact Or.inr (Or.inl ⟨ha.1, by omega⟩)
        · exact Or.inr (Or.inr ⟨x, List.mem_cons_of_mem _ hx, e⟩)
      · exact Or.inr (Or.inl ⟨by omega, ha.2⟩)

/-! ### linear forms -/

/-- no cell occurs twice, except the shared ones -/
def Apart (S : Int → Prop) (l : Factors) : Prop := l.Pairwise fun f g => f.mul = g.mul → S f.mul

theorem newForm_own (l : Factors) : ∀ (cs : Cells), cs.length ≤ (newForm l cs).2.length ∧
    (∀ f ∈ (newForm l cs).1, (cs.length : Int) ≤ f.mul ∧ f.mul < (newForm l cs).2.length) ∧ ∀ S, Apart S (newForm l cs).1 := by
  induction l with
  | nil => intro cs; exact ⟨le_refl _, fun f hf => (by simp [newForm] at hf), fun S => List.Pairwise.nil⟩
  | cons f fs ih =>
    intro cs
    obtain ⟨h1, h2, h3⟩ := ih (cs ++ [f.mul])
    simp only [newForm]
    simp only [List.length_append, List.length_singleton] at h1 h2
    refine ⟨by omega, fun g hg => ?_, fun S => List.Pairwise.cons (fun g hg e => ?_) (h3 S)⟩
    · rcases List.mem_cons.mp hg with rfl | hg
      · exact ⟨by simp, by simp only; omega⟩
      · have := h2 g hg
        push_cast at this
        omega
    · have := h2 g hg
      push_cast at this
      simp only at e
      omega

theorem addInto_own {q : Nat} (l : Factor) : ∀ (r : Factors) {r' : Factors} {cs cs' : Cells}, hAddInto q l r cs = some (r', cs') →
    ∃ A x B t, r = A ++ x :: B ∧ r' = A ++ (⟨t, cs.length⟩ : Factor) :: B ∧ cs'.length = cs.length + 1 := by
  intro r
  induction r with
  | nil => intro r' cs cs' h; cases h
  | cons y r ih =>
    intro r' cs cs' h
    simp only [hAddInto] at h
    split at h
    · rename_i s cs1 hs
      simp only [Option.some.injEq, Prod.mk.injEq] at h
      obtain ⟨rfl, rfl⟩ := h
      simp only [hAddFactor, Option.map_eq_some_iff, Prod.mk.injEq] at hs
      obtain ⟨f, _, rfl, rfl⟩ := hs
      exact ⟨[], y, r, f.tok, rfl, rfl, by simp⟩
    · simp only [Option.map_eq_some_iff, Prod.exists, Prod.mk.injEq] at h
      obtain ⟨rs, cs1, h1, rfl, rfl⟩ := h
      obtain ⟨A, x, B, t, rfl, rfl, e⟩ := ih h1
      exact ⟨y :: A, x, B, t, rfl, rfl, e⟩

theorem apart_replace {S : Int → Prop} {A B : Factors} {x y : Factor} (h : Apart S (A ++ x :: B))
    (hA : ∀ f ∈ A, f.mul < y.mul) (hB : ∀ f ∈ B, f.mul < y.mul) : Apart S (A ++ y :: B) := by
  unfold Apart at h ⊢
  rw [List.pairwise_append] at h ⊢
  obtain ⟨h1, h2, h3⟩ := h
  rw [List.pairwise_cons] at h2 ⊢
  refine ⟨h1, ⟨fun f hf e => ?_, h2.2⟩, fun f hf g hg e => ?_⟩
  · have := hB f hf
    omega
  · rcases List.mem_cons.mp hg with rfl | hg
    · have := hA f hf
      omega
    · exact h3 f hf g (List.mem_cons_of_mem _ hg) e

theorem addLoop_own {q : Nat} {S : Int → Prop} : ∀ (l r : Factors) (cs : Cells),
    (∀ f ∈ l ++ r, f.mul < cs.length) → Apart S (l ++ r) →
    cs.length ≤ (hAddLoop q l r cs).2.2.length ∧
    (∀ f ∈ (hAddLoop q l r cs).1 ++ (hAddLoop q l r cs).2.1, f ∈ l ++ r ∨
      ((cs.length : Int) ≤ f.mul ∧ f.mul < (hAddLoop q l r cs).2.2.length)) ∧
    Apart S ((hAddLoop q l r cs).1 ++ (hAddLoop q l r cs).2.1) := by
  intro l
  induction l with
  | nil => intro r cs hl h; exact ⟨le_refl _, fun f hf => Or.inl hf, h⟩
  | cons x l ih =>
    intro r cs hl h
    simp only [hAddLoop]
    have h' : Apart S (l ++ r) := (List.pairwise_cons.mp h).2
    split
    · rename_i r' cs1 e
      obtain ⟨A, y, B, t, rfl, rfl, e1⟩ := addInto_own x r e
      have hl' : ∀ f ∈ l ++ (A ++ y :: B), f.mul < cs.length := fun f hf => hl f (List.mem_cons_of_mem _ hf)
      have k : Apart S (l ++ (A ++ (⟨t, cs.length⟩ : Factor) :: B)) := by
        rw [← List.append_assoc] at h' hl' ⊢
        exact apart_replace h' (fun f hf => hl' f (List.mem_append_left _ hf))
          (fun f hf => hl' f (List.mem_append_right _ (List.mem_cons_of_mem _ hf)))
      have hb : ∀ f ∈ l ++ (A ++ (⟨t, cs.length⟩ : Factor) :: B), f ∈ l ++ (A ++ y :: B) ∨ f.mul = cs.length := by
        intro f hf
        simp only [List.mem_append, List.mem_cons] at hf ⊢
        rcases hf with hf | hf | rfl | hf
        · exact Or.inl (Or.inl hf)
        · exact Or.inl (Or.inr (Or.inl hf))
        · exact Or.inr rfl
        · exact Or.inl (Or.inr (Or.inr (Or.inr hf)))
      obtain ⟨i1, i2, i3⟩ := ih _ cs1 (fun f hf => by
        rcases hb f hf with hf | hf
        · have := hl' f hf
          omega
        · omega) k
      refine ⟨by omega, fun f hf => ?_, i3⟩
      rcases i2 f hf with hf | hf
      · rcases hb f hf with hf | hf
        · exact Or.inl (List.mem_cons_of_mem _ hf)
        · exact Or.inr ⟨by omega, by omega⟩
      · exact Or.inr ⟨by omega, by omega⟩
    · obtain ⟨i1, i2, i3⟩ := ih r cs (fun f hf => hl f (List.mem_cons_of_mem _ hf)) h'
      refine ⟨i1, fun f hf => ?_, List.Pairwise.cons (fun g hg e => ?_) i3⟩
      · rcases List.mem_cons.mp hf with rfl | hf
        · exact Or.inl (List.mem_cons_self ..)
        · rcases i2 f hf with hf | hf
          · exact Or.inl (List.mem_cons_of_mem _ hf)
          · exact Or.inr hf
      · rcases i2 g hg with hg | hg
        · exact (List.pairwise_cons.mp h).1 g hg e
        · have := hl x (List.mem_cons_self ..)
          omega

theorem addFactors_own {q : Nat} {S : Int → Prop} {l r : Factors} {cs : Cells}
    (hl : ∀ f ∈ l ++ r, f.mul < cs.length) (h : Apart S (l ++ r)) :
    cs.length ≤ (hAddFactors q l r cs).2.length ∧
    (∀ f ∈ (hAddFactors q l r cs).1, f ∈ l ++ r ∨ f.mul = bigZero ∨
      ((cs.length : Int) ≤ f.mul ∧ f.mul < (hAddFactors q l r cs).2.length)) ∧
    Apart S (hAddFactors q l r cs).1 := by
  obtain ⟨h1, h2, h3⟩ := addLoop_own (q := q) l r cs hl h
  simp only [hAddFactors]
  refine ⟨h1, ?_, ?_⟩
  · split
    · intro f hf
      rw [List.mem_singleton.mp hf]
      exact Or.inr (Or.inl rfl)
    · intro f hf
      have : f ∈ (hAddLoop q l r cs).1 ++ (hAddLoop q l r cs).2.1 := by
        rcases List.mem_append.mp hf with hf | hf
        · exact List.mem_append_left _ hf
        · exact List.mem_append_right _ (List.mem_of_mem_filter hf)
      rcases h2 f this with hf | hf
      · exact Or.inl hf
      · exact Or.inr (Or.inr hf)
  · split
    · exact List.pairwise_singleton _ _
    · exact List.Pairwise.sublist ((List.Sublist.refl _).append List.filter_sublist) h3

theorem negate_own (l : Factors) : ∀ (cs : Cells), (hNegate l cs).2.length = cs.length ∧
    (hNegate l cs).1.map Factor.mul = l.map Factor.mul ∧ (hNegate l cs).1.map (·.tok.isNum) = l.map (·.tok.isNum) := by
  induction l with
  | nil => intro cs; exact ⟨rfl, rfl, rfl⟩
  | cons f fs ih =>
    intro cs
    obtain ⟨h1, h2, h3⟩ := ih (cs.modify f.mul.toNat (- ·))
    simp only [hNegate]
    refine ⟨by rw [h1, List.length_modify], ?_, ?_⟩
    · rw [List.map_cons, h2, List.map_cons]
      split <;> rfl
    · rw [List.map_cons, h3, List.map_cons]
      split
      · rename_i e
        rw [e]
      · rfl

end APS.Alias
