import Verif.Proofs.HeapShare

/-! `compile` returns cells of its own, package variables and the numbers of constant variables. -/
namespace APS.Alias
open APS.Circuit APS.Prog
open APS.Parse (Constraint)

variable {H : Name → Nat} {q : Nat} {hc : HComp}

/-- a part of the execution with a result -/
structure Go (w w' : HW) : Prop where
  lt : Lt w'
  move : Move w w'

/-- the results of `compile` -/
structure GoRes (n : Nat) (w' : HW) (r : Res) : Prop where
  out : Out n w' r.facs
  fkt : r.fkt.isNumber = true → Num w'.m r.fkt.value

/-- the recursive calls share only what may be shared -/
def Shares (hc : HComp) : Prop :=
  ∀ cur k w r w', Lt w → hc cur k w = some (r, w') → Go w w' ∧ GoRes w.cells.length w' r

theorem Go.refl {w : HW} (h : Lt w) : Go w w := ⟨h, Move.refl w⟩
theorem Go.trans {w w1 w2 : HW} (h : Go w w1) (h' : Go w1 w2) : Go w w2 := ⟨h'.lt, h.move.trans h'.move⟩
theorem Go.len {w w' : HW} (h : Go w w') : w.cells.length ≤ w'.cells.length := h.move.len

theorem GoRes.nil {n : Nat} {w : HW} {b : Bool} : GoRes n w { ret := b } := ⟨Out.nil, fun h => by cases h⟩
theorem GoRes.weaken {n k : Nat} {w : HW} {r : Res} (h : GoRes n w r) (hk : k ≤ n) : GoRes k w r := ⟨h.out.weaken hk, h.fkt⟩
theorem GoRes.facs {n : Nat} {w : HW} {f : Factors} {b : Bool} (h : Out n w f) : GoRes n w { facs := f, ret := b } := ⟨h, fun h => by cases h⟩
theorem GoRes.ret {n : Nat} {w : HW} {r : Res} (h : GoRes n w r) (b : Bool) : GoRes n w { r with ret := b } := ⟨h.out, h.fkt⟩

/-- the same holders, more cells -/
theorem Go.more {w w' : HW} (h : Lt w) (hm : w'.m = w.m) (hs : w'.s = w.s) (hl : w.cells.length ≤ w'.cells.length)
    (hf : w'.full = true → w.full = true := by exact id) : Go w w' :=
  ⟨⟨h.1.trans hl, fun a ha => by
    have : Held w a := by unfold Held at *; rwa [hm, hs] at ha
    have := h.2 a this
    omega⟩, Move.more hm hs hl hf⟩

/-- more function objects that hold no other numbers -/
theorem Go.mem {w w' : HW} (h : Lt w) (hm : ∀ a, Num w'.m a ↔ Num w.m a) (hs : w'.s = w.s) (hl : w'.cells = w.cells)
    (hf : w'.full = true → w.full = true := by exact id) : Go w w' :=
  have hh : ∀ a, Held w' a → Held w a := fun a ha => by unfold Held at *; rwa [hm, hs] at ha
  ⟨⟨by rw [hl]; exact h.1, fun a ha => by rw [hl]; exact h.2 a (hh a ha)⟩,
    ⟨by rw [hl], hf, fun a => (hm a).mpr, fun a ha => Or.inl (hh a ha)⟩⟩

theorem execTasks_own (F : Shares hc) {cur : Nat} (ts : List Constraint) : ∀ {w w' : HW} {r : Res}, Lt w →
    hExecTasks hc cur ts w = some (r, w') → Go w w' ∧ GoRes w.cells.length w' r := by
  induction ts with
  | nil =>
    intro w w' r g h
    cases h
    exact ⟨Go.refl g, GoRes.nil⟩
  | cons t ts ih =>
    intro w w' r g h
    simp only [hExecTasks, Option.bind_eq_bind, Option.bind_eq_some_iff, Prod.exists] at h
    obtain ⟨r1, w1, h1, h2⟩ := h
    obtain ⟨a1, a2⟩ := F _ _ _ _ _ g h1
    split at h2
    · cases h2
      exact ⟨a1, a2.ret _⟩
    · obtain ⟨b1, b2⟩ := ih a1.lt h2
      exact ⟨a1.trans b1, b2.weaken a1.len⟩

theorem execFunction_own (F : Shares hc) {a : Nat} {w w' : HW} {r : Res} (g : Lt w) (h : hExecFunction hc a w = some (r, w')) :
    Go w w' ∧ GoRes w.cells.length w' r := by
  simp only [hExecFunction, Option.bind_eq_bind, Option.bind_eq_some_iff] at h
  obtain ⟨f, _, h⟩ := h
  exact execTasks_own F _ g h

/-- a computation with an empty container, then the old container -/
theorem Go.aside {w w1 : HW} (g : Lt w) (t : List (Factors × St)) (h : Go { w with s := {} } w1) : Go w { w1 with s := w.s, thrown := t } := by
  have hl := h.len
  simp only at hl
  refine ⟨⟨h.lt.1, fun a ha => ?_⟩, hl, h.move.full, h.move.num, fun a ha => ?_⟩
  · rcases ha with ha | ha
    · exact h.lt.2 a (Or.inl ha)
    · have := g.2 a (Or.inr ha)
      simp only
      omega
  · rcases ha with ha | ha
    · rcases h.move.keep a (Or.inl ha) with (hh | hh) | hh
      · exact Or.inl (Or.inl hh)
      · obtain ⟨x, hx, _⟩ := hh
        cases hx
      · exact Or.inr hh
    · exact Or.inl (Or.inr ha)

theorem Lt.aside {w : HW} (g : Lt w) : Lt { w with s := {} } :=
  ⟨g.1, fun a ha => by
    rcases ha with ha | ⟨x, hx, _⟩
    · exact g.2 a (Or.inl ha)
    · cases hx⟩

theorem checkStatic_own (F : Shares hc) {cur : Nat} {c : Constraint} {w w' : HW} {b : Bool} (g : Lt w)
    (h : hCheckStatic hc cur c w = some (b, w')) : Go w w' := by
  unfold hCheckStatic at h
  split at h
  · simp only [Option.bind_eq_bind, Option.bind_eq_some_iff, Prod.exists] at h
    obtain ⟨x, w1, h1, y, w2, h2, h3⟩ := h
    obtain ⟨a1, _⟩ := F _ _ _ _ _ g.aside h1
    obtain ⟨b1, _⟩ := F _ _ _ _ _ a1.lt.aside h2
    have k1 := Go.aside g w1.thrown a1
    have k2 : Go w { w2 with s := w.s, thrown := w2.thrown ++ [(rdFs w2.cells x.facs, rdSt w2.cells w1.s), (rdFs w2.cells y.facs, rdSt w2.cells w2.s)] } := by
      refine k1.trans ?_
      exact Go.aside (w := { w1 with s := w.s, thrown := w1.thrown }) k1.lt _ b1
    have : w' = { w2 with s := w.s, thrown := w2.thrown ++ [(rdFs w2.cells x.facs, rdSt w2.cells w1.s), (rdFs w2.cells y.facs, rdSt w2.cells w2.s)] } := by
      split at h3
      · split at h3
        · repeat' split at h3
          all_goals first | (cases h3; rfl) | cases h3
        · cases h3
      · cases h3
    rw [this]
    exact k2
  · cases h

theorem resolveArray_own (F : Shares hc) {cur : Nat} (is : List Constraint) : ∀ {n n' : Name} {w w' : HW}, Lt w →
    hResolveArray hc cur is n w = some (n', w') → Go w w' := by
  induction is with
  | nil =>
    intro n n' w w' g h
    cases h
    exact Go.refl g
  | cons i is ih =>
    intro n n' w w' g h
    simp only [hResolveArray, Option.bind_eq_bind, Option.bind_eq_some_iff, Prod.exists] at h
    obtain ⟨r, w1, h1, h2⟩ := h
    obtain ⟨a1, _⟩ := F _ _ _ _ _ g.aside h1
    have k := Go.aside g (w1.thrown ++ [(rdFs w1.cells r.facs, rdSt w1.cells w1.s)]) a1
    split at h2
    · split at h2
      · split at h2
        · exact k.trans (ih k.lt h2)
        · cases h2
      · cases h2
    · cases h2

theorem apart_all {S : Int → Prop} {l : Factors} (h : Apart S l) {f g : Factor} (hf : f ∈ l) (hg : g ∈ l) (hn : f ≠ g) (e : f.mul = g.mul) : S f.mul := by
  induction l with
  | nil => cases hf
  | cons x l ih =>
    obtain ⟨h1, h2⟩ := List.pairwise_cons.mp h
    rcases List.mem_cons.mp hf with a | a
    · rcases List.mem_cons.mp hg with b | b
      · exact absurd (a.trans b.symm) hn
      · exact a ▸ h1 g b (a ▸ e)
    · rcases List.mem_cons.mp hg with b | b
      · rw [e, b]
        exact h1 f a (b ▸ e.symm)
      · exact ih h2 a b

/-- storing a result -/
theorem store_own {l : Factors} {x : Nat} {w0 w : HW} {m : Mem} {cs : Cells} (h0 : Lt w0) (g : Go w0 w) (ho : Out w0.cells.length w l)
    (h : hStore q l w.m w.cells = some (x, m, cs)) {m' : Mem} (hm : ∀ a, Num m' a ↔ Num m a) {k : List Factors} :
    Go w0 { w with m := m', cells := cs, kept := k } ∧ Out w0.cells.length { w with m := m', cells := cs, kept := k } l := by
  obtain ⟨h1, h2, h3⟩ := num_store _ h
  have hlen := g.len
  refine ⟨⟨⟨g.lt.1.trans h1, fun a ha => ?_⟩, hlen.trans h1, g.move.full, fun a ha => (hm a).mpr (h2 a (g.move.num a ha)), fun a ha => ?_⟩,
    fun f hf => ?_, fun f hf => ?_, ho.apart.imp fun h e => (h e).imp id (Or.imp id fun h => (hm _).mpr (h2 _ h))⟩
  · rcases ha with ha | ha
    · rcases h3 a ((hm a).mp ha) with ha | ha | ⟨f, hf, e, rfl⟩
      · have := g.lt.2 a (Or.inl ha)
        simp only
        omega
      · exact ha.2
      · have := ho.lt f hf
        simp only
        omega
    · have := g.lt.2 a (Or.inr ha)
      simp only
      omega
  · rcases ha with ha | ha
    · rcases h3 a ((hm a).mp ha) with ha | ha | ⟨f, hf, e, rfl⟩
      · exact g.move.keep a (Or.inl ha)
      · exact Or.inr (Or.inr (Or.inr (by omega)))
      · rcases ho.each f hf with ha | ha | ha | ⟨_, ha⟩
        · exact Or.inr (Or.inr (Or.inr ha.1))
        · exact Or.inr (Or.inl ha)
        · exact Or.inr (Or.inr (Or.inl ha))
        · exact g.move.keep _ (Or.inl ha)
    · exact g.move.keep a (Or.inr ha)
  · rcases ho.each f hf with ⟨b1, b2, b3⟩ | ha | ha | ⟨e, ha⟩
    · by_cases hn : f.tok.isNum = true ∧ Num m' f.mul
      · exact Or.inr (Or.inr (Or.inr hn))
      · refine Or.inl ⟨b1, by simp only; omega, fun hh => ?_⟩
        rcases hh with hh | hh
        · rcases h3 _ ((hm _).mp hh) with hh' | hh' | ⟨f', hf', e, e'⟩
          · exact b3 (Or.inl hh')
          · omega
          · by_cases ef : f' = f
            · subst ef
              exact hn ⟨e, hh⟩
            · have := apart_all ho.apart hf' hf ef e'
              rw [e'] at this
              have h2 := h0.1
              rcases this with this | this | this
              · simp only [bigOne] at this; omega
              · simp only [bigZero] at this; omega
              · exact b3 (Or.inl this)
        · exact b3 (Or.inr hh)
    · exact Or.inr (Or.inl ha)
    · exact Or.inr (Or.inr (Or.inl ha))
    · exact Or.inr (Or.inr (Or.inr ⟨e, (hm _).mpr (h2 _ ha)⟩))
  · have := ho.lt f hf
    simp only
    omega

/-- allocating a partially applied function -/
theorem alloc_own {f : FObj} {w : HW} (g : Lt w) (hf : f.isNumber = true → Num w.m f.value) {m' : Mem}
    (hm : ∀ a, Num m' a ↔ Num (w.m.alloc f).2 a) : Go w { w with m := m' } :=
  Go.mem g (fun a => (hm a).trans (num_alloc.trans ⟨fun h => h.elim id fun ⟨e, e'⟩ => e' ▸ hf e, Or.inl⟩)) rfl rfl

theorem callArgs_own (F : Shares hc) {cur : Nat} (vs : List Constraint) : ∀ {as : List Nat} {w w' : HW}, Lt w →
    hCallArgs q hc cur vs w = some (as, w') → Go w w' := by
  induction vs with
  | nil =>
    intro as w w' g h
    cases h
    exact Go.refl g
  | cons v vs ih =>
    intro as w w' g h
    simp only [hCallArgs, Option.bind_eq_bind, Option.bind_eq_some_iff, Prod.exists] at h
    obtain ⟨r, w1, h1, h2⟩ := h
    obtain ⟨a1, a2⟩ := F _ _ _ _ _ g h1
    split at h2
    · simp only [Option.bind_eq_some_iff, Prod.exists, Option.pure_def, Option.some.injEq, Prod.mk.injEq] at h2
      obtain ⟨as', w2, h3, _, rfl⟩ := h2
      have k := a1.trans (alloc_own a1.lt a2.fkt fun _ => Iff.rfl)
      exact k.trans (ih k.lt h3)
    · simp only [Option.bind_eq_some_iff, Prod.exists, Option.pure_def, Option.some.injEq, Prod.mk.injEq] at h2
      obtain ⟨x, m, cs, h3, as', w2, h4, _, rfl⟩ := h2
      have k := (store_own g a1 a2.out h3 (fun _ => Iff.rfl) (k := w1.kept ++ [rdFs w1.cells r.facs])).1
      exact k.trans (ih k.lt h4)

theorem callUser_own (F : Shares hc) {cur : Nat} {name : Name} {args : List Constraint} {r : Res} {w w' : HW} (g : Lt w)
    (h : hCallUser q hc cur name args w = some (r, w')) : Go w w' ∧ GoRes w.cells.length w' r := by
  simp only [hCallUser, Option.bind_eq_bind, Option.bind_eq_some_iff, Prod.exists] at h
  obtain ⟨f, _, nxt, m, h2, as, w1, h3, ready, m2, h4, h5⟩ := h
  have k1 : Go w { w with m := m } := Go.mem g (fun a => num_flat _ h2) rfl rfl
  have k2 := k1.trans (callArgs_own F _ k1.lt h3)
  have k3 : Go w { w1 with m := m2 } := k2.trans (Go.mem k2.lt (fun a => num_load h4) rfl rfl)
  split at h5
  · simp only [Option.bind_eq_some_iff, Prod.exists, Option.pure_def, Option.some.injEq, Prod.mk.injEq] at h5
    obtain ⟨r1, w2, h6, rfl, rfl⟩ := h5
    obtain ⟨b1, b2⟩ := execFunction_own F k3.lt h6
    exact ⟨k3.trans b1, (b2.weaken k3.len).ret _⟩
  · simp only [Option.bind_eq_some_iff, Option.pure_def, Option.some.injEq, Prod.mk.injEq] at h5
    obtain ⟨o, ho, rfl, rfl⟩ := h5
    exact ⟨k3, Out.nil, fun e => ⟨o, List.mem_of_getElem? ho, e, rfl⟩⟩

/-- two operands, one after the other -/
theorem two_own (F : Shares hc) {cur : Nat} {l r : Constraint} {a b : Res} {w w1 w2 : HW} (g : Lt w)
    (h1 : hc cur l w = some (a, w1)) (h2 : hc cur r w1 = some (b, w2)) :
    Go w w2 ∧ Out w.cells.length w2 (a.facs ++ b.facs) ∧ Out w.cells.length w2 a.facs ∧ Out w1.cells.length w2 b.facs := by
  obtain ⟨a1, a2⟩ := F _ _ _ _ _ g h1
  obtain ⟨b1, b2⟩ := F _ _ _ _ _ a1.lt h2
  have k := a2.out.move g.1 b1.move
  exact ⟨a1.trans b1, k.append b2.out a1.len a2.out.lt, k, b2.out⟩

/-- a new gate and a new result -/
theorem gate_go {w0 w : HW} {l r f : Factors} {s' : St} {cs' : Cells} {b : Bool} (hf : b = true → w.full = true) (h0 : Lt w0) (g : Go w0 w) (hl : Out w0.cells.length w l)
    (hr : Out w0.cells.length w r) (h : GateStep l r f w.s s' w.cells cs') :
    Go w0 { w with s := s', cells := cs', full := b } ∧ Out w0.cells.length { w with s := s', cells := cs', full := b } f := by
  obtain ⟨h1, h2, h3⟩ := h
  have hlen := g.len
  have k : Go w { w with s := s', cells := cs', full := b } := by
    refine ⟨⟨g.lt.1.trans h1, fun a ha => ?_⟩, h1, fun h => hf h, fun a => id, fun a ha => ?_⟩
    · rcases ha with ha | ha
      · have := g.lt.2 a (Or.inl ha)
        simp only
        omega
      · rcases h2 a ha with ha | ha | ha
        · have := g.lt.2 a (Or.inr ha)
          simp only
          omega
        · have := g.lt.1
          simp only [ha, bigOne]
          omega
        · exact ha.2
    · rcases ha with ha | ha
      · exact Or.inl (Or.inl ha)
      · rcases h2 a ha with ha | ha | ha
        · exact Or.inl (Or.inr ha)
        · exact Or.inr (Or.inl ha)
        · exact Or.inr (Or.inr (Or.inr ha.1))
  refine ⟨g.trans k, ?_⟩
  rcases h3 with ⟨rfl, _⟩ | ⟨rfl, _⟩ | ⟨h3, h4⟩
  · exact hl.move h0.1 k.move
  · exact hr.move h0.1 k.move
  · refine ⟨fun x hx => Or.inl ⟨by have := (h3 x hx).1; omega, (h3 x hx).2.1, fun hh => ?_⟩, fun x hx => (h3 x hx).2.1, h4 _⟩
    have := (h3 x hx).1
    rcases hh with hh | hh
    · have := g.lt.2 _ (Or.inl hh)
      omega
    · have := g.lt.2 _ (Or.inr ((h3 x hx).2.2 hh))
      omega

/-- the sum of two results -/
theorem add_go {w0 w : HW} {l r : Factors} (g : Go w0 w) (h : Out w0.cells.length w (l ++ r)) :
    Go w0 { w with cells := (hAddFactors q l r w.cells).2 } ∧
    Out w0.cells.length { w with cells := (hAddFactors q l r w.cells).2 } (hAddFactors q l r w.cells).1 := by
  obtain ⟨h1, h2, h3⟩ := addFactors_own (q := q) h.lt h.apart
  have k : Go w { w with cells := (hAddFactors q l r w.cells).2 } := Go.more g.lt rfl rfl h1
  have hlen := g.len
  refine ⟨g.trans k, fun f hf => ?_, fun f hf => ?_, h3⟩
  · rcases h2 f hf with hf | hf | hf
    · rcases h.each f hf with ⟨b1, b2, b3⟩ | hf
      · exact Or.inl ⟨b1, by simp only; omega, b3⟩
      · exact Or.inr hf
    · exact Or.inr (Or.inr (Or.inl hf))
    · refine Or.inl ⟨by omega, hf.2, fun hh => ?_⟩
      have := g.lt.2 _ hh
      omega
  · rcases h2 f hf with hf | hf | hf
    · have := h.lt f hf
      simp only
      omega
    · have := g.lt.1
      simp only [hf, bigZero]
      omega
    · exact hf.2

/-- negation moves no cells -/
theorem negate_go {n : Nat} {w : HW} {l r : Factors} (h : Out n w (l ++ r)) : Out n { w with cells := (hNegate r w.cells).2 } (l ++ (hNegate r w.cells).1) := by
  obtain ⟨h1, h2, h3⟩ := negate_own r w.cells
  have key : ∀ f ∈ l ++ (hNegate r w.cells).1, ∃ f' ∈ l ++ r, f'.mul = f.mul ∧ f'.tok.isNum = f.tok.isNum := by
    intro f hf
    rcases List.mem_append.mp hf with hf | hf
    · exact ⟨f, List.mem_append_left _ hf, rfl, rfl⟩
    · obtain ⟨i, hi, rfl⟩ := List.getElem_of_mem hf
      have hi' : i < r.length := by
        have := congrArg List.length h2
        simp only [List.length_map] at this
        omega
      refine ⟨r[i], List.mem_append_right _ (List.getElem_mem _), ?_, ?_⟩
      · have := congrArg (fun l => l[i]?) h2
        simpa [hi, hi'] using this.symm
      · have := congrArg (fun l => l[i]?) h3
        simpa [hi, hi'] using this.symm
  have hap : (l ++ (hNegate r w.cells).1).map Factor.mul = (l ++ r).map Factor.mul := by rw [List.map_append, List.map_append, h2]
  refine ⟨fun f hf => ?_, fun f hf => ?_, ?_⟩
  · obtain ⟨f', hf', e1, e2⟩ := key f hf
    rcases h.each f' hf' with ⟨b1, b2, b3⟩ | hf | hf | hf
    · rw [e1] at b1 b2 b3
      exact Or.inl ⟨b1, by simp only [h1]; exact b2, b3⟩
    · exact Or.inr (Or.inl (e1 ▸ hf))
    · exact Or.inr (Or.inr (Or.inl (e1 ▸ hf)))
    · rw [e1, e2] at hf
      exact Or.inr (Or.inr (Or.inr hf))
  · obtain ⟨f', hf', e1, e2⟩ := key f hf
    have := h.lt f' hf'
    simp only [h1]
    omega
  · have hh := h.apart
    unfold Apart at hh ⊢
    rw [← List.pairwise_map (f := Factor.mul) (R := fun a b => a = b → a = bigOne ∨ a = bigZero ∨ Num w.m a)] at hh ⊢
    rw [hap]
    exact hh

theorem operate_own (F : Shares hc) {cur : Nat} {isRet : Bool} {is : List Constraint} {r : Res} {w w' : HW} (g : Lt w)
    (h : hOperate H q hc cur isRet is w = some (r, w')) : Go w w' ∧ GoRes w.cells.length w' r := by
  unfold hOperate at h
  split at h
  · split at h
    · split at h
      · simp only [Option.bind_eq_bind, Option.bind_eq_some_iff, Prod.exists, Option.pure_def, Option.some.injEq, Prod.mk.injEq] at h
        obtain ⟨a, w1, h1, b, w2, h2, f, s, cs, h3, rfl, rfl⟩ := h
        obtain ⟨k1, k2, k3, k4⟩ := two_own F g h1 h2
        obtain ⟨j1, j2⟩ := gate_go (b := w2.full && a.facs ≠ [] && b.facs ≠ []) (fun h => by simp only [Bool.and_eq_true] at h; exact h.1.1) g k1 k3 (k4.weaken (F _ _ _ _ _ g h1).1.len) (mulGate_own k1.lt.1 h3)
        exact ⟨j1, GoRes.facs j2⟩
      · split at h
        · simp only [Option.bind_eq_bind, Option.bind_eq_some_iff, Prod.exists, Option.pure_def, Option.some.injEq, Prod.mk.injEq] at h
          obtain ⟨a, w1, h1, b, w2, h2, f, s, cs, h3, rfl, rfl⟩ := h
          obtain ⟨k1, k2, k3, k4⟩ := two_own F g h1 h2
          obtain ⟨j1, j2⟩ := gate_go (b := w2.full && a.facs ≠ [] && b.facs ≠ []) (fun h => by simp only [Bool.and_eq_true] at h; exact h.1.1) g k1 k3 (k4.weaken (F _ _ _ _ _ g h1).1.len) (divGate_own k1.lt.1 h3)
          exact ⟨j1, GoRes.facs j2⟩
        · split at h
          · simp only [Option.bind_eq_bind, Option.bind_eq_some_iff, Prod.exists, Option.pure_def, Option.some.injEq, Prod.mk.injEq] at h
            obtain ⟨a, w1, h1, b, w2, h2, rfl, rfl⟩ := h
            obtain ⟨k1, k2, k3, k4⟩ := two_own F g h1 h2
            obtain ⟨j1, j2⟩ := add_go (q := q) k1 k2
            exact ⟨j1, GoRes.facs j2⟩
          · split at h
            · simp only [Option.bind_eq_bind, Option.bind_eq_some_iff, Prod.exists, Option.pure_def, Option.some.injEq, Prod.mk.injEq] at h
              obtain ⟨a, w1, h1, b, w2, h2, rfl, rfl⟩ := h
              obtain ⟨k1, k2, k3, k4⟩ := two_own F g h1 h2
              have kn : Go w { w2 with cells := (hNegate b.facs w2.cells).2, clean := w2.clean && harmless w2 b.facs } :=
                k1.trans (Go.more k1.lt rfl rfl (by simp only [(negate_own b.facs w2.cells).1, le_refl]))
              have := negate_go k2
              obtain ⟨j1, j2⟩ := add_go (q := q) kn ⟨this.each, this.lt, this.apart⟩
              exact ⟨j1, GoRes.facs j2⟩
            · cases h
    · cases h
  · cases h

theorem breakArgs_own (F : Shares hc) {cur : Nat} (vs : List Constraint) : ∀ {w w' : HW}, Lt w →
    hBreakArgs hc cur vs w = some w' → Go w w' := by
  induction vs with
  | nil =>
    intro w w' g h
    cases h
    exact Go.refl g
  | cons v vs ih =>
    intro w w' g h
    simp only [hBreakArgs, Option.bind_eq_bind, Option.bind_eq_some_iff, Prod.exists] at h
    obtain ⟨r, w1, h1, h2⟩ := h
    have k := (F _ _ _ _ _ g h1).1
    exact k.trans (ih k.lt h2)

/-- a gate that keeps operands -/
theorem hold_go {w0 w : HW} {l : Factors} {s' : St} {cs' : Cells} (g : Go w0 w) (hl : Out w0.cells.length w l) (hc : w.cells.length ≤ cs'.length)
    (h : ∀ a, GHolds s' a → GHolds w.s a ∨ a = bigOne ∨ a = bigZero ∨ (∃ f ∈ l, f.mul = a) ∨ ((w.cells.length : Int) ≤ a ∧ a < cs'.length)) :
    Go w0 { w with s := s', cells := cs' } := by
  have hlen := g.len
  refine ⟨⟨g.lt.1.trans hc, fun a ha => ?_⟩, hlen.trans hc, g.move.full, g.move.num, fun a ha => ?_⟩
  · have h2 := g.lt.1
    rcases ha with ha | ha
    · have := g.lt.2 a (Or.inl ha)
      simp only
      omega
    · rcases h a ha with ha | ha | ha | ⟨f, hf, rfl⟩ | ha
      · have := g.lt.2 a (Or.inr ha)
        simp only
        omega
      · simp only [ha, bigOne]
        omega
      · simp only [ha, bigZero]
        omega
      · have := hl.lt f hf
        simp only
        omega
      · exact ha.2
  · rcases ha with ha | ha
    · exact g.move.keep a (Or.inl ha)
    · rcases h a ha with ha | ha | ha | ⟨f, hf, rfl⟩ | ha
      · exact g.move.keep a (Or.inr ha)
      · exact Or.inr (Or.inl ha)
      · exact Or.inr (Or.inr (Or.inl ha))
      · rcases hl.each f hf with ha | ha | ha | ⟨_, ha⟩
        · exact Or.inr (Or.inr (Or.inr ha.1))
        · exact Or.inr (Or.inl ha)
        · exact Or.inr (Or.inr (Or.inl ha))
        · exact g.move.keep _ (Or.inl ha)
      · exact Or.inr (Or.inr (Or.inr (by omega)))

theorem callFunction_own (F : Shares hc) {cur : Nat} {name : Name} {is : List Constraint} {r : Res} {w w' : HW} (g : Lt w)
    (h : hCallFunction H q hc cur name is w = some (r, w')) : Go w w' ∧ GoRes w.cells.length w' r := by
  unfold hCallFunction at h
  split at h
  · simp only [Option.bind_eq_bind, Option.bind_eq_some_iff, Option.pure_def, Option.some.injEq, Prod.mk.injEq] at h
    obtain ⟨w1, h1, rfl, rfl⟩ := h
    exact ⟨breakArgs_own F _ g h1, GoRes.nil⟩
  split at h
  · split at h
    · simp only [Option.bind_eq_bind, Option.bind_eq_some_iff, Prod.exists, Option.pure_def, Option.some.injEq, Prod.mk.injEq] at h
      obtain ⟨x, w1, h1, s, cs, h2, rfl, rfl⟩ := h
      obtain ⟨a1, a2⟩ := F _ _ _ _ _ g h1
      obtain ⟨b1, b2⟩ := splitGate_own h2
      exact ⟨hold_go a1 a2.out b1 fun a ha => (b2 a ha).imp id fun h => Or.inr (Or.inr (Or.inr h)), GoRes.nil⟩
    · cases h
  split at h
  · cases h
  split at h
  · split at h
    · simp only [Option.bind_eq_bind, Option.bind_eq_some_iff, Prod.exists, Option.pure_def, Option.some.injEq, Prod.mk.injEq] at h
      obtain ⟨x, w1, h1, y, w2, h2, f, s, cs, h3, rfl, rfl⟩ := h
      obtain ⟨k1, k2, k3, k4⟩ := two_own F g h1 h2
      obtain ⟨b1, b2, b3, b4⟩ := addGate_own k1.lt.1 h3
      have hlen := k1.len
      refine ⟨hold_go k1 k3 b1 fun a ha => (b2 a ha).imp id (Or.imp id (Or.imp id Or.inr)), GoRes.facs ⟨fun x hx => Or.inl ⟨?_, (b3 x hx).2.1, fun hh => ?_⟩,
        fun x hx => (b3 x hx).2.1, b4 _⟩⟩
      · have := (b3 x hx).1
        omega
      · have := (b3 x hx).1
        rcases hh with hh | hh
        · have := k1.lt.2 _ (Or.inl hh)
          omega
        · have := k1.lt.2 _ (Or.inr ((b3 x hx).2.2 hh))
          omega
    · cases h
  split at h
  · split at h
    · simp only [Option.bind_eq_bind, Option.bind_eq_some_iff, Prod.exists, Option.pure_def, Option.some.injEq, Prod.mk.injEq] at h
      obtain ⟨x, w1, h1, f, s, h2, rfl, rfl⟩ := h
      obtain ⟨a1, a2⟩ := F _ _ _ _ _ g h1
      obtain ⟨b1, n, rfl⟩ := baseGate_own h2
      refine ⟨hold_go a1 a2.out (le_refl _) fun a ha => (b1 a ha).imp id fun h => Or.inr (Or.inr (Or.inl h)),
        GoRes.facs ⟨fun x hx => ?_, fun x hx => ?_, List.pairwise_singleton _ _⟩⟩
      · rw [List.mem_singleton.mp hx]
        exact Or.inr (Or.inl rfl)
      · rw [List.mem_singleton.mp hx]
        have := a1.lt.1
        simp only [argF, bigOne]
        omega
    · cases h
  split at h
  · split at h
    · simp only [Option.bind_eq_bind, Option.bind_eq_some_iff, Prod.exists, Option.pure_def, Option.some.injEq, Prod.mk.injEq] at h
      obtain ⟨x, w1, h1, y, w2, h2, s, _, h3, rfl, rfl⟩ := h
      obtain ⟨k1, k2, k3, k4⟩ := two_own F g h1 h2
      have := add_own (P := fun a => ∃ f ∈ x.facs ++ y.facs, f.mul = a) (fun z hz => ⟨z, by simpa using hz, rfl⟩) (fun _ h => h) h3
      exact ⟨hold_go k1 k2 (le_refl _) fun a ha => (this a ha).imp id fun h => Or.inr (Or.inr (Or.inl h)), GoRes.nil⟩
    · cases h
  · exact callUser_own F g h

theorem targetName_own (F : Shares hc) {cur : Nat} {x : Constraint} {n : Name} {w w' : HW} (g : Lt w) (h : hTargetName hc cur x w = some (n, w')) : Go w w' := by
  unfold hTargetName at h
  split at h
  · exact resolveArray_own F _ g h
  · cases h
    exact Go.refl g

theorem assignTo_own {cur : Nat} {name : Name} {r r' : Res} {w0 w w' : HW} (h0 : Lt w0) (g : Go w0 w) (hr : GoRes w0.cells.length w r)
    (h : hAssignTo q cur name r w = some (r', w')) : Go w0 w' ∧ GoRes w0.cells.length w' r' := by
  simp only [hAssignTo, Option.bind_eq_bind, Option.bind_eq_some_iff] at h
  obtain ⟨o, _, h⟩ := h
  split at h
  · simp only [Option.bind_eq_some_iff, Option.pure_def, Option.some.injEq, Prod.mk.injEq] at h
    obtain ⟨m, h1, rfl, rfl⟩ := h
    exact ⟨g.trans (alloc_own g.lt hr.fkt fun a => num_set h1), GoRes.nil⟩
  · simp only [Option.bind_eq_some_iff, Prod.exists, Option.pure_def, Option.some.injEq, Prod.mk.injEq] at h
    obtain ⟨x, m, cs, h1, m', h2, rfl, rfl⟩ := h
    obtain ⟨k1, k2⟩ := store_own h0 g hr.out h1 (fun a => num_set h2) (k := w.kept ++ [rdFs w.cells r.facs])
    exact ⟨k1, GoRes.facs k2⟩

theorem step_own (F : Shares hc) {cur : Nat} {k : Constraint} {r : Res} {w w' : HW} (g : Lt w)
    (h : hCompileStep H q hc cur k w = some (r, w')) : Go w w' ∧ GoRes w.cells.length w' r := by
  have fresh1 : ∀ {t : Tok} {b : Bool}, Go w { w with cells := w.cells ++ [1] } ∧
      GoRes w.cells.length { w with cells := w.cells ++ [1] } { facs := [⟨t, w.cells.length⟩], ret := b } := fun {t b} => by
    refine ⟨Go.more g rfl rfl (by simp), GoRes.facs (Out.fresh (fun f hf => ?_) g.2 fun S => List.pairwise_singleton _ _)⟩
    rw [List.mem_singleton.mp hf]
    simp only [List.length_append, List.length_singleton]
    omega
  unfold hCompileStep at h
  split at h
  · simp only [Option.map_eq_some_iff, Prod.exists, Prod.mk.injEq, hCompileNum] at h
    obtain ⟨f, cs, ⟨f', _, h1⟩, rfl, rfl⟩ := h
    obtain ⟨a1, a2, a3⟩ := newForm_own f' w.cells
    rw [h1] at a1 a2 a3
    exact ⟨Go.more g rfl rfl a1, GoRes.facs (Out.fresh a2 g.2 a3)⟩
  · simp only [Option.bind_eq_bind, Option.bind_eq_some_iff] at h
    obtain ⟨x, _, f, hf, h⟩ := h
    split at h
    · rename_i e
      simp only [Option.pure_def, Option.some.injEq, Prod.mk.injEq] at h
      obtain ⟨rfl, rfl⟩ := h
      have hn : Num w.m f.value := ⟨f, List.mem_of_getElem? hf, e, rfl⟩
      refine ⟨Go.refl g, GoRes.facs ⟨fun x hx => ?_, fun x hx => ?_, List.pairwise_singleton _ _⟩⟩
      · rw [List.mem_singleton.mp hx]
        exact Or.inr (Or.inr (Or.inr ⟨rfl, hn⟩))
      · rw [List.mem_singleton.mp hx]
        exact g.2 _ (Or.inl hn)
    · split at h
      · simp only [Option.bind_eq_some_iff] at h
        obtain ⟨con, _, h⟩ := h
        exact F _ _ _ _ _ g h
      · simp only [Option.pure_def, Option.some.injEq, Prod.mk.injEq] at h
        obtain ⟨rfl, rfl⟩ := h
        exact ⟨Go.refl g, Out.nil, fun e => ⟨f, List.mem_of_getElem? hf, e, rfl⟩⟩
  · split at h
    · simp only [Option.bind_eq_bind, Option.bind_eq_some_iff, Prod.exists] at h
      obtain ⟨go, w1, h1, h⟩ := h
      have k1 := checkStatic_own F g h1
      split at h
      · simp only [Option.bind_eq_some_iff, Prod.exists] at h
        obtain ⟨r1, w2, h2, h⟩ := h
        obtain ⟨k2, k3⟩ := F _ _ _ _ _ k1.lt h2
        split at h
        · simp only [Option.pure_def, Option.some.injEq, Prod.mk.injEq] at h
          obtain ⟨rfl, rfl⟩ := h
          exact ⟨k1.trans k2, (k3.weaken k1.len).ret _⟩
        · simp only [Option.bind_eq_some_iff, Prod.exists] at h
          obtain ⟨r2, w3, h3, h⟩ := h
          have k4 := k1.trans (k2.trans (F _ _ _ _ _ k2.lt h3).1)
          obtain ⟨k5, k6⟩ := F _ _ _ _ _ k4.lt h
          exact ⟨k4.trans k5, k6.weaken k4.len⟩
      · simp only [Option.pure_def, Option.some.injEq, Prod.mk.injEq] at h
        obtain ⟨rfl, rfl⟩ := h
        exact ⟨k1, GoRes.nil⟩
    · cases h
  · split at h
    · simp only [Option.bind_eq_bind, Option.bind_eq_some_iff] at h
      obtain ⟨f, _, con, _, h⟩ := h
      exact F _ _ _ _ _ g h
    · exact F _ _ _ _ _ g h
    · exact operate_own F g h
  · split at h
    · simp only [newCell, Option.some.injEq, Prod.mk.injEq] at h
      obtain ⟨rfl, rfl⟩ := h
      exact fresh1
    · simp only [Option.bind_eq_bind, Option.bind_eq_some_iff, Prod.exists, Option.pure_def, Option.some.injEq, Prod.mk.injEq] at h
      obtain ⟨r1, w1, h1, rfl, rfl⟩ := h
      obtain ⟨k1, k2⟩ := F _ _ _ _ _ g h1
      exact ⟨k1, k2.ret _⟩
    · exact operate_own F g h
  · simp only [newCell, Option.some.injEq, Prod.mk.injEq] at h
    obtain ⟨rfl, rfl⟩ := h
    exact fresh1
  · split at h
    · simp only [Option.bind_eq_bind, Option.bind_eq_some_iff, Prod.exists] at h
      obtain ⟨n, w1, h1, r1, w2, h2, h3⟩ := h
      have k1 := targetName_own F g h1
      obtain ⟨k2, k3⟩ := F _ _ _ _ _ k1.lt h2
      exact assignTo_own g (k1.trans k2) (k3.weaken k1.len) h3
    · cases h
  · simp only [Option.bind_eq_bind, Option.bind_eq_some_iff, Prod.exists, Option.pure_def, Option.some.injEq, Prod.mk.injEq] at h
    obtain ⟨n, w1, h1, con, _, r1, w2, h2, rfl, rfl⟩ := h
    have k1 := resolveArray_own F _ g h1
    obtain ⟨k2, k3⟩ := F _ _ _ _ _ k1.lt h2
    exact ⟨k1.trans k2, (k3.weaken k1.len).ret _⟩
  · split at h
    · exact F _ _ _ _ _ g h
    · simp only [Option.bind_eq_bind, Option.bind_eq_some_iff, Prod.exists] at h
      obtain ⟨go, w1, h1, h⟩ := h
      have k1 := checkStatic_own F g h1
      split at h
      · obtain ⟨k2, k3⟩ := F _ _ _ _ _ k1.lt h
        exact ⟨k1.trans k2, k3.weaken k1.len⟩
      · simp only [Option.pure_def, Option.some.injEq, Prod.mk.injEq] at h
        obtain ⟨rfl, rfl⟩ := h
        exact ⟨k1, GoRes.nil⟩
  · simp only [Option.bind_eq_bind, Option.bind_eq_some_iff] at h
    obtain ⟨x, _, h⟩ := h
    exact execFunction_own F g h
  · exact callFunction_own F g h
  · exact operate_own F g h

theorem compile_own (n : Nat) : Shares (hCompile H q n) := by
  induction n with
  | zero => intro cur k w r w' _ h; cases h
  | succ n ih => intro cur k w r w' g h; exact step_own ih g h

end APS.Alias
