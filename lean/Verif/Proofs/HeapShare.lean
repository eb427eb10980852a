import Verif.Proofs.HeapOwn

/-! `compile` returns cells of its own, package variables and the numbers of constant variables: gates, calls, statements. -/
namespace APS.Alias
open APS.Circuit APS.Prog
open APS.Parse (Constraint)

variable {H : Name → Nat} {q : Nat} {hc : HComp}

/-- a part of the execution: cells, number objects and who holds old cells -/
structure Move (w w' : HW) : Prop where
  len : w.cells.length ≤ w'.cells.length
  full : w'.full = true → w.full = true
  num : ∀ a, Num w.m a → Num w'.m a
  keep : ∀ a, Held w' a → Held w a ∨ a = bigOne ∨ a = bigZero ∨ (w.cells.length : Int) ≤ a

/-- the cell is new and nothing holds it -/
def Own (n : Nat) (w : HW) (a : Int) : Prop := (n : Int) ≤ a ∧ a < w.cells.length ∧ ¬ Held w a

/-- where the cell of a factor comes from -/
def From (n : Nat) (w : HW) (f : Factor) : Prop :=
  Own n w f.mul ∨ f.mul = bigOne ∨ f.mul = bigZero ∨ (f.tok.isNum = true ∧ Num w.m f.mul)

/-- the cells of a linear form -/
structure Out (n : Nat) (w : HW) (l : Factors) : Prop where
  each : ∀ f ∈ l, From n w f
  lt : ∀ f ∈ l, f.mul < w.cells.length
  apart : Apart (fun a => a = bigOne ∨ a = bigZero ∨ Num w.m a) l

/-- every held cell exists -/
def Lt (w : HW) : Prop := 2 ≤ w.cells.length ∧ ∀ a, Held w a → a < w.cells.length

theorem Move.refl (w : HW) : Move w w := ⟨le_refl _, id, fun _ => id, fun _ => Or.inl⟩

theorem Move.trans {w w1 w2 : HW} (h : Move w w1) (h' : Move w1 w2) : Move w w2 :=
  ⟨h.len.trans h'.len, fun f => h.full (h'.full f), fun a ha => h'.num a (h.num a ha), fun a ha => by
    have hl := h.len
    rcases h'.keep a ha with ha | ha | ha | ha
    · exact h.keep a ha
    · exact Or.inr (Or.inl ha)
    · exact Or.inr (Or.inr (Or.inl ha))
    · exact Or.inr (Or.inr (Or.inr (by omega)))⟩

theorem Out.nil {n : Nat} {w : HW} : Out n w [] := ⟨fun _ h => (by simp at h), fun _ h => (by simp at h), List.Pairwise.nil⟩

theorem Own.weaken {n k : Nat} {w : HW} {a : Int} (h : Own n w a) (hk : k ≤ n) : Own k w a := ⟨by have := h.1; omega, h.2⟩

theorem Out.weaken {n k : Nat} {w : HW} {l : Factors} (h : Out n w l) (hk : k ≤ n) : Out k w l :=
  ⟨fun f hf => (h.each f hf).imp (fun o => o.weaken hk) id, h.lt, h.apart⟩

/-- a waiting form keeps its cells -/
theorem Out.move {n : Nat} {w w' : HW} {l : Factors} (h : Out n w l) (hn : 2 ≤ n) (m : Move w w') : Out n w' l := by
  have hl := m.len
  refine ⟨fun f hf => ?_, fun f hf => ?_, h.apart.imp fun h e => ?_⟩
  · rcases h.each f hf with ⟨h1, h2, h3⟩ | h1 | h1 | ⟨h1, h2⟩
    · refine Or.inl ⟨h1, by omega, fun hh => ?_⟩
      rcases m.keep _ hh with hh | hh | hh | hh
      · exact h3 hh
      · simp only [bigOne] at hh; omega
      · simp only [bigZero] at hh; omega
      · omega
    · exact Or.inr (Or.inl h1)
    · exact Or.inr (Or.inr (Or.inl h1))
    · exact Or.inr (Or.inr (Or.inr ⟨h1, m.num _ h2⟩))
  · have := h.lt f hf
    omega
  · rcases h e with h | h | h
    · exact Or.inl h
    · exact Or.inr (Or.inl h)
    · exact Or.inr (Or.inr (m.num _ h))

/-- two waiting forms, one computed after the other -/
theorem Out.append {n k : Nat} {w : HW} {l r : Factors} (hl : Out n w l) (hr : Out k w r) (hk : n ≤ k)
    (hlk : ∀ f ∈ l, f.mul < k) : Out n w (l ++ r) := by
  refine ⟨fun f hf => ?_, fun f hf => ?_, List.pairwise_append.mpr ⟨hl.apart, hr.apart, fun f hf g hg e => ?_⟩⟩
  · rcases List.mem_append.mp hf with hf | hf
    · exact hl.each f hf
    · exact (hr.weaken hk).each f hf
  · rcases List.mem_append.mp hf with hf | hf
    · exact hl.lt f hf
    · exact hr.lt f hf
  · rcases hr.each g hg with ⟨h1, _⟩ | h1 | h1 | ⟨_, h1⟩
    · have := hlk f hf
      omega
    · exact Or.inl (e.trans h1)
    · exact Or.inr (Or.inl (e.trans h1))
    · exact Or.inr (Or.inr (e ▸ h1))

/-- a form of new cells -/
theorem Out.fresh {n : Nat} {w : HW} {l : Factors} (h1 : ∀ f ∈ l, (n : Int) ≤ f.mul ∧ f.mul < w.cells.length)
    (h2 : ∀ a, Held w a → a < n) (h3 : ∀ S, Apart S l) : Out n w l :=
  ⟨fun f hf => Or.inl ⟨(h1 f hf).1, (h1 f hf).2, fun hh => by have := h2 _ hh; have := (h1 f hf).1; omega⟩, fun f hf => (h1 f hf).2, h3 _⟩

/-- more cells, the same holders -/
theorem Move.more {w w' : HW} (hm : w'.m = w.m) (hs : w'.s = w.s) (hl : w.cells.length ≤ w'.cells.length)
    (hf : w'.full = true → w.full = true) : Move w w' :=
  ⟨hl, hf, fun a ha => hm ▸ ha, fun a ha => Or.inl (by unfold Held at *; rwa [hm, hs] at ha)⟩

/-! ### gates -/

/-- the cells of a gate are among these -/
def GIn (P : Int → Prop) (g : Gate) : Prop := ∀ f ∈ g.left ++ g.right ++ g.expo ++ g.out, P f.mul

theorem add_own {cs : Cells} {s s' : St} {g g' : Gate} {post : Gate → Gate} {P : Int → Prop} (hg : GIn P g)
    (hp : ∀ g, GIn P g → GIn P (post g)) (h : hAdd H cs s g post = some (s', g')) : ∀ a, GHolds s' a → GHolds s a ∨ P a := by
  unfold hAdd at h
  rcases hi : hWithID H cs g with _ | g1
  · simp only [hi] at h
    cases h
  · have h1 : GIn P g1 := by
      unfold hWithID at hi
      split at hi
      · simp only [hSetAndGetID, Option.map_eq_some_iff] at hi
        obtain ⟨_, _, rfl⟩ := hi
        intro f hf
        refine hg f ?_
        simpa only [List.mem_append, hSort_mem] using hf
      · cases hi
        exact hg
    simp only [hi] at h
    split at h
    · simp only [Option.some.injEq, Prod.mk.injEq] at h
      obtain ⟨rfl, _⟩ := h
      exact fun a ha => Or.inl ha
    · simp only [Option.some.injEq, Prod.mk.injEq] at h
      obtain ⟨rfl, _⟩ := h
      rintro a ⟨x, hx, f, hf, rfl⟩
      rcases List.mem_append.mp hx with hx | hx
      · exact Or.inl ⟨x, hx, f, hf, rfl⟩
      · rw [List.mem_singleton.mp hx] at hf
        exact Or.inr (hp _ h1 f hf)

theorem mulFactors_own {l r f : Factors} {cs cs' : Cells} (h : hMulFactors q l r cs = some (f, cs')) :
    cs.length ≤ cs'.length ∧ ((f = l ∧ r = []) ∨ (f = r ∧ l = []) ∨
      (∀ x ∈ f, (cs.length : Int) ≤ x.mul ∧ x.mul < cs'.length) ∧ ∀ S, Apart S f) := by
  unfold hMulFactors at h
  split at h
  · rename_i e
    simp only [Option.some.injEq, Prod.mk.injEq] at h
    obtain ⟨rfl, rfl⟩ := h
    exact ⟨le_refl _, Or.inr (Or.inl ⟨rfl, e⟩)⟩
  · split at h
    · rename_i e
      simp only [Option.some.injEq, Prod.mk.injEq] at h
      obtain ⟨rfl, rfl⟩ := h
      exact ⟨le_refl _, Or.inl ⟨rfl, e⟩⟩
    · simp only [Option.map_eq_some_iff] at h
      obtain ⟨g, _, e⟩ := h
      obtain ⟨h1, h2, h3⟩ := newForm_own g cs
      rw [e] at h1 h2 h3
      exact ⟨h1, Or.inr (Or.inr ⟨h2, h3⟩)⟩

/-- what a gate-making operation does -/
def GateStep (l r f : Factors) (s s' : St) (cs cs' : Cells) : Prop :=
  cs.length ≤ cs'.length ∧ (∀ a, GHolds s' a → GHolds s a ∨ a = bigOne ∨ ((cs.length : Int) ≤ a ∧ a < cs'.length)) ∧
  ((f = l ∧ r = []) ∨ (f = r ∧ l = []) ∨
    (∀ x ∈ f, (cs.length : Int) ≤ x.mul ∧ x.mul < cs'.length ∧ (GHolds s' x.mul → GHolds s x.mul)) ∧ ∀ S, Apart S f)

/-- the gate with two new operands and a new coefficient of the result -/
theorem gate_own {l r l1 r1 : Factors} {s s' : St} {cs : Cells} {g g' : Gate} {post : Gate → Gate} {n : Name} {k : Int} (h0 : 2 ≤ cs.length)
    (hg : GIn (fun a => a = bigOne ∨ ∃ f ∈ (newForm l1 cs).1 ++ (newForm r1 (newForm l1 cs).2).1, a = f.mul) g)
    (hp : ∀ P, P bigOne → ∀ g, GIn P g → GIn P (post g))
    (h : hAdd H (newForm r1 (newForm l1 cs).2).2 s g post = some (s', g')) :
    GateStep l r [argF n (newForm r1 (newForm l1 cs).2).2.length] s s' cs ((newForm r1 (newForm l1 cs).2).2 ++ [k]) := by
  obtain ⟨a1, a2, _⟩ := newForm_own l1 cs
  obtain ⟨b1, b2, _⟩ := newForm_own r1 (newForm l1 cs).2
  set cs2 := (newForm r1 (newForm l1 cs).2).2
  have key := add_own (P := fun a => a = bigOne ∨ ((cs.length : Int) ≤ a ∧ a < cs2.length)) (fun x hx => by
    rcases hg x hx with e | ⟨f, hf, e⟩
    · exact Or.inl e
    · rw [e]
      rcases List.mem_append.mp hf with hf | hf
      · have := a2 f hf
        exact Or.inr ⟨by omega, by omega⟩
      · have := b2 f hf
        exact Or.inr ⟨by omega, by omega⟩) (hp _ (Or.inl rfl)) h
  refine ⟨by simp only [List.length_append, List.length_singleton]; omega, fun a ha => ?_, Or.inr (Or.inr ⟨fun x hx => ?_, fun S => List.pairwise_singleton _ _⟩)⟩
  · rcases key a ha with ha | ha | ha
    · exact Or.inl ha
    · exact Or.inr (Or.inl ha)
    · exact Or.inr (Or.inr ⟨ha.1, by simp only [List.length_append, List.length_singleton]; omega⟩)
  · rw [List.mem_singleton.mp hx]
    simp only [argF, List.length_append, List.length_singleton]
    refine ⟨by omega, by omega, fun hh => ?_⟩
    rcases key _ hh with hh | hh | hh
    · exact hh
    · simp only [bigOne] at hh
      omega
    · omega

theorem mulGate_own {l r f : Factors} {s s' : St} {cs cs' : Cells} (h0 : 2 ≤ cs.length) (h : hMulGate H q l r s cs = some (f, s', cs')) :
    GateStep l r f s s' cs cs' := by
  simp only [hMulGate] at h
  split at h
  · simp only [Option.bind_eq_bind, Option.bind_eq_some_iff, Prod.exists, Option.pure_def, Option.some.injEq, Prod.mk.injEq] at h
    obtain ⟨f', cs1, h1, rfl, rfl, rfl⟩ := h
    obtain ⟨k1, k2⟩ := mulFactors_own h1
    refine ⟨k1, fun a ha => Or.inl ha, k2.imp id (Or.imp id fun ⟨k, k'⟩ => ⟨fun x hx => ⟨(k x hx).1, (k x hx).2, id⟩, k'⟩)⟩
  · simp only [Option.bind_eq_bind, Option.bind_eq_some_iff, Prod.exists, Option.pure_def, Option.some.injEq, Prod.mk.injEq, newCell] at h
    obtain ⟨k, l1, r1, h1, s1, g, h2, rfl, rfl, rfl⟩ := h
    refine gate_own h0 (fun x hx => Or.inr ⟨x, by simpa using hx, rfl⟩) (fun P hP g hg x hx => ?_) h2
    simp only [List.mem_append, List.mem_singleton] at hx
    rcases hx with hx | rfl
    · exact hg x (by simp only [List.mem_append]; tauto)
    · exact hP

theorem divGate_own {l r f : Factors} {s s' : St} {cs cs' : Cells} (h0 : 2 ≤ cs.length) (h : hDivGate H q l r s cs = some (f, s', cs')) :
    GateStep l r f s s' cs cs' := by
  simp only [hDivGate] at h
  split at h
  · rename_i e
    simp only [Option.bind_eq_bind, Option.bind_eq_some_iff, Prod.exists, Option.pure_def, Option.some.injEq, Prod.mk.injEq] at h
    obtain ⟨i, h1, f', cs1, h2, rfl, rfl, rfl⟩ := h
    obtain ⟨a1, a2, a3⟩ := newForm_own i cs
    obtain ⟨k1, k2⟩ := mulFactors_own h2
    refine ⟨by omega, fun a ha => Or.inl ha, ?_⟩
    rcases k2 with ⟨k, k'⟩ | ⟨k, _⟩ | ⟨k, k'⟩
    · refine Or.inl ⟨k, ?_⟩
      have hi : i = [] := by
        cases i with
        | nil => rfl
        | cons x i => simp [newForm] at k'
      subst hi
      cases r with
      | nil => rfl
      | cons x r =>
        simp only [invertFactors, rdFs, List.map_cons, List.mapM_cons, Option.bind_eq_bind, Option.bind_eq_some_iff, Option.pure_def,
          Option.some.injEq] at h1
        obtain ⟨_, _, _, _, h1⟩ := h1
        cases h1
    · subst k
      exact Or.inr (Or.inr ⟨fun x hx => ⟨(a2 x hx).1, by have := (a2 x hx).2; omega, id⟩, a3⟩)
    · exact Or.inr (Or.inr ⟨fun x hx => ⟨by have := (k x hx).1; omega, (k x hx).2, id⟩, k'⟩)
  · simp only [Option.bind_eq_bind, Option.bind_eq_some_iff, Prod.exists, Option.pure_def, Option.some.injEq, Prod.mk.injEq, newCell] at h
    obtain ⟨_, l1, h1, _, r1, h1', k, hk, s1, g, h2, rfl, rfl, rfl⟩ := h
    refine gate_own h0 (fun x hx => Or.inr ⟨x, by simp at hx ⊢; tauto, rfl⟩) (fun P hP g hg x hx => ?_) h2
    simp only [List.mem_append, List.mem_singleton] at hx
    rcases hx with ((rfl | hx) | hx) | hx
    · exact hP
    all_goals exact hg x (by simp only [List.mem_append]; tauto)

theorem baseGate_own {e f : Factors} {s s' : St} {cs : Cells} (h : hBaseGate H e s cs = some (f, s')) :
    (∀ a, GHolds s' a → GHolds s a ∨ ∃ x ∈ e, x.mul = a) ∧ ∃ n, f = [argF n bigOne] := by
  simp only [hBaseGate, Option.bind_eq_bind, Option.bind_eq_some_iff, Prod.exists, Option.pure_def, Option.some.injEq, Prod.mk.injEq] at h
  obtain ⟨s1, g, h1, rfl, rfl⟩ := h
  exact ⟨add_own (P := fun a => ∃ x ∈ e, x.mul = a) (fun x hx => ⟨x, by simpa using hx, rfl⟩) (fun _ h => h) h1, _, rfl⟩

theorem addGate_own {l r f : Factors} {s s' : St} {cs cs' : Cells} (h0 : 2 ≤ cs.length)
    (h : hAddGateConstraint H q l r s cs = some (f, s', cs')) :
    cs.length ≤ cs'.length ∧
    (∀ a, GHolds s' a → GHolds s a ∨ a = bigOne ∨ a = bigZero ∨ ((cs.length : Int) ≤ a ∧ a < cs'.length)) ∧
    (∀ x ∈ f, (cs.length : Int) ≤ x.mul ∧ x.mul < cs'.length ∧ (GHolds s' x.mul → GHolds s x.mul)) ∧ ∀ S, Apart S f := by
  simp only [hAddGateConstraint, Option.bind_eq_bind, Option.bind_eq_some_iff, Prod.exists, Option.pure_def, Option.some.injEq, Prod.mk.injEq, newCell] at h
  obtain ⟨k, l1, r1, h1, s1, g, h2, rfl, rfl, rfl⟩ := h
  obtain ⟨a1, a2, a3⟩ := newForm_own l1 cs
  obtain ⟨b1, b2, b3⟩ := newForm_own r1 (newForm l1 cs).2
  have hap : Apart (fun _ => True) ((newForm l1 cs).1 ++ (newForm r1 (newForm l1 cs).2).1) :=
    List.pairwise_append.mpr ⟨a3 fun _ => True, b3 fun _ => True, fun _ _ _ _ _ => trivial⟩
  obtain ⟨c1, c2, _⟩ := addFactors_own (q := q) (cs := (newForm r1 (newForm l1 cs).2).2) (fun f hf => by
    rcases List.mem_append.mp hf with hf | hf
    · have := a2 f hf
      omega
    · have := b2 f hf
      omega) hap
  set p := hAddFactors q (newForm l1 cs).1 (newForm r1 (newForm l1 cs).2).1 (newForm r1 (newForm l1 cs).2).2
  have key := add_own (P := fun a => a = bigOne ∨ a = bigZero ∨ ((cs.length : Int) ≤ a ∧ a < p.2.length)) (fun x hx => by
    simp only [List.append_nil] at hx
    rcases c2 x hx with hx | hx | hx
    · rcases List.mem_append.mp hx with hx | hx
      · have := a2 x hx
        exact Or.inr (Or.inr ⟨by omega, by omega⟩)
      · have := b2 x hx
        exact Or.inr (Or.inr ⟨by omega, by omega⟩)
    · exact Or.inr (Or.inl hx)
    · exact Or.inr (Or.inr ⟨by omega, by omega⟩)) (fun g hg x hx => by
      simp only [List.mem_append, List.mem_singleton] at hx
      rcases hx with hx | rfl
      · exact hg x (by simp only [List.mem_append]; tauto)
      · exact Or.inl rfl) h2
  refine ⟨by simp only [List.length_append, List.length_singleton]; omega, fun a ha => ?_, fun x hx => ?_, fun S => List.pairwise_singleton _ _⟩
  · rcases key a ha with ha | ha | ha | ha
    · exact Or.inl ha
    · exact Or.inr (Or.inl ha)
    · exact Or.inr (Or.inr (Or.inl ha))
    · exact Or.inr (Or.inr (Or.inr ⟨ha.1, by simp only [List.length_append, List.length_singleton]; omega⟩))
  · rw [List.mem_singleton.mp hx]
    simp only [argF, List.length_append, List.length_singleton]
    refine ⟨by omega, by omega, fun hh => ?_⟩
    rcases key _ hh with hh | hh | hh | hh
    · exact hh
    · simp only [bigOne] at hh
      omega
    · simp only [bigZero] at hh
      omega
    · omega

theorem splitLoop_own {cs : Cells} {z : Tok} (is : List Nat) : ∀ {s s' : St}, hSplitLoop H cs z is s = some s' → ∀ a, GHolds s' a → GHolds s a := by
  induction is with
  | nil => intro s s' h a ha; cases h; exact ha
  | cons i is ih =>
    intro s s' h a ha
    simp only [hSplitLoop, Option.bind_eq_bind, Option.bind_eq_some_iff, Prod.exists] at h
    obtain ⟨s1, g, h1, h2⟩ := h
    rcases add_own (P := fun _ => False) (fun x hx => by simp at hx) (fun _ h => h) h1 a (ih h2 a ha) with h | h
    · exact h
    · exact h.elim

theorem splitGate_own {f : Factors} {s s' : St} {cs cs' : Cells} (h : hSplitGate H q f s cs = some (s', cs')) :
    cs.length ≤ cs'.length ∧ ∀ a, GHolds s' a → GHolds s a ∨ ((cs.length : Int) ≤ a ∧ a < cs'.length) := by
  unfold hSplitGate at h
  split at h
  · simp only [Option.bind_eq_bind, Option.bind_eq_some_iff, Prod.exists, Option.pure_def, Option.some.injEq, Prod.mk.injEq] at h
    obtain ⟨s1, h1, s2, g, h2, rfl, rfl⟩ := h
    rename_i x
    obtain ⟨a1, a2, _⟩ := newForm_own ((List.range (Fq.bitLen q)).map fun (i : Nat) => argF (bitName i x.tok.ident) (val cs bigOne * 2 ^ i)) cs
    refine ⟨a1, fun a ha => ?_⟩
    rcases add_own (P := fun a => (cs.length : Int) ≤ a ∧ a < _) (fun y hy => a2 y (by simpa using hy)) (fun _ h => h) h2 a ha with h | h
    · exact Or.inl (splitLoop_own _ h1 a h)
    · exact Or.inr h
  · cases h

end APS.Alias
