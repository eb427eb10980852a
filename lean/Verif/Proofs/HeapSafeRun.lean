import Verif.Proofs.HeapSafe

/-! Programs whose subtractions have right operands that are computed on the spot run clean: execution. -/
namespace APS.Alias
open APS.Circuit APS.Prog
open APS.Parse (Constraint)
open APS.Lex (TokenType)

variable {H : Name → Nat} {q : Nat} {hc : HComp}

/-- every cell of the form belongs to the form alone, or is `bigZero` -/
def Fresh (n : Nat) (w : HW) (l : Factors) : Prop := ∀ f ∈ l, Own n w f.mul ∨ f.mul = bigZero

/-- the recursive calls on simple operands yield new cells -/
def Fresh.Comp (hc : HComp) : Prop :=
  ∀ cur k w r w', simple k = true → Lt w → hc cur k w = some (r, w') → w'.full = true → Fresh w.cells.length w' r.facs

theorem Own.move {n : Nat} {w w' : HW} {a : Int} (h : Own n w a) (hn : 2 ≤ n) (m : Move w w') : Own n w' a := by
  obtain ⟨h1, h2, h3⟩ := h
  have := m.len
  refine ⟨h1, by omega, fun hh => ?_⟩
  rcases m.keep _ hh with hh | hh | hh | hh
  · exact h3 hh
  · simp only [bigOne] at hh; omega
  · simp only [bigZero] at hh; omega
  · omega

theorem Fresh.move {n : Nat} {w w' : HW} {l : Factors} (h : Fresh n w l) (hn : 2 ≤ n) (m : Move w w') : Fresh n w' l :=
  fun f hf => (h f hf).imp (fun o => o.move hn m) id

theorem Fresh.weaken {n k : Nat} {w : HW} {l : Factors} (h : Fresh n w l) (hk : k ≤ n) : Fresh k w l :=
  fun f hf => (h f hf).imp (fun o => o.weaken hk) id

theorem Fresh.append {n : Nat} {w : HW} {l r : Factors} (hl : Fresh n w l) (hr : Fresh n w r) : Fresh n w (l ++ r) :=
  fun f hf => (List.mem_append.mp hf).elim (hl f) (hr f)

/-- the gates of an arithmetic operation keep new operands, the result is new -/
theorem fresh_gate {w0 w : HW} {l r f : Factors} {s' : St} {cs' : Cells} {b : Bool} (g : Go w0 w) (hl : l ≠ []) (hr : r ≠ [])
    (h : GateStep l r f w.s s' w.cells cs') : Fresh w0.cells.length { w with s := s', cells := cs', full := b } f := by
  obtain ⟨_, _, ⟨_, e⟩ | ⟨_, e⟩ | ⟨h3, _⟩⟩ := h
  · exact absurd e hr
  · exact absurd e hl
  · intro x hx
    have := (h3 x hx).1
    have := g.len
    refine Or.inl ⟨by omega, (h3 x hx).2.1, fun hh => ?_⟩
    rcases hh with hh | hh
    · have := g.lt.2 _ (Or.inl hh)
      omega
    · have := g.lt.2 _ (Or.inr ((h3 x hx).2.2 hh))
      omega

theorem fresh_add {w0 w : HW} {l r : Factors} (g : Go w0 w) (h : Out w0.cells.length w (l ++ r)) (hf : Fresh w0.cells.length w (l ++ r)) :
    Fresh w0.cells.length { w with cells := (hAddFactors q l r w.cells).2 } (hAddFactors q l r w.cells).1 := by
  obtain ⟨h1, h2, _⟩ := addFactors_own (q := q) h.lt h.apart
  intro f hf'
  rcases h2 f hf' with hx | hx | hx
  · rcases hf f hx with ⟨a, b, c⟩ | hx
    · exact Or.inl ⟨a, by simp only; omega, c⟩
    · exact Or.inr hx
  · exact Or.inr hx
  · refine Or.inl ⟨by have := g.len; omega, hx.2, fun hh => ?_⟩
    have := g.lt.2 _ hh
    omega

theorem fresh_negate {n : Nat} {w : HW} {l r : Factors} {b : Bool} (hl : Fresh n w l) (hr : Fresh n w r) :
    Fresh n { w with cells := (hNegate r w.cells).2, clean := b } (l ++ (hNegate r w.cells).1) := by
  obtain ⟨h1, h2, _⟩ := negate_own r w.cells
  intro f hf
  have : ∃ f' ∈ l ++ r, f'.mul = f.mul := by
    rcases List.mem_append.mp hf with hf | hf
    · exact ⟨f, List.mem_append_left _ hf, rfl⟩
    · have : f.mul ∈ r.map Factor.mul := h2 ▸ List.mem_map_of_mem hf
      obtain ⟨f', hf', e⟩ := List.mem_map.mp this
      exact ⟨f', List.mem_append_right _ hf', e⟩
  obtain ⟨f', hf', e⟩ := this
  rcases hl.append hr f' hf' with ⟨a, b, c⟩ | h
  · rw [e] at a b c
    exact Or.inl ⟨a, by simp only [h1]; exact b, c⟩
  · exact Or.inr (e ▸ h)

theorem fresh_operate (F : Shares hc) (G : Fresh.Comp hc) {cur : Nat} {op l r : Constraint} {x : Res} {w w' : HW} (g : Lt w)
    (hs : simple (.mk ⟨.unassigned, []⟩ [op, l, r]) = true)
    (h : hOperate H q hc cur false [op, l, r] w = some (x, w')) (hf : w'.full = true) : Fresh w.cells.length w' x.facs := by
  simp only [simple, Bool.and_eq_true, Bool.or_eq_true, beq_iff_eq, reduceCtorEq, false_or] at hs
  obtain ⟨-, ha, hs⟩ := hs
  simp only [hOperate, ha, if_true] at h
  split at h
  · simp only [Option.bind_eq_bind, Option.bind_eq_some_iff, Prod.exists, Option.pure_def, Option.some.injEq, Prod.mk.injEq] at h
    obtain ⟨a, w1, h1, b, w2, h2, f, s, cs, h3, rfl, rfl⟩ := h
    obtain ⟨k1, _⟩ := two_own F g h1 h2
    simp only [Bool.and_eq_true, decide_eq_true_eq] at hf
    exact fresh_gate k1 hf.1.2 hf.2 (mulGate_own k1.lt.1 h3)
  · rename_i e1
    split at h
    · simp only [Option.bind_eq_bind, Option.bind_eq_some_iff, Prod.exists, Option.pure_def, Option.some.injEq, Prod.mk.injEq] at h
      obtain ⟨a, w1, h1, b, w2, h2, f, s, cs, h3, rfl, rfl⟩ := h
      obtain ⟨k1, _⟩ := two_own F g h1 h2
      simp only [Bool.and_eq_true, decide_eq_true_eq] at hf
      exact fresh_gate k1 hf.1.2 hf.2 (divGate_own k1.lt.1 h3)
    · rename_i e2
      have hlr : simple l = true ∧ simple r = true := by tauto
      split at h
      · simp only [Option.bind_eq_bind, Option.bind_eq_some_iff, Prod.exists, Option.pure_def, Option.some.injEq, Prod.mk.injEq] at h
        obtain ⟨a, w1, h1, b, w2, h2, rfl, rfl⟩ := h
        obtain ⟨k1, k2, _⟩ := two_own F g h1 h2
        have a1 := (F _ _ _ _ _ g h1).1
        have b1 := (F _ _ _ _ _ a1.lt h2).1
        have f1 := (G _ _ _ _ _ hlr.1 g h1 (b1.move.full hf)).move g.1 b1.move
        have f2 := (G _ _ _ _ _ hlr.2 a1.lt h2 hf).weaken a1.len
        exact fresh_add k1 k2 (f1.append f2)
      · split at h
        · simp only [Option.bind_eq_bind, Option.bind_eq_some_iff, Prod.exists, Option.pure_def, Option.some.injEq, Prod.mk.injEq] at h
          obtain ⟨a, w1, h1, b, w2, h2, rfl, rfl⟩ := h
          obtain ⟨k1, k2, _⟩ := two_own F g h1 h2
          have a1 := (F _ _ _ _ _ g h1).1
          have b1 := (F _ _ _ _ _ a1.lt h2).1
          have f1 := (G _ _ _ _ _ hlr.1 g h1 (b1.move.full hf)).move g.1 b1.move
          have f2 := (G _ _ _ _ _ hlr.2 a1.lt h2 hf).weaken a1.len
          have kn : Go w { w2 with cells := (hNegate b.facs w2.cells).2, clean := w2.clean && harmless w2 b.facs } :=
            k1.trans (Go.more k1.lt rfl rfl (by simp only [(negate_own b.facs w2.cells).1, le_refl]))
          have := negate_go k2
          exact fresh_add kn ⟨this.each, this.lt, this.apart⟩ (fresh_negate f1 f2)
        · cases h

theorem compile_fresh (n : Nat) : Fresh.Comp (hCompile H q n) := by
  induction n with
  | zero => intro cur k w r w' _ _ h; cases h
  | succ n ih =>
    intro cur k w r w' hs g h hf
    obtain ⟨t, is⟩ := k
    have hs' : t.type = .number ∨ (t.type = .unassigned ∧ simple (.mk ⟨.unassigned, []⟩ is) = true) := by
      rcases is with _ | ⟨op, _ | ⟨l, _ | ⟨r', _ | ⟨z, is⟩⟩⟩⟩ <;> simp [simple] at hs ⊢ <;> tauto
    rcases hs' with e | ⟨e, hs⟩
    · simp only [hCompile, hCompileStep, Constraint.output, e, hCompileNum, Option.map_eq_some_iff, Prod.exists, Prod.mk.injEq] at h
      obtain ⟨f, cs, ⟨f', _, h1⟩, rfl, rfl⟩ := h
      obtain ⟨a1, a2, a3⟩ := newForm_own f' w.cells
      rw [h1] at a1 a2 a3
      intro x hx
      refine Or.inl ⟨(a2 x hx).1, (a2 x hx).2, fun hh => ?_⟩
      have := g.2 _ hh
      have := (a2 x hx).1
      omega
    · simp only [hCompile, hCompileStep, Constraint.output, Constraint.inputs, e] at h
      rcases is with _ | ⟨op, _ | ⟨l, _ | ⟨r', _ | ⟨z, is⟩⟩⟩⟩
      · simp [simple] at hs
      · exact ih _ _ _ _ _ (by simpa [simple] using hs) g h hf
      · simp [simple] at hs
      · exact fresh_operate (compile_own n) ih g hs h hf
      · simp [simple] at hs

end APS.Alias
