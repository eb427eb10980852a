import Verif.Proofs.AteLines

/-! Bilinearity of the optimal ate pairing on E1 × G2. -/
namespace APS
open APS.Spec APS.Pairing WeierstrassCurve.Affine

section gen
variable {K : Type} [Field K] [DecidableEq K] {c : K}

/-- the line through `S` and `T` at the point `U` -/
def evP (S T U : (shortCurve c).Point) : K :=
  match U with
  | .zero => 1
  | .some x y _ => lineAt S T x y

/-- difference of abscissas -/
def vx (S U : (shortCurve c).Point) : K :=
  match S, U with
  | .some x₁ _ _, .some x _ _ => x - x₁
  | _, _ => 1

theorem not_vert {x₁ x₂ y₁ y₂ : K} {h₁ : (shortCurve c).Nonsingular x₁ y₁} {h₂ : (shortCurve c).Nonsingular x₂ y₂}
    (h : (Point.some x₁ y₁ h₁ + Point.some x₂ y₂ h₂ : (shortCurve c).Point) ≠ 0) : ¬(x₁ = x₂ ∧ y₁ = -y₂) := fun e =>
  h (Point.add_of_Y_eq e.1 (by rw [negY_short]; exact e.2))

theorem evP_conj {S T A : (shortCurve c).Point} (hS : S ≠ 0) (hT : T ≠ 0) (hA : A ≠ 0) (h : S + T ≠ 0) :
    evP S T A * evP S T (-A) = -(vx S A * vx T A * vx (S + T) A) := by
  match S, T, A, hS, hT, hA with
  | .some x₁ y₁ h₁, .some x₂ y₂ h₂, .some x y ha, _, _, _ =>
    have hxy := not_vert h
    have e := Point.add_some (W := shortCurve c) (h₁ := h₁) (h₂ := h₂) (by rw [negY_short]; exact hxy)
    rw [e, Point.neg_some]
    have := lineAt_conj h₁ h₂ hxy (short_eq ha)
    simp only [evP, vx, negY_short]
    exact this

theorem evP_recip {S T A B : (shortCurve c).Point} (hS : S ≠ 0) (hT : T ≠ 0) (hA : A ≠ 0) (hB : B ≠ 0) (h : S + T ≠ 0) (h' : A + B ≠ 0) :
    evP S T A * evP S T B * evP S T (-(A + B)) = -(evP A B S * evP A B T * evP A B (-(S + T))) := by
  match S, T, A, B, hS, hT, hA, hB with
  | .some x₁ y₁ h₁, .some x₂ y₂ h₂, .some a₁ b₁ k₁, .some a₂ b₂ k₂, _, _, _, _ =>
    have hxy := not_vert h
    have hab := not_vert h'
    have e := Point.add_some (W := shortCurve c) (h₁ := h₁) (h₂ := h₂) (by rw [negY_short]; exact hxy)
    have e' := Point.add_some (W := shortCurve c) (h₁ := k₁) (h₂ := k₂) (by rw [negY_short]; exact hab)
    rw [e, e', Point.neg_some, Point.neg_some]
    have := line_reciprocity h₁ h₂ hxy k₁ k₂ hab _ _ _ _ rfl rfl rfl rfl
    simp only [evP, negY_short]
    exact this

theorem evP_zero_left (T U : (shortCurve c).Point) : evP 0 T U = 1 := by
  match U with
  | .zero => rfl
  | .some x y _ => exact lineAt_zero_left T x y

theorem evP_zero_right (T U : (shortCurve c).Point) : evP T 0 U = 1 := by
  match U with
  | .zero => rfl
  | .some x y _ => exact lineAt_zero_right T x y

theorem evP_zero (S T : (shortCurve c).Point) : evP S T 0 = 1 := rfl

theorem evP_symm (S T U : (shortCurve c).Point) : evP S T U = evP T S U := by
  cases U
  · rfl
  · exact lineAt_symm _ _ _ _
end gen

/-- the value of the line after the final exponentiation -/
noncomputable def Hv (A : (E1 P).Point) (S T : (E2 P).Point) : Fp12 P := evP (psi S) (psi T) (phi A) ^ eN

theorem Hv_some {x y : ZMod P} (h : (E1 P).Nonsingular x y) (S T : (E2 P).Point) :
    Hv (.some x y h) S T = lineAt (psi S) (psi T) (of1 x) (of1 y) ^ eN := by
  obtain ⟨h', e⟩ := phi_some h
  rw [Hv, e]; rfl

theorem Hv_none (S T : (E2 P).Point) : Hv 0 S T = 1 := by
  rw [Hv, map_zero, evP_zero, one_pow]

theorem Hv_ne (A : (E1 P).Point) {S : (E2 P).Point} (hS : nz S) (T : (E2 P).Point) : Hv A S T ≠ 0 := by
  match A with
  | .zero => rw [show Hv .zero S T = 1 from Hv_none S T]; exact one_ne_zero
  | .some x y h => rw [Hv_some]; exact pow_ne_zero _ (line_psi_ne hS (E1_ord h))

theorem Hv_order (A : (E1 P).Point) {S : (E2 P).Point} (hS : nz S) (T : (E2 P).Point) : Hv A S T ^ Order = 1 := by
  match A with
  | .zero => rw [show Hv .zero S T = 1 from Hv_none S T, one_pow]
  | .some x y h => rw [Hv_some]; exact eN_order (line_psi_ne hS (E1_ord h))

theorem Hv_symm (A : (E1 P).Point) (S T : (E2 P).Point) : Hv A S T = Hv A T S := by
  rw [Hv, evP_symm]; rfl

theorem Hv_zero (A : (E1 P).Point) (S : (E2 P).Point) : Hv A S 0 = 1 := by
  rw [Hv, map_zero, evP_zero_right, one_pow]

theorem Hv_neg (A : (E1 P).Point) {S : (E2 P).Point} (hS : nz S) : Hv A S (-S) = 1 := by
  match A with
  | .zero => exact Hv_none S (-S)
  | .some x y h => rw [Hv_some]; exact line_psi_neg hS x y

theorem Hv_coc (A : (E1 P).Point) {S T U : (E2 P).Point} (h1 : nz (T + U)) (h2 : nz (S + (T + U))) (h3 : nz (S + T)) :
    Hv A S T * Hv A (S + T) U = Hv A T U * Hv A S (T + U) := by
  match A with
  | .zero => simp only [show ∀ S T, Hv .zero S T = 1 from Hv_none]
  | .some x y h => simp only [Hv_some]; exact line_cocycle h1 h2 h3 h

theorem Hv_frob (A : (E1 P).Point) (S T : (E2 P).Point) : Hv A (frobTw S) (frobTw T) = Hv A S T ^ P := by
  match A with
  | .zero => simp only [show ∀ S T, Hv .zero S T = 1 from Hv_none, one_pow]
  | .some x y h => simp only [Hv_some, line_frob]; rw [← pow_mul, mul_comm, pow_mul]

/-- differences of abscissas are removed -/
theorem vx_psi {S : (E2 P).Point} (hS : nz S) (A : (E1 P).Point) : vx (psi S) (phi A) ^ eN = 1 ∧ vx (phi A) (psi S) ^ eN = 1 := by
  match S, A, hS with
  | .zero, .zero, _ => exact ⟨one_pow _, one_pow _⟩
  | .zero, .some _ _ _, _ => exact ⟨one_pow _, one_pow _⟩
  | .some _ _ _, .zero, _ => exact ⟨one_pow _, one_pow _⟩
  | .some x₁ y₁ h₁, .some x y h, hS =>
    obtain ⟨h', e⟩ := phi_some h
    have hx := e1_e2_tau (x := x) (hS _ _ _ rfl)
    have k := eN_of6 hx
    have e1' : vx (psi (.some x₁ y₁ h₁)) (phi (.some x y h)) = of6 (e2 (e1 x) - e2 x₁ * tau P) := by
      rw [e, psi_some]; simp only [vx]; rw [of1_eq, of2_eq, omega_sq', map_sub, map_mul]
    have e2' : vx (phi (.some x y h)) (psi (.some x₁ y₁ h₁)) = -1 * of6 (e2 (e1 x) - e2 x₁ * tau P) := by
      rw [e, psi_some]; simp only [vx]; rw [of1_eq, of2_eq, omega_sq', map_sub, map_mul]; ring
    rw [e1', e2', mul_pow, k, eN_neg_one, one_mul]
    exact ⟨rfl, rfl⟩

theorem psi_ne {S : (E2 P).Point} (h : S ≠ 0) : psi S ≠ 0 := fun e => h (pointMap_inj of2 omega_ne psi_b (e.trans (map_zero psi).symm))
theorem phi_ne {A : (E1 P).Point} (h : A ≠ 0) : phi A ≠ 0 := fun e => h (pointMap_inj of1 one_ne_zero _ (e.trans (map_zero phi).symm))

/-- the line at opposite points -/
theorem Hv_conj (A : (E1 P).Point) {S T : (E2 P).Point} (hS : nz S) (hT : nz T) (hST : nz (S + T)) : Hv A S T * Hv (-A) S T = 1 := by
  by_cases h1 : S = 0
  · subst h1; rw [Hv_symm, Hv_symm (-A), Hv_zero, Hv_zero, one_mul]
  by_cases h2 : T = 0
  · subst h2; rw [Hv_zero, Hv_zero, one_mul]
  by_cases h3 : S + T = 0
  · rw [← neg_eq_iff_add_eq_zero] at h3; subst h3; rw [Hv_neg _ hS, Hv_neg _ hS, one_mul]
  by_cases h4 : A = 0
  · subst h4; rw [neg_zero, Hv_none, one_mul]
  have := evP_conj (psi_ne h1) (psi_ne h2) (phi_ne h4) (by rw [← map_add]; exact psi_ne h3)
  rw [Hv, Hv, map_neg, ← mul_pow, this, ← map_add, neg_pow, mul_pow, mul_pow, (vx_psi hS A).1, (vx_psi hT A).1, (vx_psi hST A).1, eN_neg_one]
  simp

/-- the function `λ`: the line through `A` and `B`, at points of the twist -/
noncomputable def lamv (A B : (E1 P).Point) (T : (E2 P).Point) : Fp12 P :=
  open Classical in if A = 0 ∨ B = 0 ∨ A + B = 0 then 1 else evP (phi A) (phi B) (psi T) ^ eN

theorem line_phi_ne {A B : (E1 P).Point} (hA : A ≠ 0) (hB : B ≠ 0) (hAB : A + B ≠ 0) {T : (E2 P).Point} (hT : T ∈ GG2) :
    evP (phi A) (phi B) (psi T) ≠ 0 := by
  match A, B, T, hA, hB, hT with
  | _, _, .zero, _, _, _ => exact one_ne_zero
  | .some a₁ b₁ k₁, .some a₂ b₂ k₂, .some x y h, _, _, hT =>
    obtain ⟨k₁', e₁⟩ := phi_some k₁
    obtain ⟨k₂', e₂⟩ := phi_some k₂
    have hab := not_vert hAB
    have hv : ¬(of1 a₁ = of1 a₂ ∧ of1 b₁ = -of1 b₂) := fun e => hab ⟨of1.injective e.1, of1.injective (by rw [map_neg]; exact e.2)⟩
    have hs := map_slope (b := (3 : ZMod P)) (c := (3 : Fp12 P)) of1 (u := 1) one_ne_zero (x₁ := a₁) (x₂ := a₂) (y₁ := b₁) (y₂ := b₂) (by rw [negY_short]; exact hab)
    simp only [one_pow, mul_one] at hs
    rw [e₁, e₂, psi_some]
    simp only [evP]
    rw [lineAt_some k₁' k₂' hv, hs]
    intro h0
    have hz : of6 (-(e2 (e1 ((E1 P).slope a₁ a₂ b₁ b₂)) * e2 x * tau P + e2 (e1 (b₁ - (E1 P).slope a₁ a₂ b₁ b₂ * a₁)))) + of6 (e2 y * tau P) * omega = 0 := by
      rw [← h0]
      simp only [of1_eq, of2_eq, map_add, map_neg, map_sub, map_mul]
      linear_combination (of6 (e2 (e1 ((E1 P).slope a₁ a₂ b₁ b₂))) * of6 (e2 x) - of6 (e2 y) * omega) * omega_sq'
    have h1 := (comb_zero hz).2
    rcases mul_eq_zero.1 h1 with h2 | h2
    · exact (GG2_coord hT).2 ((map_eq_zero e2).1 h2)
    · exact tau_ne P h2

theorem lamv_ne (A B : (E1 P).Point) {T : (E2 P).Point} (hT : T ∈ GG2) : lamv A B T ≠ 0 := by
  unfold lamv
  split
  · exact one_ne_zero
  · rename_i h
    push Not at h
    exact pow_ne_zero _ (line_phi_ne h.1 h.2.1 h.2.2 hT)

theorem lamv_order (A B : (E1 P).Point) {T : (E2 P).Point} (hT : T ∈ GG2) : lamv A B T ^ Order = 1 := by
  unfold lamv
  split
  · exact one_pow _
  · rename_i h
    push Not at h
    exact eN_order (line_phi_ne h.1 h.2.1 h.2.2 hT)

theorem lamv_zero (A B : (E1 P).Point) : lamv A B 0 = 1 := by
  unfold lamv
  split
  · rfl
  · rw [map_zero, evP_zero, one_pow]

theorem lamv_neg (A B : (E1 P).Point) {T : (E2 P).Point} (hT : T ∈ GG2) : lamv A B T * lamv A B (-T) = 1 := by
  by_cases hT0 : T = 0
  · subst hT0; rw [neg_zero, lamv_zero, one_mul]
  unfold lamv
  split
  · exact one_mul _
  · rename_i h
    push Not at h
    have := evP_conj (phi_ne h.1) (phi_ne h.2.1) (psi_ne hT0) (by rw [← map_add]; exact phi_ne h.2.2)
    have hn := GG2_nz hT
    rw [map_neg, ← mul_pow, this, ← map_add, neg_pow, mul_pow, mul_pow, (vx_psi hn A).2, (vx_psi hn B).2, (vx_psi hn (A + B)).2, eN_neg_one]
    simp

theorem lamv_frob (A B : (E1 P).Point) (T : (E2 P).Point) : lamv A B (frobTw T) = lamv A B T ^ P := by
  unfold lamv
  split
  · exact (one_pow _).symm
  · rename_i h
    push Not at h
    obtain ⟨hA, hB, hAB⟩ := h
    rw [← pow_mul, mul_comm, pow_mul]
    refine congrArg (· ^ eN) ?_
    match A, B, T, hA, hB with
    | _, _, .zero, _, _ => exact (one_pow _).symm
    | .some a₁ b₁ k₁, .some a₂ b₂ k₂, .some x y h, _, _ =>
      obtain ⟨k₁', e₁⟩ := phi_some k₁
      obtain ⟨k₂', e₂⟩ := phi_some k₂
      have hab := not_vert hAB
      have hv : ¬(of1 a₁ = of1 a₂ ∧ of1 b₁ = -of1 b₂) := fun e => hab ⟨of1.injective e.1, of1.injective (by rw [map_neg]; exact e.2)⟩
      have hs := map_slope (b := (3 : ZMod P)) (c := (3 : Fp12 P)) of1 (u := 1) one_ne_zero (x₁ := a₁) (x₂ := a₂) (y₁ := b₁) (y₂ := b₂) (by rw [negY_short]; exact hab)
      simp only [one_pow, mul_one] at hs
      rw [e₁, e₂, frobTw_some, psi_some, psi_some]
      simp only [evP]
      rw [lineAt_some k₁' k₂' hv, lineAt_some k₁' k₂' hv, hs]
      generalize (E1 P).slope a₁ a₂ b₁ b₂ = l
      have hF : ∀ z : Fp12 P, z ^ P = frobenius (Fp12 P) P z := fun z => rfl
      have ho : frobenius (Fp12 P) P omega = of2 (val2 P xiToPMinus1Over6) * omega := omega_frob
      have h2 : ∀ a : Fp2 P, frobenius (Fp12 P) P (of2 a) = of2 (frobenius (Fp2 P) P a) := fun a => (map_pow of2 a P).symm
      have h1 : ∀ a : ZMod P, frobenius (Fp12 P) P (of1 a) = of1 a := of1_frob
      rw [hF]
      simp only [map_sub, map_add, map_mul, map_pow, ho, h2, h1]
      ring

/-- the line of `A + B` -/
theorem Hv_add (A B : (E1 P).Point) {S T : (E2 P).Point} (hS : S ∈ GG2) (hT : T ∈ GG2) :
    Hv (A + B) S T * (lamv A B S * lamv A B T) = Hv A S T * Hv B S T * lamv A B (S + T) := by
  have hST := GG2.add_mem hS hT
  by_cases h1 : S = 0
  · subst h1; simp only [Hv_symm _ 0, Hv_zero, lamv_zero, zero_add, one_mul]
  by_cases h2 : T = 0
  · subst h2; simp only [Hv_zero, lamv_zero, add_zero, one_mul, mul_one]
  by_cases h3 : S + T = 0
  · have e : T = -S := (neg_eq_of_add_eq_zero_right h3).symm
    subst e
    rw [Hv_neg _ (GG2_nz hS), Hv_neg _ (GG2_nz hS), Hv_neg _ (GG2_nz hS), h3, lamv_zero, lamv_neg A B hS, one_mul, one_mul]
  by_cases h : A = 0 ∨ B = 0 ∨ A + B = 0
  · have hl : ∀ T, lamv A B T = 1 := fun T => if_pos h
    simp only [hl, mul_one]
    rcases h with h | h | h
    · subst h; rw [zero_add, Hv_none, one_mul]
    · subst h; rw [add_zero, Hv_none, mul_one]
    · have e : B = -A := (neg_eq_of_add_eq_zero_right h).symm
      rw [h, Hv_none, e, Hv_conj _ (GG2_nz hS) (GG2_nz hT) (GG2_nz hST)]
  · have hl : ∀ T, lamv A B T = evP (phi A) (phi B) (psi T) ^ eN := fun T => if_neg h
    push Not at h
    obtain ⟨hA, hB, hAB⟩ := h
    have r := evP_recip (psi_ne h1) (psi_ne h2) (phi_ne hA) (phi_ne hB) (by rw [← map_add]; exact psi_ne h3) (by rw [← map_add]; exact phi_ne hAB)
    have r := congrArg (· ^ eN) r
    simp only [neg_pow (evP (phi A) (phi B) (psi S) * _ * _), mul_pow, eN_neg_one, one_mul, ← map_add, ← map_neg] at r
    have c1 := Hv_conj (A + B) (GG2_nz hS) (GG2_nz hT) (GG2_nz hST)
    have c2 := lamv_neg A B hST
    rw [← hl, ← hl, ← hl] at r
    change Hv A S T * Hv B S T * Hv (-(A + B)) S T = _ at r
    calc Hv (A + B) S T * (lamv A B S * lamv A B T)
        = Hv (A + B) S T * (lamv A B S * lamv A B T * lamv A B (-(S + T))) * lamv A B (S + T) := by
          linear_combination (-Hv (A + B) S T * lamv A B S * lamv A B T) * c2
      _ = Hv A S T * Hv B S T * lamv A B (S + T) := by
          rw [← r]; linear_combination (Hv A S T * Hv B S T * lamv A B (S + T)) * c1

end APS
