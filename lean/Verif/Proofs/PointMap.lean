import Verif.Proofs.Jacobian

/-! `(x, y) ↦ (σ x u², σ y u³)` is a homomorphism between short Weierstrass curves -/
namespace APS
open APS.Spec WeierstrassCurve.Affine

variable {F K : Type} [Field F] [Field K] {b : F} {c : K}

theorem short_nonsing_iff {x y : F} : (shortCurve b).Nonsingular x y ↔ y ^ 2 = x ^ 3 + b ∧ (3 * x ^ 2 ≠ 0 ∨ 2 * y ≠ 0) := by
  rw [nonsingular_iff', equation_iff]
  simp only [shortCurve]
  constructor
  · rintro ⟨h1, h2⟩
    refine ⟨by linear_combination h1, ?_⟩
    rcases h2 with h | h
    · left; intro e; apply h; linear_combination -e
    · right; intro e; apply h; linear_combination e
  · rintro ⟨h1, h2⟩
    refine ⟨by linear_combination h1, ?_⟩
    rcases h2 with h | h
    · left; intro e; apply h; linear_combination -e
    · right; intro e; apply h; linear_combination e

theorem map_nonsing (σ : F →+* K) {u : K} (hu : u ≠ 0) (hc : σ b * u ^ 6 = c) {x y : F} (h : (shortCurve b).Nonsingular x y) :
    (shortCurve c).Nonsingular (σ x * u ^ 2) (σ y * u ^ 3) := by
  rw [short_nonsing_iff] at h ⊢
  obtain ⟨h1, h2⟩ := h
  have e := congrArg σ h1
  simp only [map_add, map_pow] at e
  refine ⟨by rw [← hc]; linear_combination u ^ 6 * e, ?_⟩
  have k3 : σ (3 * x ^ 2) = 3 * σ x ^ 2 := by rw [map_mul, map_pow, map_ofNat]
  have k2 : σ (2 * y) = 2 * σ y := by rw [map_mul, map_ofNat]
  rcases h2 with h | h
  · left
    have : σ (3 * x ^ 2) ≠ 0 := (map_ne_zero σ).2 h
    rw [k3] at this
    have := mul_ne_zero this (pow_ne_zero 4 hu)
    intro e; apply this; linear_combination e
  · right
    have : σ (2 * y) ≠ 0 := (map_ne_zero σ).2 h
    rw [k2] at this
    have := mul_ne_zero this (pow_ne_zero 3 hu)
    intro e; apply this; linear_combination e

/-- `(x, y) ↦ (σ x u², σ y u³)` on points -/
def mapFun (σ : F →+* K) {u : K} (hu : u ≠ 0) (hc : σ b * u ^ 6 = c) : (shortCurve b).Point → (shortCurve c).Point
  | .zero => .zero
  | .some _ _ h => .some _ _ (map_nonsing σ hu hc h)

theorem map_slope [DecidableEq F] [DecidableEq K] (σ : F →+* K) {u : K} (hu : u ≠ 0) {x₁ x₂ y₁ y₂ : F}
    (hxy : ¬(x₁ = x₂ ∧ y₁ = (shortCurve b).negY x₂ y₂)) :
    (shortCurve c).slope (σ x₁ * u ^ 2) (σ x₂ * u ^ 2) (σ y₁ * u ^ 3) (σ y₂ * u ^ 3) = σ ((shortCurve b).slope x₁ x₂ y₁ y₂) * u := by
  by_cases hx : x₁ = x₂
  · subst hx
    have hy : y₁ ≠ (shortCurve b).negY x₁ y₂ := fun h => hxy ⟨rfl, h⟩
    have hy' : σ y₁ * u ^ 3 ≠ (shortCurve c).negY (σ x₁ * u ^ 2) (σ y₂ * u ^ 3) := by
      intro e
      simp only [negY, shortCurve] at e hy
      apply hy
      apply σ.injective
      simp only [zero_mul, sub_zero] at e ⊢
      rw [map_neg]
      exact mul_right_cancel₀ (pow_ne_zero 3 hu) (by linear_combination e)
    rw [slope_of_Y_ne rfl hy, slope_of_Y_ne rfl hy']
    have hd : y₁ - (shortCurve b).negY x₁ y₁ = 2 * y₁ := by simp [negY, shortCurve]; ring
    have hd' : σ y₁ * u ^ 3 - (shortCurve c).negY (σ x₁ * u ^ 2) (σ y₁ * u ^ 3) = 2 * (σ y₁ * u ^ 3) := by simp [negY, shortCurve]; ring
    rw [hd, hd']
    simp only [shortCurve, map_div₀, map_add, map_mul, map_sub, map_pow, map_ofNat, map_zero, zero_mul, mul_zero, add_zero, sub_zero]
    by_cases h0 : (2 : K) * σ y₁ = 0
    · rw [← mul_assoc, h0]; simp
    · have : σ y₁ ≠ 0 := fun e => h0 (by rw [e, mul_zero])
      have h2 : (2 : K) ≠ 0 := fun e => h0 (by rw [e, zero_mul])
      field_simp
  · have hx' : σ x₁ * u ^ 2 ≠ σ x₂ * u ^ 2 := fun e => hx (σ.injective (mul_right_cancel₀ (pow_ne_zero 2 hu) e))
    have hd : σ x₁ - σ x₂ ≠ 0 := sub_ne_zero.2 fun e => hx (σ.injective e)
    rw [slope_of_X_ne hx, slope_of_X_ne hx', ← sub_mul, ← sub_mul, map_div₀, map_sub, map_sub]
    field_simp

theorem map_negY_iff (σ : F →+* K) {u : K} (hu : u ≠ 0) {x₁ x₂ y₁ y₂ : F} :
    (σ x₁ * u ^ 2 = σ x₂ * u ^ 2 ∧ σ y₁ * u ^ 3 = (shortCurve c).negY (σ x₂ * u ^ 2) (σ y₂ * u ^ 3)) ↔
      (x₁ = x₂ ∧ y₁ = (shortCurve b).negY x₂ y₂) := by
  simp only [negY, shortCurve, zero_mul, sub_zero]
  constructor
  · rintro ⟨h1, h2⟩
    refine ⟨σ.injective (mul_right_cancel₀ (pow_ne_zero 2 hu) h1), σ.injective ?_⟩
    rw [map_neg]
    exact mul_right_cancel₀ (pow_ne_zero 3 hu) (by linear_combination h2)
  · rintro ⟨rfl, rfl⟩
    refine ⟨rfl, ?_⟩
    rw [map_neg]; ring

/-- the homomorphism -/
def pointMap [DecidableEq F] [DecidableEq K] (σ : F →+* K) {u : K} (hu : u ≠ 0) (hc : σ b * u ^ 6 = c) :
    (shortCurve b).Point →+ (shortCurve c).Point where
  toFun := mapFun σ hu hc
  map_zero' := rfl
  map_add' := by
    rintro (_ | ⟨x₁, y₁, h₁⟩) (_ | ⟨x₂, y₂, h₂⟩)
    · rfl
    · rfl
    · rfl
    · by_cases hxy : x₁ = x₂ ∧ y₁ = (shortCurve b).negY x₂ y₂
      · rw [Point.add_of_Y_eq hxy.1 hxy.2]
        have := (map_negY_iff (b := b) (c := c) σ hu).2 hxy
        exact (Point.add_of_Y_eq (W := shortCurve c) (h₁ := map_nonsing σ hu hc h₁) (h₂ := map_nonsing σ hu hc h₂) this.1 this.2).symm
      · rw [Point.add_some hxy]
        have h' := fun e => hxy ((map_negY_iff (b := b) (c := c) σ hu).1 e)
        have e := Point.add_some (W := shortCurve c) (h₁ := map_nonsing σ hu hc h₁) (h₂ := map_nonsing σ hu hc h₂) h'
        refine Eq.trans ?_ e.symm
        simp only [mapFun, Point.some.injEq]
        rw [map_slope (b := b) σ hu hxy]
        simp only [addX, addY, negAddY, negY, shortCurve, map_add, map_sub, map_mul, map_pow, map_neg, map_zero]
        constructor <;> ring

@[simp] theorem pointMap_some [DecidableEq F] [DecidableEq K] (σ : F →+* K) {u : K} (hu : u ≠ 0) (hc : σ b * u ^ 6 = c) {x y : F}
    (h : (shortCurve b).Nonsingular x y) : pointMap σ hu hc (.some x y h) = .some _ _ (map_nonsing σ hu hc h) := rfl

theorem pointMap_inj [DecidableEq F] [DecidableEq K] (σ : F →+* K) {u : K} (hu : u ≠ 0) (hc : σ b * u ^ 6 = c) :
    Function.Injective (pointMap (b := b) σ hu hc) := by
  rw [injective_iff_map_eq_zero]
  rintro (_ | ⟨x, y, h⟩) e
  · rfl
  · exact absurd e (by rw [pointMap_some]; exact Point.some_ne_zero _)

end APS
