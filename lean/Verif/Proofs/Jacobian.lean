import Verif.Spec.Pairing
import Mathlib.Tactic.LinearCombination
import Mathlib.Tactic.FieldSimp

/-! The Jacobian formulas used by curve.go and twist.go, over any field in which 2 is invertible. -/
namespace APS
open APS.Spec WeierstrassCurve.Affine

variable {F : Type} [Field F] {b : F}

theorem short_eq {x y : F} (h : (shortCurve b).Nonsingular x y) : y ^ 2 = x ^ 3 + b := by
  have := (equation_iff (W := shortCurve b) x y).1 h.1
  simpa [shortCurve] using this

theorem short_nonsing (h2 : (2 : F) ≠ 0) (h3 : (3 : F) ≠ 0) (hb : b ≠ 0) {x y : F} (h : y ^ 2 = x ^ 3 + b) :
    (shortCurve b).Nonsingular x y := by
  rw [nonsingular_iff']
  refine ⟨by rw [equation_iff]; simpa [shortCurve] using h, ?_⟩
  simp only [shortCurve]
  by_cases hx : x = 0
  · right
    have : y ≠ 0 := by
      rintro rfl
      rw [hx] at h; apply hb; linear_combination -h
    simpa using ⟨h2, this⟩
  · left
    simpa using ⟨h3, hx⟩

theorem jrep_zero {X Y Z : F} : JRep (b := b) X Y Z 0 ↔ Z = 0 := Iff.rfl

/-- doubling -/
theorem jrep_double (h2 : (2 : F) ≠ 0) {X Y Z : F} {Q : (shortCurve b).Point} [DecidableEq F] (h : JRep X Y Z Q) (X' Y' Z' : F)
    (hX : X' = (3 * X ^ 2) ^ 2 - 4 * ((X + Y ^ 2) ^ 2 - X ^ 2 - Y ^ 4))
    (hY : Y' = 3 * X ^ 2 * (2 * ((X + Y ^ 2) ^ 2 - X ^ 2 - Y ^ 4) - X') - 8 * Y ^ 4)
    (hZ : Z' = 2 * (Y * Z)) : JRep X' Y' Z' (Q + Q) := by
  match Q, h with
  | .zero, h =>
    have : (Point.zero : (shortCurve b).Point) + Point.zero = 0 := add_zero (0 : (shortCurve b).Point)
    rw [this, jrep_zero, hZ, show Z = 0 from h]; ring
  | .some x y hn, h =>
    obtain ⟨hz, hx, hy⟩ := h
    by_cases h0 : y = 0
    · have : (Point.some x y hn : (shortCurve b).Point) + Point.some x y hn = 0 :=
        Point.add_self_of_Y_eq (by simp [negY, shortCurve, h0])
      rw [this, jrep_zero, hZ, hy, h0]; ring
    · have hne : y ≠ (shortCurve b).negY x y := by
        simp only [negY, shortCurve]
        intro e
        have : 2 * y = 0 := by linear_combination e
        rcases mul_eq_zero.1 this with e | e
        · exact h2 e
        · exact h0 e
      rw [Point.add_self_of_Y_ne hne]
      have hs : (shortCurve b).slope x x y y = 3 * x ^ 2 / (2 * y) := by
        rw [slope_of_Y_ne rfl hne]
        simp [negY, shortCurve]; ring_nf
      refine ⟨?_, ?_, ?_⟩
      · rw [hZ, hy]
        exact mul_ne_zero h2 (mul_ne_zero (mul_ne_zero h0 (pow_ne_zero _ hz)) hz)
      · rw [hs, hX, hZ, hx, hy]
        simp only [addX, shortCurve]
        field_simp
        ring
      · rw [hs, hY, hX, hZ, hx, hy]
        simp only [addY, negAddY, negY, addX, shortCurve]
        field_simp
        ring

/-- addition of two finite points whose representations differ -/
theorem jrep_add (h2 : (2 : F) ≠ 0) {X₁ Y₁ Z₁ X₂ Y₂ Z₂ : F} {P Q : (shortCurve b).Point} [DecidableEq F]
    (hP : JRep X₁ Y₁ Z₁ P) (hQ : JRep X₂ Y₂ Z₂ Q) (hz1 : Z₁ ≠ 0) (hz2 : Z₂ ≠ 0) (u1 u2 s1 s2 : F)
    (hu1 : u1 = X₁ * Z₂ ^ 2) (hu2 : u2 = X₂ * Z₁ ^ 2) (hs1 : s1 = Y₁ * Z₂ ^ 3) (hs2 : s2 = Y₂ * Z₁ ^ 3)
    (hne : ¬ (u1 = u2 ∧ s1 = s2)) (X' Y' Z' : F)
    (hX : X' = 4 * (s2 - s1) ^ 2 - 4 * (u2 - u1) ^ 3 - 8 * u1 * (u2 - u1) ^ 2)
    (hY : Y' = 2 * (s2 - s1) * (4 * u1 * (u2 - u1) ^ 2 - X') - 8 * s1 * (u2 - u1) ^ 3)
    (hZ : Z' = 2 * Z₁ * Z₂ * (u2 - u1)) : JRep X' Y' Z' (P + Q) := by
  match P, Q, hP, hQ with
  | .zero, _, hP, _ => exact absurd hP hz1
  | .some _ _ _, .zero, _, hQ => exact absurd hQ hz2
  | .some x₁ y₁ n₁, .some x₂ y₂ n₂, ⟨_, hx1, hy1⟩, ⟨_, hx2, hy2⟩ =>
    have hzz : Z₁ ^ 2 * Z₂ ^ 2 ≠ 0 := mul_ne_zero (pow_ne_zero _ hz1) (pow_ne_zero _ hz2)
    have hzzz : Z₁ ^ 3 * Z₂ ^ 3 ≠ 0 := mul_ne_zero (pow_ne_zero _ hz1) (pow_ne_zero _ hz2)
    have hu1' : u1 = x₁ * (Z₁ ^ 2 * Z₂ ^ 2) := by rw [hu1, hx1]; ring
    have hu2' : u2 = x₂ * (Z₁ ^ 2 * Z₂ ^ 2) := by rw [hu2, hx2]; ring
    have hs1' : s1 = y₁ * (Z₁ ^ 3 * Z₂ ^ 3) := by rw [hs1, hy1]; ring
    have hs2' : s2 = y₂ * (Z₁ ^ 3 * Z₂ ^ 3) := by rw [hs2, hy2]; ring
    by_cases hxx : x₁ = x₂
    · have hyy : y₁ ≠ y₂ := by
        intro e; apply hne; rw [hu1', hu2', hs1', hs2', hxx, e]; exact ⟨rfl, rfl⟩
      have hneg : y₁ = (shortCurve b).negY x₂ y₂ := by
        have e1 := short_eq n₁
        have e2 := short_eq n₂
        have : (y₁ - y₂) * (y₁ + y₂) = 0 := by rw [hxx] at e1; linear_combination e1 - e2
        rcases mul_eq_zero.1 this with e | e
        · exact absurd (sub_eq_zero.1 e) hyy
        · simp only [negY, shortCurve]; linear_combination e
      rw [Point.add_of_Y_eq hxx hneg, jrep_zero, hZ, hu1', hu2', hxx]; ring
    · rw [Point.add_of_X_ne hxx]
      have hd : x₁ - x₂ ≠ 0 := sub_ne_zero.2 hxx
      have hs : (shortCurve b).slope x₁ x₂ y₁ y₂ = (y₁ - y₂) / (x₁ - x₂) := slope_of_X_ne hxx
      refine ⟨?_, ?_, ?_⟩
      · rw [hZ, hu1', hu2']
        refine mul_ne_zero (mul_ne_zero (mul_ne_zero h2 hz1) hz2) ?_
        rw [← sub_mul]
        exact mul_ne_zero (sub_ne_zero.2 (Ne.symm hxx)) hzz
      · rw [hs, hX, hZ, hu1', hu2', hs1', hs2']
        simp only [addX, shortCurve]
        field_simp
        ring
      · rw [hs, hY, hX, hZ, hu1', hu2', hs1', hs2']
        simp only [addY, negAddY, negY, addX, shortCurve]
        field_simp
        ring

theorem jrep_neg {X Y Z : F} {Q : (shortCurve b).Point} (h : JRep X Y Z Q) : JRep X (-Y) Z (-Q) := by
  match Q, h with
  | .zero, h => exact h
  | .some x y hn, ⟨hz, hx, hy⟩ =>
    rw [Point.neg_some]
    refine ⟨hz, hx, ?_⟩
    rw [hy]; simp only [negY, shortCurve]; ring

/-- a representation determines the point -/
theorem jrep_unique {X Y Z : F} {P Q : (shortCurve b).Point} (hP : JRep X Y Z P) (hQ : JRep X Y Z Q) : P = Q := by
  match P, Q, hP, hQ with
  | .zero, .zero, _, _ => rfl
  | .zero, .some _ _ _, h, ⟨hz, _⟩ => exact absurd h hz
  | .some _ _ _, .zero, ⟨hz, _⟩, h => exact absurd h hz
  | .some x₁ y₁ n₁, .some x₂ y₂ n₂, ⟨hz, hx1, hy1⟩, ⟨_, hx2, hy2⟩ =>
    have e1 : x₁ = x₂ := mul_right_cancel₀ (pow_ne_zero 2 hz) (hx1.symm.trans hx2)
    have e2 : y₁ = y₂ := mul_right_cancel₀ (pow_ne_zero 3 hz) (hy1.symm.trans hy2)
    subst e1; subst e2; rfl

end APS
