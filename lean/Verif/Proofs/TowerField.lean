import Verif.Proofs.Tower
import Mathlib.FieldTheory.KummerPolynomial

/-! inversion in the tower, for moduli for which the tower is a tower of fields -/
namespace APS
open APS.Spec APS.Pairing Polynomial

variable (p : Nat) [Fact p.Prime] [h2 : Fact (∀ r : ZMod p, r ^ 2 ≠ -1 + 0 * r)]

theorem val2_invert (a : Gfp2) : val2 p (a.invert p) = (val2 p a)⁻¹ := by
  have hn : QuadraticAlgebra.norm (val2 p a) = ((a.y * a.y + a.x * a.x : Int) : ZMod p) := by
    rw [QuadraticAlgebra.norm_def]
    simp [val2]
  by_cases h0 : ((a.y * a.y + a.x * a.x : Int) : ZMod p) = 0
  · have : val2 p a = 0 := by
      rw [← QuadraticAlgebra.norm_eq_zero_iff_eq_zero, hn, h0]
    have hx : (a.x : ZMod p) = 0 := congrArg QuadraticAlgebra.im this
    have hy : (a.y : ZMod p) = 0 := congrArg QuadraticAlgebra.re this
    rw [this, inv_zero]
    ext <;> simp [val2, Gfp2.invert, hx, hy]
  · have hi := modInv_cast h0
    have e : (val2 p a)⁻¹ = (QuadraticAlgebra.norm (val2 p a))⁻¹ • star (val2 p a) := rfl
    rw [e, hn, ← hi]
    ext <;> simp [val2, Gfp2.invert] <;> ring

variable [h6 : Fact (∀ r : Fp2 p, r ^ 3 ≠ xi p)]

theorem fp6_irr : Irreducible (X ^ 3 - C (xi p) : (Fp2 p)[X]) :=
  X_pow_sub_C_irreducible_of_prime (K := Fp2 p) Nat.prime_three h6.out

noncomputable instance fp6Field : Field (Fp6 p) :=
  have : Fact (Irreducible (X ^ 3 - C (xi p) : (Fp2 p)[X])) := ⟨fp6_irr p⟩
  inferInstanceAs (Field (AdjoinRoot (X ^ 3 - C (xi p) : (Fp2 p)[X])))

theorem val6_eq_mk (a : Gfp6) : val6 p a =
    AdjoinRoot.mk (X ^ 3 - C (xi p) : (Fp2 p)[X]) (C (val2 p a.x) * X ^ 2 + C (val2 p a.y) * X + C (val2 p a.z)) := by
  simp only [val6, tau, map_add, map_mul, map_pow, AdjoinRoot.mk_X, AdjoinRoot.mk_C]

theorem basis_zero {x y z : Fp2 p}
    (h : (AdjoinRoot.of _ x * tau p ^ 2 + AdjoinRoot.of _ y * tau p + AdjoinRoot.of _ z : Fp6 p) = 0) : x = 0 ∧ y = 0 ∧ z = 0 := by
  have h1 : AdjoinRoot.mk (X ^ 3 - C (xi p) : (Fp2 p)[X]) (C x * X ^ 2 + C y * X + C z) = 0 := by
    simp only [map_add, map_mul, map_pow, AdjoinRoot.mk_X, AdjoinRoot.mk_C]
    exact h
  rw [AdjoinRoot.mk_eq_zero] at h1
  have h2 : (C x * X ^ 2 + C y * X + C z : (Fp2 p)[X]) = 0 := by
    refine eq_zero_of_dvd_of_degree_lt h1 ?_
    rw [degree_X_pow_sub_C (by norm_num)]
    exact lt_of_le_of_lt degree_quadratic_le (by norm_num)
  refine ⟨?_, ?_, ?_⟩
  · have := congrArg (fun q => coeff q 2) h2; simpa [coeff_X, coeff_C] using this
  · have := congrArg (fun q => coeff q 1) h2; simpa [coeff_X, coeff_C] using this
  · have := congrArg (fun q => coeff q 0) h2; simpa [coeff_X, coeff_C] using this

theorem norm6_ne {x y z : Fp2 p} (hA : z * z - xi p * (x * y) = 0) (hB : xi p * (x * x) - y * z = 0)
    (hC : y * y - x * z = 0) : x = 0 ∧ y = 0 ∧ z = 0 := by
  have hxi : xi p ≠ 0 := fun h => by have := congrArg QuadraticAlgebra.im h; simp [xi] at this
  by_cases hx : x = 0
  · rw [hx] at hA hB hC
    have hz : z = 0 := by
      have : z * z = 0 := by linear_combination hA
      exact mul_self_eq_zero.1 this
    have hy : y = 0 := by
      have : y * y = 0 := by linear_combination hC
      exact mul_self_eq_zero.1 this
    exact ⟨hx, hy, hz⟩
  · exfalso
    refine h6.out (y / x) ?_
    have : y ^ 3 = xi p * x ^ 3 := by linear_combination y * hC - x * hB
    rw [div_pow, this]
    field_simp

theorem val6_invert (a : Gfp6) : val6 p (a.invert p) = (val6 p a)⁻¹ := by
  set x := val2 p a.x with hx
  set y := val2 p a.y with hy
  set z := val2 p a.z with hz
  have hv : val6 p (a.invert p) =
      AdjoinRoot.of _ ((y * y - x * z) * (xi p * ((y * y - x * z) * y) + (z * z - xi p * (x * y)) * z + xi p * ((xi p * (x * x) - y * z) * x))⁻¹) * tau p ^ 2 +
      AdjoinRoot.of _ ((xi p * (x * x) - y * z) * (xi p * ((y * y - x * z) * y) + (z * z - xi p * (x * y)) * z + xi p * ((xi p * (x * x) - y * z) * x))⁻¹) * tau p +
      AdjoinRoot.of _ ((z * z - xi p * (x * y)) * (xi p * ((y * y - x * z) * y) + (z * z - xi p * (x * y)) * z + xi p * ((xi p * (x * x) - y * z) * x))⁻¹) := by
    simp only [val6, Gfp6.invert, val2_add, val2_sub, val2_square, val2_mulXi, val2_mul, val2_invert, hx, hy, hz]
  by_cases h0 : val6 p a = 0
  · obtain ⟨ex, ey, ez⟩ := basis_zero p (x := x) (y := y) (z := z) h0
    rw [hv, h0, ex, ey, ez, inv_zero]; simp
  · set n := xi p * ((y * y - x * z) * y) + (z * z - xi p * (x * y)) * z + xi p * ((xi p * (x * x) - y * z) * x) with hn
    have hprod : (AdjoinRoot.of _ (y * y - x * z) * tau p ^ 2 + AdjoinRoot.of _ (xi p * (x * x) - y * z) * tau p +
        AdjoinRoot.of _ (z * z - xi p * (x * y))) * val6 p a = AdjoinRoot.of (X ^ 3 - C (xi p) : (Fp2 p)[X]) n := by
      rw [hn, val6, ← hx, ← hy, ← hz]
      simp only [map_add, map_sub, map_mul]
      rw [← tau_cube]; ring
    have hn0 : n ≠ 0 := by
      intro e
      rw [e, map_zero] at hprod
      rcases mul_eq_zero.1 hprod with h | h
      · obtain ⟨e1, e2, e3⟩ := basis_zero p h
        obtain ⟨f1, f2, f3⟩ := norm6_ne p e3 e2 e1
        apply h0
        rw [val6, ← hx, ← hy, ← hz, f1, f2, f3]; simp
      · exact h0 h
    apply eq_inv_of_mul_eq_one_left
    rw [hv]
    have hi : AdjoinRoot.of (X ^ 3 - C (xi p) : (Fp2 p)[X]) n * AdjoinRoot.of _ n⁻¹ = 1 := by
      rw [← map_mul, mul_inv_cancel₀ hn0, map_one]
    simp only [map_mul (AdjoinRoot.of _) _ n⁻¹]
    linear_combination AdjoinRoot.of (X ^ 3 - C (xi p) : (Fp2 p)[X]) n⁻¹ * hprod + hi

variable [h12 : Fact (∀ r : Fp6 p, r ^ 2 ≠ tau p + 0 * r)]

theorem val12_invert (a : Gfp12) : val12 p (a.invert p) = (val12 p a)⁻¹ := by
  have e : (val12 p a)⁻¹ = (QuadraticAlgebra.norm (val12 p a))⁻¹ • star (val12 p a) := rfl
  rw [e, QuadraticAlgebra.norm_def]
  ext
  · simp [val12, Gfp12.invert, Gfp12.mulScalar, val6_mul, val6_invert, val6_sub, val6_square, val6_mulTau]
    ring
  · simp [val12, Gfp12.invert, Gfp12.mulScalar, val6_mul, val6_invert, val6_sub, val6_square, val6_mulTau, val6_neg]
    ring

end APS
