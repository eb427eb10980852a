import Verif.Proofs.BnField

/-! C57, C58, C59, C71: the field tower of package bn256.

`val2`, `val6`, `val12` (Spec/Pairing.lean) map the elements of the code, which are not normalised, to Mathlib's
`F_p[i]/(i²+1)`, `F_{p²}[τ]/(τ³-ξ)` and `F_{p⁶}[ω]/(ω²-τ)`.  All of these are fields: the instances `bnH2`, `bnH6`, `bnH12`
prove that -1 is no square, ξ no cube and τ no square. -/
namespace APS
open APS.Spec APS.Pairing Polynomial

/-- C57-C59: the three rings are fields: -1 is no square, ξ no cube, τ no square. -/
theorem C57_tower_of_fields : P.Prime ∧ (∀ r : ZMod P, r ^ 2 ≠ -1) ∧ (∀ r : Fp2 P, r ^ 3 ≠ xi P) ∧ (∀ r : Fp6 P, r ^ 2 ≠ tau P) :=
  ⟨bnPrime.out, fun r h => bnH2.out r (by rw [h]; ring), bnH6.out, fun r h => bnH12.out r (by rw [h]; ring)⟩

/-- C57: gfP2 -/
theorem C57_gfp2 (a b : Gfp2) (c : Int) (k : Nat) :
    val2 P Gfp2.zero = 0 ∧ val2 P Gfp2.one = 1 ∧
    val2 P (a.add b) = val2 P a + val2 P b ∧
    val2 P (a.sub b) = val2 P a - val2 P b ∧
    val2 P a.double = 2 * val2 P a ∧
    val2 P a.negative = -val2 P a ∧
    val2 P a.conjugate = star (val2 P a) ∧
    val2 P (a.mul P b) = val2 P a * val2 P b ∧
    val2 P (a.mulScalar c) = val2 P a * (c : Fp2 P) ∧
    val2 P a.mulXi = xi P * val2 P a ∧
    val2 P (a.square P) = val2 P a ^ 2 ∧
    val2 P (a.invert P) = (val2 P a)⁻¹ ∧
    val2 P (a.exp P k) = val2 P a ^ k ∧
    val2 P (a.minimal P) = val2 P a :=
  ⟨val2_zero P, val2_one P, val2_add P a b, val2_sub P a b, by rw [val2_double, two_mul], val2_neg P a, val2_conjugate P a,
    val2_mul P a b, val2_mulScalar P a c, val2_mulXi P a, by rw [val2_square, pow_two], val2_invert P a, val2_exp P a k, val2_minimal P a⟩

/-- C57: the results of Mul, Square, Invert and Minimal are normalised: both coordinates lie in `[0, P)`, so they are equal
as pairs of numbers exactly when they are equal in the field. -/
theorem C57_normalised (a b : Gfp2) :
    ∀ r ∈ [a.mul P b, a.square P, a.invert P, a.minimal P], 0 ≤ r.x ∧ r.x < P ∧ 0 ≤ r.y ∧ r.y < P := by
  have hpos : (0 : Int) < P := by exact_mod_cast bnPrime.out.pos
  have hm : ∀ n : Int, 0 ≤ n % P ∧ n % P < P := fun n => ⟨Int.emod_nonneg n (ne_of_gt hpos), Int.emod_lt_of_pos n hpos⟩
  intro r hr
  simp only [List.mem_cons, List.not_mem_nil, or_false] at hr
  rcases hr with rfl | rfl | rfl | rfl
  · exact ⟨(hm _).1, (hm _).2, (hm _).1, (hm _).2⟩
  · exact ⟨(hm _).1, (hm _).2, (hm _).1, (hm _).2⟩
  · exact ⟨(hm _).1, (hm _).2, (hm _).1, (hm _).2⟩
  · simp only [Gfp2.minimal]
    have h1 : ∀ n : Int, 0 ≤ (if n < 0 ∨ (P : Int) ≤ n then n % P else n) ∧ (if n < 0 ∨ (P : Int) ≤ n then n % P else n) < P := by
      intro n
      split
      · exact hm n
      · omega
    exact ⟨(h1 _).1, (h1 _).2, (h1 _).1, (h1 _).2⟩

/-- C57: for normalised elements `IsZero` and `IsOne` decide equality with 0 and 1 in the field. -/
theorem C57_tests (a : Gfp2) (h : 0 ≤ a.x ∧ a.x < P ∧ 0 ≤ a.y ∧ a.y < P) :
    (a.isZero = true ↔ val2 P a = 0) ∧ (a.isOne = true ↔ val2 P a = 1) := by
  have hP := bnP_gt
  constructor
  · rw [← val2_zero, val2_eq_iff]
    simp only [Gfp2.isZero, Bool.and_eq_true, beq_iff_eq, Gfp2.zero]
    rw [Int.emod_eq_of_lt h.1 h.2.1, Int.emod_eq_of_lt h.2.2.1 h.2.2.2, Int.zero_emod]
  · rw [← val2_one, val2_eq_iff]
    simp only [Gfp2.isOne, Bool.and_eq_true, beq_iff_eq, Gfp2.one]
    rw [Int.emod_eq_of_lt h.1 h.2.1, Int.emod_eq_of_lt h.2.2.1 h.2.2.2, Int.zero_emod, Int.emod_eq_of_lt (by norm_num) (by omega)]
    omega

/-- C57: on elements that are not normalised `IsOne` is wrong: it accepts -1. -/
theorem C57_isOne_accepts_minus_one : Gfp2.isOne ⟨0, -1⟩ = true ∧ val2 P ⟨0, -1⟩ ≠ 1 := by
  refine ⟨by decide, ?_⟩
  rw [← val2_one, Ne, val2_eq_iff]
  decide +kernel

/-- the tests are not vacuous: `i` is normalised, not 0 and not 1, and `i² = -1` -/
example : val2 P ((⟨1, 0⟩ : Gfp2).square P) = -1 ∧ Gfp2.isZero ⟨1, 0⟩ = false := by
  refine ⟨?_, by decide⟩
  rw [val2_square]
  ext <;> simp [val2] <;> rfl

/-- C58: gfP6 -/
theorem C58_gfp6 (a b : Gfp6) (c : Gfp2) (n : Int) :
    val6 P Gfp6.zero = 0 ∧ val6 P Gfp6.one = 1 ∧
    val6 P (a.add b) = val6 P a + val6 P b ∧
    val6 P (a.sub b) = val6 P a - val6 P b ∧
    val6 P a.double = 2 * val6 P a ∧
    val6 P a.negative = -val6 P a ∧
    val6 P (a.mul P b) = val6 P a * val6 P b ∧
    val6 P (a.mulScalar P c) = val6 P a * AdjoinRoot.of _ (val2 P c) ∧
    val6 P (a.mulGFP n) = val6 P a * (n : Fp6 P) ∧
    val6 P a.mulTau = tau P * val6 P a ∧
    val6 P (a.square P) = val6 P a ^ 2 ∧
    val6 P (a.invert P) = (val6 P a)⁻¹ ∧
    val6 P (a.minimal P) = val6 P a :=
  ⟨val6_zero P, val6_one P, val6_add P a b, val6_sub P a b, by rw [val6_double, two_mul], val6_neg P a, val6_mul P a b,
    val6_mulScalar P a c, val6_mulGFP P a n, val6_mulTau P a, by rw [val6_square, pow_two], val6_invert P a, val6_minimal P a⟩

/-- C58: the tower relation `τ³ = ξ`, and the three coordinates are independent: elements with different coordinates are
different. -/
theorem C58_basis (a b : Gfp6) : tau P ^ 3 = AdjoinRoot.of _ (xi P) ∧
    (val6 P a = val6 P b ↔ val2 P a.x = val2 P b.x ∧ val2 P a.y = val2 P b.y ∧ val2 P a.z = val2 P b.z) := by
  refine ⟨tau_cube P, fun h => ?_, fun ⟨h1, h2, h3⟩ => by simp only [val6, h1, h2, h3]⟩
  have h' : val6 P (a.sub b) = 0 := by rw [val6_sub, h, sub_self]
  obtain ⟨h1, h2, h3⟩ := basis_zero P h'
  simp only [Gfp6.sub, val2_sub, sub_eq_zero] at h1 h2 h3
  exact ⟨h1, h2, h3⟩

/-- C59: gfP12; `Conjugate` leaves the conjugate in the receiver. -/
theorem C59_gfp12 (a b : Gfp12) (k : Nat) :
    val12 P Gfp12.zero = 0 ∧ val12 P Gfp12.one = 1 ∧
    val12 P (a.add b) = val12 P a + val12 P b ∧
    val12 P (a.sub b) = val12 P a - val12 P b ∧
    val12 P a.negative = -val12 P a ∧
    val12 P a.conjugate.1 = star (val12 P a) ∧
    val12 P (a.mul P b) = val12 P a * val12 P b ∧
    val12 P (a.square P) = val12 P a ^ 2 ∧
    val12 P (a.exp P k) = val12 P a ^ k ∧
    val12 P (a.invert P) = (val12 P a)⁻¹ ∧
    val12 P (a.minimal P) = val12 P a :=
  ⟨val12_zero P, val12_one P, val12_add P a b, val12_sub P a b, val12_neg P a, val12_conjugate P a, val12_mul P a b,
    by rw [val12_square, pow_two], val12_exp P a k, val12_invert P a, val12_minimal P a⟩

/-- C59: the tower relation `ω² = τ`, and the coordinates are independent. -/
theorem C59_basis (a b : Gfp12) : (⟨0, 1⟩ : Fp12 P) ^ 2 = algebraMap (Fp6 P) (Fp12 P) (tau P) ∧
    (val12 P a = val12 P b ↔ val6 P a.x = val6 P b.x ∧ val6 P a.y = val6 P b.y) := by
  refine ⟨omega_sq P, fun h => ⟨congrArg QuadraticAlgebra.im h, congrArg QuadraticAlgebra.re h⟩, fun ⟨h1, h2⟩ => ?_⟩
  simp only [val12, h1, h2]

/-- C59 fails for `Conjugate` used as an expression: the value it returns is that of its argument. -/
theorem C59_conjugate_returns_refuted : ∃ a : Gfp12, val12 P a.conjugate.2 ≠ star (val12 P a) := by
  refine ⟨⟨Gfp6.one, Gfp6.zero⟩, fun h => ?_⟩
  have h1 := congrArg QuadraticAlgebra.im h
  simp [Gfp12.conjugate, val12, val6_one] at h1
  have := charP_fp6 P
  have h2 : ((2 : Nat) : Fp6 P) = 0 := by push_cast; linear_combination h1
  rw [CharP.cast_eq_zero_iff (Fp6 P) P] at h2
  have := Nat.le_of_dvd (by norm_num) h2
  have := bnP_gt
  omega

/-- C59 fails for `MulScalar`: the result does not depend on the first argument; it is the old value of the receiver that is
multiplied. -/
theorem C59_mulScalar_ignores_argument_refuted (e a a' : Gfp12) (b : Gfp6) :
    Gfp12.mulScalar P e a b = Gfp12.mulScalar P e a' b ∧
    val12 P (Gfp12.mulScalar P e a b) = val12 P e * algebraMap (Fp6 P) (Fp12 P) (val6 P b) := by
  refine ⟨rfl, ?_⟩
  ext <;> simp [Gfp12.mulScalar, val12, val6_mul]

/-! ### C71: the Frobenius maps and their constants -/

/-- C71: the constants of constants.go are the powers of `ξ` they are documented to be. -/
theorem C71_constants :
    xi P ^ ((P - 1) / 6) = val2 P xiToPMinus1Over6 ∧
    xi P ^ ((P - 1) / 3) = val2 P xiToPMinus1Over3 ∧
    xi P ^ ((P - 1) / 2) = val2 P xiToPMinus1Over2 ∧
    xi P ^ ((P ^ 2 - 1) / 3) = (xiToPSquaredMinus1Over3 : Fp2 P) ∧
    xi P ^ ((2 * P ^ 2 - 2) / 3) = (xiTo2PSquaredMinus2Over3 : Fp2 P) ∧
    xi P ^ ((P ^ 2 - 1) / 6) = (xiToPSquaredMinus1Over6 : Fp2 P) ∧
    xi P ^ ((2 * P - 2) / 3) = val2 P xiTo2PMinus2Over3 :=
  ⟨xi_pow_p16, xi_pow_p13, xi_pow_p12, xi_pow_pp13, xi_pow_2pp23, xi_pow_pp16, xi_pow_2p23⟩

/-- C71: `Frobenius` is the p-th power and `FrobeniusP2` the p²-th power, on gfP6 and gfP12; `Conjugate` is the p-th power
on gfP2 and (in the receiver) the p⁶-th power on gfP12. -/
theorem C71_frobenius (a : Gfp2) (b : Gfp6) (c : Gfp12) :
    val2 P a.conjugate = val2 P a ^ P ∧
    val6 P b.frobenius = val6 P b ^ P ∧ val6 P b.frobeniusP2 = val6 P b ^ P ^ 2 ∧
    val12 P c.frobenius = val12 P c ^ P ∧ val12 P c.frobeniusP2 = val12 P c ^ P ^ 2 ∧
    val12 P c.conjugate.1 = val12 P c ^ P ^ 6 :=
  ⟨by rw [val2_conjugate, fp2_pow_p P bnP_mod4], frob6 b, frob6P2 b, frob12 c, frob12P2 c, conj12 c⟩

end APS
