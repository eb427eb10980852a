import Verif.Proofs.CurveMul

/-! gfp2.go, gfp6.go, gfp12.go compute in the tower of extensions. -/
namespace APS
open APS.Spec APS.Pairing Polynomial

section ring
variable (p : Nat)

/-! ### gfP2 -/

theorem val2_zero : val2 p Gfp2.zero = 0 := by ext <;> simp [val2, Gfp2.zero]
theorem val2_one : val2 p Gfp2.one = 1 := by ext <;> simp [val2, Gfp2.one] <;> rfl
theorem val2_add (a b : Gfp2) : val2 p (a.add b) = val2 p a + val2 p b := by ext <;> simp [val2, Gfp2.add]
theorem val2_sub (a b : Gfp2) : val2 p (a.sub b) = val2 p a - val2 p b := by ext <;> simp [val2, Gfp2.sub]
theorem val2_neg (a : Gfp2) : val2 p a.negative = -val2 p a := by ext <;> simp [val2, Gfp2.negative]
theorem val2_double (a : Gfp2) : val2 p a.double = val2 p a + val2 p a := by
  ext <;> simp [val2, Gfp2.double] <;> ring
theorem val2_mul (a b : Gfp2) : val2 p (a.mul p b) = val2 p a * val2 p b := by
  ext <;> simp [val2, Gfp2.mul] <;> ring
theorem val2_square (a : Gfp2) : val2 p (a.square p) = val2 p a * val2 p a := by
  ext <;> simp [val2, Gfp2.square] <;> ring
theorem val2_mulScalar (a : Gfp2) (b : Int) : val2 p (a.mulScalar b) = val2 p a * (b : Fp2 p) := by
  ext <;> simp [val2, Gfp2.mulScalar]
theorem val2_mulXi (a : Gfp2) : val2 p a.mulXi = xi p * val2 p a := by
  ext <;> simp [val2, Gfp2.mulXi, xi] <;> ring
theorem val2_conjugate (a : Gfp2) : val2 p a.conjugate = star (val2 p a) := by
  ext <;> simp [val2, Gfp2.conjugate]
theorem cast_min (a : Int) : ((if a < 0 ∨ (p : Int) ≤ a then a % p else a : Int) : ZMod p) = (a : ZMod p) := by
  split <;> simp
theorem val2_minimal (a : Gfp2) : val2 p (a.minimal p) = val2 p a := by
  unfold val2 Gfp2.minimal
  simp only [cast_min]

theorem val2_expLoop (a : Gfp2) (k : Nat) : ∀ (i : Nat) (s : Gfp2),
    val2 p (Gfp2.expLoop p a k i s) = val2 p s ^ 2 ^ i * val2 p a ^ (k % 2 ^ i)
  | 0, s => by simp [Gfp2.expLoop, Nat.mod_one]
  | i + 1, s => by
    rw [Gfp2.expLoop, val2_expLoop a k i, bitInt_nat, mod_two_succ, pow_add]
    by_cases h : k.testBit i = true
    · rw [if_pos h, h, val2_mul, val2_square, Bool.toNat_true, mul_one, mul_pow, ← pow_two, ← pow_mul, ← pow_succ']; ring
    · rw [if_neg h, Bool.eq_false_iff.2 h, val2_square, Bool.toNat_false, ← pow_two, ← pow_mul, ← pow_succ']; simp [pow_succ]

theorem val2_exp (a : Gfp2) (k : Nat) : val2 p (a.exp p k) = val2 p a ^ k := by
  rw [Gfp2.exp, val2_expLoop, val2_one, one_pow, one_mul, Nat.mod_eq_of_lt (lt_two_pow_bitLen' k)]

/-! ### gfP6 -/

theorem tau_cube : tau p ^ 3 = AdjoinRoot.of _ (xi p) := by
  have h : AdjoinRoot.mk (X ^ 3 - C (xi p) : (Fp2 p)[X]) (X ^ 3 - C (xi p)) = 0 := AdjoinRoot.mk_self
  rw [map_sub, map_pow, AdjoinRoot.mk_X, AdjoinRoot.mk_C, sub_eq_zero] at h
  exact h

theorem val6_zero : val6 p Gfp6.zero = 0 := by simp [val6, Gfp6.zero, val2_zero]
theorem val6_one : val6 p Gfp6.one = 1 := by simp [val6, Gfp6.one, val2_zero, val2_one]
theorem val6_add (a b : Gfp6) : val6 p (a.add b) = val6 p a + val6 p b := by
  simp only [val6, Gfp6.add, val2_add, map_add]; ring
theorem val6_sub (a b : Gfp6) : val6 p (a.sub b) = val6 p a - val6 p b := by
  simp only [val6, Gfp6.sub, val2_sub, map_sub]; ring
theorem val6_neg (a : Gfp6) : val6 p a.negative = -val6 p a := by
  simp only [val6, Gfp6.negative, val2_neg, map_neg]; ring
theorem val6_double (a : Gfp6) : val6 p a.double = val6 p a + val6 p a := by
  simp only [val6, Gfp6.double, val2_double, map_add]; ring
theorem val6_mul (a b : Gfp6) : val6 p (a.mul p b) = val6 p a * val6 p b := by
  simp only [val6, Gfp6.mul, val2_add, val2_sub, val2_mul, val2_mulXi, map_add, map_sub, map_mul]
  rw [← tau_cube]; ring
theorem val6_mulScalar (a : Gfp6) (b : Gfp2) : val6 p (a.mulScalar p b) = val6 p a * AdjoinRoot.of _ (val2 p b) := by
  simp only [val6, Gfp6.mulScalar, val2_mul, map_mul]; ring
theorem val6_mulGFP (a : Gfp6) (b : Int) : val6 p (a.mulGFP b) = val6 p a * (b : Fp6 p) := by
  simp only [val6, Gfp6.mulGFP, val2_mulScalar, map_mul, map_intCast]; ring
theorem val6_mulTau (a : Gfp6) : val6 p a.mulTau = tau p * val6 p a := by
  simp only [val6, Gfp6.mulTau, val2_mulXi, map_mul]
  rw [← tau_cube]; ring
theorem val6_square (a : Gfp6) : val6 p (a.square p) = val6 p a * val6 p a := by
  simp only [val6, Gfp6.square, val2_add, val2_sub, val2_square, val2_mulXi, map_add, map_sub, map_mul]
  rw [← tau_cube]; ring
theorem val6_minimal (a : Gfp6) : val6 p (a.minimal p) = val6 p a := by
  simp only [val6, Gfp6.minimal, val2_minimal]

/-! ### gfP12 -/

theorem val12_zero : val12 p Gfp12.zero = 0 := by ext <;> simp [val12, Gfp12.zero, val6_zero]
theorem val12_one : val12 p Gfp12.one = 1 := by ext <;> simp [val12, Gfp12.one, val6_zero, val6_one] <;> rfl
theorem val12_add (a b : Gfp12) : val12 p (a.add b) = val12 p a + val12 p b := by
  ext <;> simp [val12, Gfp12.add, val6_add]
theorem val12_sub (a b : Gfp12) : val12 p (a.sub b) = val12 p a - val12 p b := by
  ext <;> simp [val12, Gfp12.sub, val6_sub]
theorem val12_neg (a : Gfp12) : val12 p a.negative = -val12 p a := by
  ext <;> simp [val12, Gfp12.negative, val6_neg]
theorem val12_conjugate (a : Gfp12) : val12 p a.conjugate.1 = star (val12 p a) := by
  ext <;> simp [val12, Gfp12.conjugate, val6_neg]
theorem val12_mul (a b : Gfp12) : val12 p (a.mul p b) = val12 p a * val12 p b := by
  ext <;> simp [val12, Gfp12.mul, val6_mul, val6_add, val6_mulTau] <;> ring
theorem val12_square (a : Gfp12) : val12 p (a.square p) = val12 p a * val12 p a := by
  ext <;> simp [val12, Gfp12.square, val6_mul, val6_add, val6_mulTau, val6_sub, val6_double] <;> ring
theorem val12_minimal (a : Gfp12) : val12 p (a.minimal p) = val12 p a := by
  simp only [val12, Gfp12.minimal, val6_minimal]

theorem val12_expLoop (a : Gfp12) (k : Nat) : ∀ (i : Nat) (s : Gfp12),
    val12 p (Gfp12.expLoop p a k i s) = val12 p s ^ 2 ^ i * val12 p a ^ (k % 2 ^ i)
  | 0, s => by simp [Gfp12.expLoop, Nat.mod_one]
  | i + 1, s => by
    rw [Gfp12.expLoop, val12_expLoop a k i, bitInt_nat, mod_two_succ, pow_add]
    by_cases h : k.testBit i = true
    · rw [if_pos h, h, val12_mul, val12_square, Bool.toNat_true, mul_one, mul_pow, ← pow_two, ← pow_mul, ← pow_succ']; ring
    · rw [if_neg h, Bool.eq_false_iff.2 h, val12_square, Bool.toNat_false, ← pow_two, ← pow_mul, ← pow_succ']; simp [pow_succ]

theorem val12_exp (a : Gfp12) (k : Nat) : val12 p (a.exp p k) = val12 p a ^ k := by
  rw [Gfp12.exp, val12_expLoop, val12_one, one_pow, one_mul, Nat.mod_eq_of_lt (lt_two_pow_bitLen' k)]

end ring
end APS
