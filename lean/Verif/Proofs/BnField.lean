import Verif.Proofs.Frobenius
import Verif.Proofs.Primes

/-! the concrete modulus of package bn256 -/
namespace APS
open APS.Spec APS.Pairing Polynomial

/-- square and multiply in `Fp2` on residues, with forced intermediate results -/
def fp2Loop (p bx b_y e : Nat) : Nat → Nat → Nat → Nat × Nat
  | 0, sx, sy => (sx, sy)
  | i + 1, sx, sy =>
    forceNat (2 * sx * sy % p) fun tx =>
    forceNat ((sy * sy + (p - 1) * (sx * sx)) % p) fun ty =>
    if e.testBit i then
      forceNat ((tx * b_y + ty * bx) % p) fun rx =>
      forceNat ((ty * b_y + (p - 1) * (tx * bx)) % p) fun ry => fp2Loop p bx b_y e i rx ry
    else fp2Loop p bx b_y e i tx ty

def fp2PowMod (p bx b_y e : Nat) : Nat × Nat := fp2Loop p bx b_y e (e.log2 + 1) 0 1

variable (p : Nat) [hp : Fact p.Prime]

def ofPair (x y : Nat) : Fp2 p := ⟨(y : ZMod p), (x : ZMod p)⟩

theorem cast_pred : ((p - 1 : Nat) : ZMod p) = -1 := by
  rw [Nat.cast_sub hp.out.one_le]; simp

theorem fp2Loop_eq (bx b_y e : Nat) : ∀ i sx sy,
    ofPair p (fp2Loop p bx b_y e i sx sy).1 (fp2Loop p bx b_y e i sx sy).2 = ofPair p sx sy ^ 2 ^ i * ofPair p bx b_y ^ (e % 2 ^ i)
  | 0, sx, sy => by simp [fp2Loop, Nat.mod_one]
  | i + 1, sx, sy => by
    have hsq : ofPair p (2 * sx * sy % p) ((sy * sy + (p - 1) * (sx * sx)) % p) = ofPair p sx sy ^ 2 := by
      rw [pow_two]
      ext <;> simp only [ofPair, QuadraticAlgebra.re_mul, QuadraticAlgebra.im_mul, ZMod.natCast_mod, Nat.cast_mul, Nat.cast_add, cast_pred p, Nat.cast_ofNat] <;> ring
    have hmul : ∀ tx ty, ofPair p ((tx * b_y + ty * bx) % p) ((ty * b_y + (p - 1) * (tx * bx)) % p) = ofPair p tx ty * ofPair p bx b_y := by
      intro tx ty
      ext <;> simp only [ofPair, QuadraticAlgebra.re_mul, QuadraticAlgebra.im_mul, ZMod.natCast_mod, Nat.cast_mul, Nat.cast_add, cast_pred p] <;> ring
    rw [fp2Loop, forceNat_eq, forceNat_eq, Nat.mod_pow_succ, pow_add]
    have hb : e.testBit i = decide (e / 2 ^ i % 2 = 1) := Nat.testBit_eq_decide_div_mod_eq
    rcases Nat.mod_two_eq_zero_or_one (e / 2 ^ i) with h | h
    · rw [if_neg (by rw [hb, h]; simp), fp2Loop_eq, hsq, h]; ring
    · rw [if_pos (by rw [hb, h]; simp), forceNat_eq, forceNat_eq, fp2Loop_eq, hmul, hsq, h]; ring

theorem fp2PowMod_eq (bx b_y e : Nat) : ofPair p (fp2PowMod p bx b_y e).1 (fp2PowMod p bx b_y e).2 = ofPair p bx b_y ^ e := by
  rw [fp2PowMod, fp2Loop_eq, Nat.mod_eq_of_lt Nat.lt_log2_self]
  have : ofPair p 0 1 = 1 := by
    ext <;> simp [ofPair] <;> rfl
  rw [this]; simp

theorem ofPair_xi : ofPair p 1 9 = xi p := by simp [ofPair, xi]

instance bnPrime : Fact P.Prime := ⟨prime_bnP⟩
theorem bnP_mod4 : P % 4 = 3 := by decide +kernel
theorem bnP_mod3 : P % 3 = 1 := by decide +kernel
theorem bnP_mod6 : P % 6 = 1 := by decide +kernel
theorem bnP_odd : P % 2 = 1 := by decide +kernel
theorem bnP_gt : 100 < P := by decide +kernel

/-- constants.go:26: the constant is the claimed power of `ξ` -/
theorem xi_pow_p16 : xi P ^ ((P - 1) / 6) = val2 P xiToPMinus1Over6 := by
  have h : fp2PowMod P 1 9 ((P - 1) / 6) = (16469823323077808223889137241176536799009286646108169935659301613961712198316, 8376118865763821496583973867626364092589906065868298776909617916018768340080) := by decide +kernel
  rw [← ofPair_xi, ← fp2PowMod_eq, h]
  rfl

theorem xi_pow_p13 : xi P ^ ((P - 1) / 3) = val2 P xiToPMinus1Over3 := by
  have e : (P - 1) / 3 = (P - 1) / 6 * 2 := by decide +kernel
  have h : xiToPMinus1Over6.square P = xiToPMinus1Over3 := by decide +kernel
  rw [e, pow_mul, xi_pow_p16, ← h, val2_square, pow_two]

theorem xi_pow_p12 : xi P ^ ((P - 1) / 2) = val2 P xiToPMinus1Over2 := by
  have e : (P - 1) / 2 = (P - 1) / 3 + (P - 1) / 6 := by decide +kernel
  have h : xiToPMinus1Over3.mul P xiToPMinus1Over6 = xiToPMinus1Over2 := by decide +kernel
  rw [e, pow_add, xi_pow_p13, xi_pow_p16, ← h, val2_mul]

theorem xi_pow_2p23 : xi P ^ ((2 * P - 2) / 3) = val2 P xiTo2PMinus2Over3 := by
  have e : (2 * P - 2) / 3 = (P - 1) / 3 * 2 := by decide +kernel
  have h : xiToPMinus1Over3.square P = xiTo2PMinus2Over3 := by decide +kernel
  rw [e, pow_mul, xi_pow_p13, ← h, val2_square, pow_two]

theorem val2_scalar (c : Int) : val2 P ⟨0, c⟩ = (c : Fp2 P) := by
  ext <;> simp [val2]

theorem xi_pow_pp16 : xi P ^ ((P ^ 2 - 1) / 6) = (xiToPSquaredMinus1Over6 : Fp2 P) := by
  have e : (P ^ 2 - 1) / 6 = (P - 1) / 6 * P + (P - 1) / 6 := by decide +kernel
  have h : xiToPMinus1Over6.conjugate.mul P xiToPMinus1Over6 = ⟨0, xiToPSquaredMinus1Over6⟩ := by decide +kernel
  rw [e, pow_add, pow_mul, xi_pow_p16, fp2_pow_p P bnP_mod4, ← val2_conjugate, ← val2_mul, h, val2_scalar]

theorem xi_pow_pp13 : xi P ^ ((P ^ 2 - 1) / 3) = (xiToPSquaredMinus1Over3 : Fp2 P) := by
  have e : (P ^ 2 - 1) / 3 = (P ^ 2 - 1) / 6 * 2 := by decide +kernel
  have h : (⟨0, xiToPSquaredMinus1Over6⟩ : Gfp2).square P = ⟨0, xiToPSquaredMinus1Over3⟩ := by decide +kernel
  rw [e, pow_mul, xi_pow_pp16, ← val2_scalar, ← val2_scalar, ← h, val2_square, pow_two]

theorem xi_pow_2pp23 : xi P ^ ((2 * P ^ 2 - 2) / 3) = (xiTo2PSquaredMinus2Over3 : Fp2 P) := by
  have e : (2 * P ^ 2 - 2) / 3 = (P ^ 2 - 1) / 3 * 2 := by decide +kernel
  have h : (⟨0, xiToPSquaredMinus1Over3⟩ : Gfp2).square P = ⟨0, xiTo2PSquaredMinus2Over3⟩ := by decide +kernel
  rw [e, pow_mul, xi_pow_pp13, ← val2_scalar, ← val2_scalar, ← h, val2_square, pow_two]

theorem xi_pow_pp12 : xi P ^ ((P ^ 2 - 1) / 2) = -1 := by
  have e : (P ^ 2 - 1) / 2 = (P ^ 2 - 1) / 3 + (P ^ 2 - 1) / 6 := by decide +kernel
  have h : (⟨0, xiToPSquaredMinus1Over3⟩ : Gfp2).mul P ⟨0, xiToPSquaredMinus1Over6⟩ = ⟨0, P - 1⟩ := by decide +kernel
  rw [e, pow_add, xi_pow_pp16, xi_pow_pp13, ← val2_scalar, ← val2_scalar, ← val2_mul, h]
  have := charP_fp2 P
  rw [val2_scalar, Int.cast_sub, Int.cast_natCast, CharP.cast_eq_zero]; simp

instance bnH2 : Fact (∀ r : ZMod P, r ^ 2 ≠ -1 + 0 * r) := ⟨fp2_h2 P bnP_mod4⟩

theorem val2_eq_iff (a b : Gfp2) : val2 P a = val2 P b ↔ a.x % P = b.x % P ∧ a.y % P = b.y % P := by
  constructor
  · intro h
    have hx := congrArg QuadraticAlgebra.im h
    have hy := congrArg QuadraticAlgebra.re h
    exact ⟨(ZMod.intCast_eq_intCast_iff' _ _ _).1 hx, (ZMod.intCast_eq_intCast_iff' _ _ _).1 hy⟩
  · rintro ⟨hx, hy⟩
    ext
    · exact (ZMod.intCast_eq_intCast_iff' _ _ _).2 hy
    · exact (ZMod.intCast_eq_intCast_iff' _ _ _).2 hx

theorem xi_not_cube : xi P ^ ((P ^ 2 - 1) / 3) ≠ 1 := by
  rw [xi_pow_pp13, ← val2_scalar, ← val2_one, Ne, val2_eq_iff]
  decide +kernel

instance bnH6 : Fact (∀ r : Fp2 P, r ^ 3 ≠ xi P) := ⟨fp6_h6 P bnP_mod4 (by decide +kernel) xi_not_cube⟩
instance bnH12 : Fact (∀ r : Fp6 P, r ^ 2 ≠ tau P + 0 * r) := ⟨fp12_h12 P bnP_mod4 bnP_mod3 xi_pow_pp12⟩

/-! ### the Frobenius maps -/

theorem frob6 (a : Gfp6) : val6 P a.frobenius = val6 P a ^ P := by
  rw [val6, val6, fp6_pow P (n := P) (k := 1) (pow_one P).symm bnP_mod3, fp2_pow_p P bnP_mod4, fp2_pow_p P bnP_mod4, fp2_pow_p P bnP_mod4]
  simp only [Gfp6.frobenius, val2_mul, val2_conjugate]
  rw [← pow_mul, ← xi_pow_p13, ← xi_pow_2p23, show (2 * P - 2) / 3 = (P - 1) / 3 * 2 by decide +kernel]

theorem val2_mulS (a : Gfp2) (c : Int) : val2 P (a.mulScalar c) = val2 P a * (c : Fp2 P) := val2_mulScalar P a c

theorem frob6P2 (a : Gfp6) : val6 P a.frobeniusP2 = val6 P a ^ P ^ 2 := by
  rw [val6, val6, fp6_pow P (n := P ^ 2) (k := 2) rfl (by decide +kernel), fp2_pow_p2 P bnP_mod4, fp2_pow_p2 P bnP_mod4, fp2_pow_p2 P bnP_mod4]
  simp only [Gfp6.frobeniusP2, val2_mulS]
  rw [← pow_mul, ← xi_pow_pp13, ← xi_pow_2pp23, show (2 * P ^ 2 - 2) / 3 = (P ^ 2 - 1) / 3 * 2 by decide +kernel]

theorem tau_pow_half1 : tau P ^ ((P - 1) / 2) = AdjoinRoot.of _ (xi P ^ ((P - 1) / 6)) := by
  rw [show (P - 1) / 2 = 3 * ((P - 1) / 6) by decide +kernel, pow_mul, tau_cube, map_pow]

theorem tau_pow_half2 : tau P ^ ((P ^ 2 - 1) / 2) = AdjoinRoot.of _ (xi P ^ ((P ^ 2 - 1) / 6)) := by
  rw [show (P ^ 2 - 1) / 2 = 3 * ((P ^ 2 - 1) / 6) by decide +kernel, pow_mul, tau_cube, map_pow]

theorem frob12 (a : Gfp12) : val12 P a.frobenius = val12 P a ^ P := by
  rw [fp12_pow P (n := P) (k := 1) (pow_one P).symm bnP_odd, tau_pow_half1, xi_pow_p16]
  ext
  · simp only [val12, Gfp12.frobenius, frob6]
  · simp only [val12, Gfp12.frobenius, frob6, val6_mulScalar]

theorem frob12P2 (a : Gfp12) : val12 P a.frobeniusP2 = val12 P a ^ P ^ 2 := by
  rw [fp12_pow P (n := P ^ 2) (k := 2) rfl (by decide +kernel), tau_pow_half2, xi_pow_pp16]
  ext
  · simp only [val12, Gfp12.frobeniusP2, frob6P2]
  · simp only [val12, Gfp12.frobeniusP2, frob6P2, val6_mulGFP, map_intCast]

theorem conj12 (a : Gfp12) : val12 P a.conjugate.1 = val12 P a ^ P ^ 6 := by
  rw [fp12_pow_p6 P bnP_mod4 bnP_mod3 xi_pow_pp12, val12_conjugate]

end APS
