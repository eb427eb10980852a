import Verif.Proofs.BnOrder

/-! negative scalars, and doubling in place -/
namespace APS
open APS.Spec APS.Pairing
open Pairing.Mem

/-- `Bit` of a negative number on the positions the loop looks at -/
theorem bitInt_neg (n i : Nat) (hn : 0 < n) (hi : i < bitLenInt (-(n : Int)) + 1) :
    bitInt (-(n : Int)) i = (2 ^ (bitLenInt (-(n : Int)) + 1) - n).testBit i := by
  have hlt : n - 1 < 2 ^ (bitLenInt (-(n : Int)) + 1) := by
    have h := lt_two_pow_bitLen n
    have e : bitLenInt (-(n : Int)) = bitLenInt (n : Int) := by simp [bitLenInt]
    rw [e]; omega
  have h := Nat.testBit_two_pow_sub_succ hlt i
  rw [Nat.sub_add_cancel hn] at h
  rw [h]
  simp [bitInt, hi]
  intro e; omega

theorem curveMulLoop_congr (p : Nat) (a : Ref) (k k' : Int) : ∀ (i : Nat) (m : Mem Int), (∀ j, j < i → bitInt k j = bitInt k' j) →
    curveMulLoop p a k i m = curveMulLoop p a k' i m
  | 0, _, _ => rfl
  | i + 1, m, h => by
    simp only [curveMulLoop]
    rw [h i (Nat.lt_succ_self i)]
    exact curveMulLoop_congr p a k k' i _ fun j hj => h j (by omega)

theorem twistMulLoop_congr (p : Nat) (a : Ref) (k k' : Int) : ∀ (i : Nat) (m : Mem Gfp2), (∀ j, j < i → bitInt k j = bitInt k' j) →
    twistMulLoop p a k i m = twistMulLoop p a k' i m
  | 0, _, _ => rfl
  | i + 1, m, h => by
    simp only [twistMulLoop]
    rw [h i (Nat.lt_succ_self i)]
    exact twistMulLoop_congr p a k k' i _ fun j hj => h j (by omega)

variable {p : Nat} [hp : Fact p.Prime]

/-- `Mul` by `-n` multiplies by `2^(BitLen n + 1) - n` -/
theorem curveMul_neg (hp2 : p ≠ 2) (m : Mem Int) (c : Ref) {a : Ref} (ha : a ≠ .sum ∧ a ≠ .tmp) (n : Nat) (hn : 0 < n)
    {Q : (E1 p).Point} (hq : Rep1 p (m a) Q) :
    Rep1 p (curveMul p m c a (-(n : Int)) c) ((2 ^ (bitLenInt (n : Int) + 1) - n) • Q) := by
  have e : bitLenInt (-(n : Int)) = bitLenInt (n : Int) := by simp [bitLenInt]
  unfold curveMul
  rw [set_same, curveMulLoop_congr p a (-(n : Int)) ((2 ^ (bitLenInt (n : Int) + 1) - n : Nat) : Int)]
  · have h0 : Rep1 p ((m.setZ .sum 0) .sum) (0 : (E1 p).Point) := by
      unfold setZ
      rw [set_same]
      refine ⟨?_, le_refl _, fun _ => rfl⟩
      show ((0 : Int) : ZMod p) = 0
      simp
    have := (curveMulLoop_rep hp2 ha (2 ^ (bitLenInt (n : Int) + 1) - n) (bitLenInt (n : Int) + 1) (m.setZ .sum 0) 0
      (by unfold setZ; rw [set_other _ _ ha.1]; exact hq) h0).1
    rw [nsmul_zero, zero_add, Nat.mod_eq_of_lt (Nat.sub_lt (by positivity) hn)] at this
    rw [e]; exact this
  · intro j hj
    rw [bitInt_neg n j hn hj, bitInt_nat, e]

variable [h2 : Fact (∀ r : ZMod p, r ^ 2 ≠ -1 + 0 * r)]

theorem twistMul_neg (hp2 : p ≠ 2) (m : Mem Gfp2) (c : Ref) {a : Ref} (ha : a ≠ .sum ∧ a ≠ .tmp) (n : Nat) (hn : 0 < n)
    {Q : (E2 p).Point} (hq : Rep2 p (m a) Q) :
    Rep2 p (twistMul p m c a (-(n : Int)) c) ((2 ^ (bitLenInt (n : Int) + 1) - n) • Q) := by
  have e : bitLenInt (-(n : Int)) = bitLenInt (n : Int) := by simp [bitLenInt]
  unfold twistMul
  rw [set_same, twistMulLoop_congr p a (-(n : Int)) ((2 ^ (bitLenInt (n : Int) + 1) - n : Nat) : Int)]
  · have h0 : Rep2 p ((m.setZ .sum Gfp2.zero) .sum) (0 : (E2 p).Point) := by
      apply rep2_infty
      unfold setZ
      rw [set_same]
    have := (twistMulLoop_rep hp2 ha (2 ^ (bitLenInt (n : Int) + 1) - n) (bitLenInt (n : Int) + 1) (m.setZ .sum Gfp2.zero) 0
      (by unfold setZ; rw [set_other _ _ ha.1]; exact hq) h0).1
    rw [nsmul_zero, zero_add, Nat.mod_eq_of_lt (Nat.sub_lt (by positivity) hn)] at this
    rw [e]; exact this
  · intro j hj
    rw [bitInt_neg n j hn hj, bitInt_nat, e]

end APS
