import Verif.Proofs.Curve
import Verif.Props.Field

/-! curve.go: scalar multiplication and normalisation. -/
namespace APS
open APS.Spec APS.Pairing APS.Pairing.Mem

theorem bitInt_nat (k : Nat) (i : Nat) : bitInt (k : Int) i = k.testBit i := by simp [bitInt]

theorem mod_two_succ (k i : Nat) : k % 2 ^ (i + 1) = 2 ^ i * (k.testBit i).toNat + k % 2 ^ i := by
  rw [Nat.mod_pow_succ, Nat.testBit_eq_decide_div_mod_eq]
  rcases Nat.mod_two_eq_zero_or_one (k / 2 ^ i) with h | h <;> simp [h] <;> omega

theorem lt_two_pow_bitLen (k : Nat) : k < 2 ^ (bitLenInt (k : Int) + 1) := by
  have h : bitLenInt (k : Int) = Fq.bitLen k := by simp [bitLenInt]
  rw [h]
  unfold Fq.bitLen
  by_cases h0 : k = 0
  · simp [h0]
  · rw [if_neg h0]
    exact lt_trans Nat.lt_log2_self (Nat.pow_lt_pow_right (by norm_num) (by omega))

theorem lt_two_pow_bitLen' (k : Nat) : k < 2 ^ (bitLenInt (k : Int)) := by
  have h : bitLenInt (k : Int) = Fq.bitLen k := by simp [bitLenInt]
  rw [h]
  unfold Fq.bitLen
  by_cases h0 : k = 0
  · simp [h0]
  · rw [if_neg h0]
    exact Nat.lt_log2_self

theorem double_and_add {G : Type} [AddCommGroup G] (S Q : G) (k i : Nat) :
    2 ^ i • ((S + S) + (k.testBit i).toNat • Q) + (k % 2 ^ i) • Q = 2 ^ (i + 1) • S + (k % 2 ^ (i + 1)) • Q := by
  rw [mod_two_succ, pow_succ, add_smul, mul_smul, mul_smul, smul_add, two_smul]
  abel

variable {p : Nat} [Fact p.Prime]

theorem curveMulLoop_rep (hp : p ≠ 2) {a : Ref} (ha : a ≠ .sum ∧ a ≠ .tmp) (k : Nat) {Q : (E1 p).Point} :
    ∀ (i : Nat) (m : Mem Int) (S : (E1 p).Point), Rep1 p (m a) Q → Rep1 p (m .sum) S →
      Rep1 p (curveMulLoop p a k i m .sum) (2 ^ i • S + (k % 2 ^ i) • Q) ∧
        ∀ r, r ≠ .sum → r ≠ .tmp → curveMulLoop p a k i m r = m r
  | 0, m, S, _, hs => by
    rw [pow_zero, Nat.mod_one, zero_nsmul, one_nsmul, add_zero]
    exact ⟨hs, fun _ _ _ => rfl⟩
  | i + 1, m, S, hq, hs => by
    simp only [curveMulLoop]
    rw [curveDouble_other p m (by decide : Ref.tmp ≠ Ref.sum)]
    set m1 := m.set .tmp (dblPt p (m .sum) (m .tmp).t) with hm1
    have t1 : Rep1 p (m1 .tmp) (S + S) := by rw [hm1, set_same]; exact rep_dbl hp hs _
    have q1 : Rep1 p (m1 a) Q := by rw [hm1, set_other _ _ ha.2]; exact hq
    rw [bitInt_nat]
    by_cases hb : k.testBit i = true
    · rw [if_pos hb]
      obtain ⟨r1, r2⟩ := curveAdd_rep hp m1 .sum .tmp a t1 q1 (Or.inl (by decide))
      have ih := curveMulLoop_rep hp ha k i (curveAdd p m1 .sum .tmp a) ((S + S) + Q) (by rw [r2 a ha.1]; exact q1) r1
      refine ⟨?_, fun r h1 h2 => ?_⟩
      · have e := double_and_add S Q k i
        rw [hb] at e
        rw [Bool.toNat_true, one_nsmul] at e
        rw [← e]; exact ih.1
      · rw [ih.2 r h1 h2, r2 r h1, hm1, set_other _ _ h2]
    · rw [if_neg hb]
      have ih := curveMulLoop_rep hp ha k i (m1.set .sum (m1 .tmp)) (S + S) (by rw [set_other _ _ ha.1]; exact q1)
        (by rw [set_same]; exact t1)
      refine ⟨?_, fun r h1 h2 => ?_⟩
      · have e := double_and_add S Q k i
        rw [Bool.not_eq_true] at hb
        rw [hb] at e
        rw [Bool.toNat_false, zero_nsmul, add_zero] at e
        rw [← e]; exact ih.1
      · rw [ih.2 r h1 h2, set_other _ _ h1, hm1, set_other _ _ h2]

theorem curveMul_rep (hp : p ≠ 2) (m : Mem Int) (c : Ref) {a : Ref} (ha : a ≠ .sum ∧ a ≠ .tmp) (k : Nat) {Q : (E1 p).Point}
    (hq : Rep1 p (m a) Q) : Rep1 p (curveMul p m c a k c) (k • Q) ∧
      ∀ r, r ≠ .sum → r ≠ .tmp → r ≠ c → curveMul p m c a k r = m r := by
  have h0 : Rep1 p ((m.setZ .sum 0) .sum) (0 : (E1 p).Point) := by
    unfold setZ
    rw [set_same]
    refine ⟨?_, le_refl _, fun _ => rfl⟩
    show ((0 : Int) : ZMod p) = 0
    simp
  have := curveMulLoop_rep hp ha k (bitLenInt (k : Int) + 1) (m.setZ .sum 0) 0
    (by unfold setZ; rw [set_other _ _ ha.1]; exact hq) h0
  unfold curveMul
  refine ⟨?_, fun r h1 h2 h3 => ?_⟩
  · rw [set_same]
    have e := this.1
    rw [nsmul_zero, zero_add, Nat.mod_eq_of_lt (lt_two_pow_bitLen k)] at e
    exact e
  · rw [set_other _ _ h3, this.2 r h1 h2]
    unfold setZ
    rw [set_other _ _ h1]

theorem modInv_cast {a : Int} (h : (a : ZMod p) ≠ 0) : ((modInv p a : Int) : ZMod p) = (a : ZMod p)⁻¹ := by
  have hd : ¬ (p : Int) ∣ a := fun e => h ((ZMod.intCast_zmod_eq_zero_iff_dvd _ _).2 e)
  obtain ⟨r, hr⟩ := Option.isSome_iff_exists.1 (modInverse_isSome p Fact.out hd)
  have := (modInverse_some p (Fact.out : p.Prime).pos hr).2.2
  unfold modInv
  rw [hr, Option.getD_some]
  have h1 : ((r * a : Int) : ZMod p) = 1 := by
    have h2 : ((r * a : Int) : ZMod p) = ((1 : Int) : ZMod p) := (ZMod.intCast_eq_intCast_iff _ _ _).2 this
    simpa using h2
  push_cast at h1
  exact eq_inv_of_mul_eq_one_left h1

/-- the last branch of `MakeAffine` on values -/
def affPt (p : Nat) (a : Pt Int) : Pt Int :=
  ⟨(a.x * ((modInv p a.z * modInv p a.z) % p)) % p, (((a.y * modInv p a.z) % p) * ((modInv p a.z * modInv p a.z) % p)) % p, 1, 1⟩

theorem affPt_eq (p : Nat) (m : Mem Int) (c : Ref) :
    (let zInv := modInv p (m c).z
    let t := ((m c).y * zInv) % p
    let zInv2 := (zInv * zInv) % p
    let m := m.setY c ((t * zInv2) % p)
    let t := ((m c).x * zInv2) % p
    let m := m.setX c t
    let m := m.setZ c 1
    m.setT c 1) = m.set c (affPt p (m c)) := by
  funext r
  by_cases hr : r = c
  · subst hr; simp [affPt, setX, setY, setZ, setT]
  · simp [setX, setY, setZ, setT, Mem.set, hr]

/-- `MakeAffine` keeps the point and makes `z` 0 or 1 -/
theorem curveMakeAffine_rep (m : Mem Int) (c : Ref) {Q : (E1 p).Point} (h : Rep1 p (m c) Q) :
    Rep1 p (curveMakeAffine p m c c) Q ∧ (curveMakeAffine p m c c).z = (if Q = 0 then 0 else 1) ∧
      ∀ r, r ≠ c → curveMakeAffine p m c r = m r := by
  classical
  have hp2 := (Fact.out : p.Prime).two_le
  unfold curveMakeAffine
  by_cases h1 : (m c).z.natAbs = 1
  · rw [if_pos h1]
    have hz : (m c).z = 1 := by have := h.2.1; omega
    have : Q ≠ 0 := fun e => by have := (rep_zero_iff h).2 e; omega
    rw [if_neg this]
    exact ⟨h, hz, fun _ _ => rfl⟩
  rw [if_neg h1]
  by_cases h2 : (m c).z = 0
  · have hQ := (rep_zero_iff h).1 h2
    rw [if_pos (by simp [curveIsInf, h2]), if_pos hQ, set_same]
    refine ⟨?_, rfl, fun r hr => set_other _ _ hr⟩
    rw [hQ]
    refine ⟨?_, le_refl _, fun _ => rfl⟩
    show ((0 : Int) : ZMod p) = 0
    simp
  · rw [if_neg (by simp [curveIsInf, h2])]
    have hQ : Q ≠ 0 := fun e => h2 ((rep_zero_iff h).2 e)
    rw [if_neg hQ]
    have hz : ((m c).z : ZMod p) ≠ 0 := fun e => h2 ((cast_z_eq_zero h).1 e)
    have hi := modInv_cast hz
    rw [show _ = _ from affPt_eq p m c]
    refine ⟨?_, by rw [set_same]; rfl, fun r hr => set_other _ _ hr⟩
    rw [set_same]
    unfold affPt
    refine ⟨?_, by norm_num, fun e => ?_⟩
    · match Q, h.1, hQ with
      | .zero, _, hQ => exact absurd rfl hQ
      | .some x y n, ⟨_, e1, e2⟩, _ =>
        push_cast [ZMod.intCast_mod]
        rw [hi, e1, e2]
        refine ⟨by norm_num, ?_, ?_⟩ <;> field_simp
    · exfalso
      have := Int.le_of_dvd (by norm_num) e
      simp at this
      omega

end APS
