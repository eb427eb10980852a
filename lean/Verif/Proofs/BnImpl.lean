import Verif.Spec.SnarkBn
import Verif.Props.Ate
import Verif.Proofs.SnarkRel

/-! Package bn256 implements the groups of the proof system. -/
namespace APS
open APS.Spec APS.Pairing APS.Snark

/-- the object stands for `s` times the generator of G1 -/
def BR1 (a : Pt Int) (s : ZMod Order) : Prop := Rep1 P a (s.val • G1gen)
/-- the object stands for `s` times the generator of G2 -/
def BR2 (b : Pt Gfp2) (s : ZMod Order) : Prop := Rep2 P b (s.val • G2gen)
/-- the object stands for the `s`-th power of the pairing of the generators -/
def BRT (c : Gfp12) (s : ZMod Order) : Prop := val12 P c = ate G1gen G2gen ^ s.val
theorem val1_nat (n : Nat) : ((n : ZMod Order)).val • G1gen = n • G1gen := by
  rw [ZMod.val_natCast, nsmul_eq_nsmul_iff_modEq, addOrder_G1]; exact Nat.mod_modEq _ _
theorem val2_nat (n : Nat) : ((n : ZMod Order)).val • G2gen = n • G2gen := by
  rw [ZMod.val_natCast, nsmul_eq_nsmul_iff_modEq, addOrder_G2]; exact Nat.mod_modEq _ _
theorem valT_nat (n : Nat) : ate G1gen G2gen ^ ((n : ZMod Order)).val = ate G1gen G2gen ^ n := by
  rw [ZMod.val_natCast]
  conv_lhs => rw [← ate_gen_order]
  exact pow_mod_orderOf _ _

theorem cast_val_eq (s : ZMod Order) : ((s.val : Nat) : ZMod Order) = s := by simp

theorem val1_add (s t : ZMod Order) : (s + t).val • G1gen = s.val • G1gen + t.val • G1gen := by
  rw [← add_nsmul, ← val1_nat (s.val + t.val)]; simp
theorem val2_add' (s t : ZMod Order) : (s + t).val • G2gen = s.val • G2gen + t.val • G2gen := by
  rw [← add_nsmul, ← val2_nat (s.val + t.val)]; simp
theorem valT_add (s t : ZMod Order) : ate G1gen G2gen ^ (s + t).val = ate G1gen G2gen ^ s.val * ate G1gen G2gen ^ t.val := by
  rw [← pow_add, ← valT_nat (s.val + t.val)]; simp
theorem val1_mul (n : Nat) (s : ZMod Order) : ((n : ZMod Order) * s).val • G1gen = n • s.val • G1gen := by
  rw [← mul_nsmul', ← val1_nat (n * s.val)]; simp
theorem val2_mul' (n : Nat) (s : ZMod Order) : ((n : ZMod Order) * s).val • G2gen = n • s.val • G2gen := by
  rw [← mul_nsmul', ← val2_nat (n * s.val)]; simp
theorem valT_mul (s t : ZMod Order) : ate G1gen G2gen ^ (s * t).val = ate G1gen G2gen ^ (s.val * t.val) := by
  rw [← valT_nat (s.val * t.val)]; simp

theorem val1_inj {s t : ZMod Order} (h : s.val • G1gen = t.val • G1gen) : s = t := by
  rw [nsmul_eq_nsmul_iff_modEq, addOrder_G1] at h
  have := (ZMod.natCast_eq_natCast_iff _ _ _).2 h
  simpa using this
theorem val2_inj {s t : ZMod Order} (h : s.val • G2gen = t.val • G2gen) : s = t := by
  rw [nsmul_eq_nsmul_iff_modEq, addOrder_G2] at h
  have := (ZMod.natCast_eq_natCast_iff _ _ _).2 h
  simpa using this
theorem valT_inj {s t : ZMod Order} (h : ate G1gen G2gen ^ s.val = ate G1gen G2gen ^ t.val) : s = t := by
  have h0 : ate G1gen G2gen ≠ 0 := ate_ne _ (AddSubgroup.mem_zmultiples _)
  have h1 : orderOf (Units.mk0 _ h0) = Order := by rw [← orderOf_units]; exact ate_gen_order
  have h2 : Units.mk0 _ h0 ^ s.val = Units.mk0 _ h0 ^ t.val := by
    rw [Units.ext_iff, Units.val_pow_eq_pow_val, Units.val_pow_eq_pow_val]; exact h
  rw [pow_eq_pow_iff_modEq, h1] at h2
  have := (ZMod.natCast_eq_natCast_iff _ _ _).2 h2
  simpa using this

theorem mem2 (s : ZMod Order) : s.val • G2gen ∈ GG2 := AddSubgroup.nsmul_mem _ (AddSubgroup.mem_zmultiples _) _

theorem xOf_nonneg (A : (E1 P).Point) : 0 ≤ xOf A := by
  cases A with
  | zero => exact le_refl _
  | some x y h => exact Int.natCast_nonneg _

theorem bn_implements : Implements bnRaw Order BR1 BR2 BRT UpToDate bnX where
  base1 k hk := by
    obtain ⟨n, rfl⟩ := Int.eq_ofNat_of_zero_le hk
    have := (C61_g1_scalarBaseMult newMem1 (.obj 0) ⟨⟨by decide, by decide⟩, by decide⟩ n rfl).1
    rw [← val1_nat] at this
    simpa [BR1, bnRaw] using this
  base2 k hk := by
    obtain ⟨n, rfl⟩ := Int.eq_ofNat_of_zero_le hk
    have := (C61_g2_scalarBaseMult newMem2 (.obj 0) ⟨⟨by decide, by decide⟩, by decide⟩ n rfl).1
    rw [← val2_nat] at this
    simpa [BR2, bnRaw] using this
  ok_one := by
    intro _
    have : (bnRaw.base2 1).t = Gfp2.one := by decide +kernel
    rw [this, val2_one]
  mul1 a s k ha hk := by
    obtain ⟨n, rfl⟩ := Int.eq_ofNat_of_zero_le hk
    have := (C61_g1_scalarMult (newMem1.set (.obj 1) a) (.obj 0) (.obj 1) ⟨by decide, by decide⟩ n (A := s.val • G1gen)
      (by rw [Mem.set_same]; exact ha)).1
    rw [← val1_mul] at this
    simpa [BR1, bnRaw] using this
  mul2 a s k ha hk := by
    obtain ⟨n, rfl⟩ := Int.eq_ofNat_of_zero_le hk
    have := (C61_g2_scalarMult (newMem2.set (.obj 1) a) (.obj 0) (.obj 1) ⟨by decide, by decide⟩ n (A := s.val • G2gen)
      (by rw [Mem.set_same]; exact ha)).1
    rw [← val2_mul'] at this
    simpa [BR2, bnRaw] using this
  mulT a s k ha hk := by
    obtain ⟨n, rfl⟩ := Int.eq_ofNat_of_zero_le hk
    show val12 P (a.exp P (n : Int)) = _
    rw [val12_exp, ha, ← pow_mul, Int.cast_natCast, ← valT_nat]
    simp [mul_comm]
  addTo1 a b s t ha hb h := by
    have := (C60_g1_add ((newMem1.set (.obj 0) a).set (.obj 1) b) (.obj 0) (.obj 0) (.obj 1) (A := s.val • G1gen) (B := t.val • G1gen)
      (by rw [Mem.set_other _ _ (by decide), Mem.set_same]; exact ha) (by rw [Mem.set_same]; exact hb)
      (Or.inr (h.imp (fun h e => h (val1_inj e)) (fun h => by rw [h]; simp)))).1
    rw [← val1_add] at this
    exact this
  addTo2 a b s t ha hb h := by
    have := (C60_g2_add ((newMem2.set (.obj 0) a).set (.obj 1) b) (.obj 0) (.obj 0) (.obj 1) (A := s.val • G2gen) (B := t.val • G2gen)
      (by rw [Mem.set_other _ _ (by decide), Mem.set_same]; exact ha) (by rw [Mem.set_same]; exact hb)
      (Or.inr (h.imp (fun h e => h (val2_inj e)) (fun h => by rw [h]; simp)))).1
    rw [← val2_add'] at this
    exact this
  addFresh2 a b s t ha hb := by
    have := (C60_g2_add ((newMem2.set (.obj 1) a).set (.obj 2) b) (.obj 0) (.obj 1) (.obj 2) (A := s.val • G2gen) (B := t.val • G2gen)
      (by rw [Mem.set_other _ _ (by decide), Mem.set_same]; exact ha) (by rw [Mem.set_same]; exact hb) (Or.inl (by decide))).1
    rw [← val2_add'] at this
    exact this
  addT a b s t ha hb := by
    show val12 P (a.mul P b) = _
    rw [val12_mul, ha, hb, ← valT_add]
  x1 a s ha := by
    exact (C61_g1_x (newMem1.set (.obj 0) a) (.obj 0) (A := s.val • G1gen) (by rw [Mem.set_same]; exact ha)).1
  x_zero := by
    show xOf ((0 : ZMod Order).val • G1gen) = 0
    rw [ZMod.val_zero, zero_nsmul]; rfl
  x_nonneg s := xOf_nonneg _
  pair a b s t ha hb hok := by
    show val12 P (Pairing.pair a b) = _
    rw [pair_eq_ate a b ha hb (mem2 t) hok, ate_nsmul _ _ _ (AddSubgroup.mem_zmultiples _), ← valT_mul]
  eqT a b s t ha hb := by
    show (gtMarshal a == gtMarshal b) = _
    rw [Bool.eq_iff_iff, beq_iff_eq, gtMarshal_inj, ha, hb, decide_eq_true_iff]
    exact ⟨valT_inj, fun h => by rw [h]⟩

end APS
