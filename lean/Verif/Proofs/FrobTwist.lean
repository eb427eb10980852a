import Verif.Spec.Ate
import Verif.Proofs.Reciprocity
import Verif.Proofs.FinalExp

/-! The Frobenius of the twist, and the group generated by the generator of G2. -/
namespace APS
open APS.Spec APS.Pairing WeierstrassCurve.Affine

theorem u6_sq : val2 P xiToPMinus1Over6 ^ 2 = val2 P xiToPMinus1Over3 := by
  rw [← xi_pow_p16, ← xi_pow_p13, ← pow_mul, show (P - 1) / 6 * 2 = (P - 1) / 3 by decide +kernel]

theorem u6_cube : val2 P xiToPMinus1Over6 ^ 3 = val2 P xiToPMinus1Over2 := by
  rw [← xi_pow_p16, ← xi_pow_p12, ← pow_mul, show (P - 1) / 6 * 3 = (P - 1) / 2 by decide +kernel]

/-- the point object computed by `miller` for `π Q` (optate.go:263-271) -/
def frobPt (a : Pt Gfp2) : Pt Gfp2 :=
  ⟨a.x.conjugate.mul P xiToPMinus1Over3, a.y.conjugate.mul P xiToPMinus1Over2, Gfp2.one, Gfp2.one⟩

theorem rep2_one {a : Pt Gfp2} {x y : Fp2 P} (h : (E2 P).Nonsingular x y) (hz : a.z = Gfp2.one) :
    Rep2 P a (.some x y h) ↔ val2 P a.x = x ∧ val2 P a.y = y := by
  have h1 : val2 P a.z = 1 := by rw [hz]; exact val2_one P
  constructor
  · rintro ⟨⟨_, h2, h3⟩, _⟩
    rw [h1] at h2 h3
    exact ⟨by rw [h2]; ring, by rw [h3]; ring⟩
  · rintro ⟨h2, h3⟩
    refine ⟨⟨by rw [h1]; exact one_ne_zero, by rw [h1, h2]; ring, by rw [h1, h3]; ring⟩, by rw [hz]; decide, fun e => ?_⟩
    rw [h1] at e
    exact absurd e one_ne_zero

theorem frobTw_some {x y : Fp2 P} (h : (E2 P).Nonsingular x y) :
    frobTw (.some x y h) = .some _ _ (map_nonsing (frobenius (Fp2 P) P) frobU_ne frob_b h) := rfl

theorem rep2_frob {a : Pt Gfp2} {Q : (E2 P).Point} (h : Rep2 P a Q) (hQ : Q ≠ 0) (hz : a.z = Gfp2.one) :
    Rep2 P (frobPt a) (frobTw Q) := by
  match Q, h, hQ with
  | .some x y hn, h, _ =>
    obtain ⟨h1, h2⟩ := (rep2_one hn hz).1 h
    rw [frobTw_some, rep2_one _ rfl]
    simp only [frobPt, val2_mul, val2_conjugate, frobenius_def, u6_sq, u6_cube, fp2_pow_p P bnP_mod4, h1, h2, and_self]

/-- `π` is multiplication by `p` on the group of the generator -/
theorem frob_gen : frobTw G2gen = P • G2gen := by
  have hg : G2gen ≠ 0 := Point.some_ne_zero _
  have hr := rep2_neg (rep2_frob rep_gen2 hg rfl) Gfp2.zero
  have hk : mulW P twistGen (2 ^ 255 * P % Order) 255 ⟨(frobPt twistGen).x, Gfp2.zero.sub (frobPt twistGen).y, (frobPt twistGen).z, Gfp2.zero⟩ = true := by
    decide +kernel
  have h := mulW_rep bnP_ne2 rep_gen2 _ 255 _ _ hr hk
  rw [Nat.mod_eq_of_lt (a := 2 ^ 255 * P % Order) (by decide +kernel)] at h
  have h3 : (2 ^ 255 * P % Order) • G2gen = (2 ^ 255 * P) • G2gen := by
    conv_rhs => rw [← Nat.div_add_mod (2 ^ 255 * P) Order, add_nsmul, mul_nsmul, order_G2, nsmul_zero, zero_add]
  rw [h3, mul_nsmul', ← nsmul_add] at h
  have ho : Order • (-frobTw G2gen + P • G2gen) = 0 := by
    rw [nsmul_add, neg_nsmul, ← map_nsmul, ← mul_nsmul', mul_comm, mul_nsmul', order_G2, map_zero, nsmul_zero, neg_zero, add_zero]
  have hd := addOrderOf_dvd_of_nsmul_eq_zero h
  have hd' := addOrderOf_dvd_of_nsmul_eq_zero ho
  have hc : Nat.Coprime (2 ^ 255) Order := by decide +kernel
  have h1 := Nat.eq_one_of_dvd_coprimes hc hd hd'
  rw [AddMonoid.addOrderOf_eq_one_iff, neg_add_eq_zero] at h1
  exact h1

/-- the group G2: the multiples of the generator -/
abbrev GG2 : AddSubgroup (E2 P).Point := AddSubgroup.zmultiples G2gen

theorem GG2_order {Q : (E2 P).Point} (h : Q ∈ GG2) : Order • Q = 0 := by
  obtain ⟨k, rfl⟩ := h
  show Order • k • G2gen = 0
  rw [← natCast_zsmul, ← mul_zsmul, mul_comm, mul_zsmul, natCast_zsmul, order_G2, zsmul_zero]

theorem GG2_frob {Q : (E2 P).Point} (h : Q ∈ GG2) : frobTw Q = P • Q := by
  obtain ⟨k, rfl⟩ := h
  show frobTw (k • G2gen) = P • k • G2gen
  rw [map_zsmul, frob_gen, ← natCast_zsmul, ← natCast_zsmul, ← mul_zsmul, mul_comm, mul_zsmul]

theorem GG2_coprime {Q : (E2 P).Point} (h : Q ∈ GG2) {n : Nat} (hn : n • Q = 0) (hc : Nat.Coprime n Order) : Q = 0 := by
  have := Nat.eq_one_of_dvd_coprimes hc (addOrderOf_dvd_of_nsmul_eq_zero hn) (addOrderOf_dvd_of_nsmul_eq_zero (GG2_order h))
  exact AddMonoid.addOrderOf_eq_one_iff.1 this

/-- no point of G2 has a zero coordinate -/
theorem GG2_coord {x y : Fp2 P} {hn : (E2 P).Nonsingular x y} (h : Point.some x y hn ∈ GG2) : x ≠ 0 ∧ y ≠ 0 := by
  have hne : Point.some x y hn ≠ (0 : (E2 P).Point) := Point.some_ne_zero _
  have hy : y ≠ 0 := by
    rintro rfl
    refine hne (GG2_coprime h (n := 2) ?_ (by decide +kernel))
    rw [two_nsmul]
    exact Point.add_self_of_Y_eq (by rw [negY_short, neg_zero])
  refine ⟨?_, hy⟩
  rintro rfl
  have h2 : (2 : Fp2 P) ≠ 0 := two_ne2 bnP_ne2
  refine hne (GG2_coprime h (n := 3) ?_ (by decide +kernel))
  have hyy : y ≠ (E2 P).negY 0 y := by
    rw [negY_short]
    intro e
    apply hy
    have : 2 * y = 0 := by linear_combination e
    exact (mul_eq_zero.1 this).resolve_left h2
  have e : Point.some 0 y hn + Point.some 0 y hn = -(Point.some 0 y hn : (E2 P).Point) := by
    rw [Point.add_self_of_Y_ne hyy, Point.neg_some]
    have hs : (E2 P).slope 0 0 y y = 0 := by
      rw [slope_of_Y_ne rfl hyy]; simp [shortCurve]
    simp only [hs]
    congr 1
    simp [addY, negAddY, addX, negY, shortCurve]
  rw [show 3 = 2 + 1 from rfl, succ_nsmul, two_nsmul, e, neg_add_cancel]

/-- no point of E1 has a zero ordinate -/
theorem E1_ord {x y : ZMod P} (hn : (E1 P).Nonsingular x y) : y ≠ 0 := by
  rintro rfl
  have h := (short_nonsing_iff.1 hn).1
  have hx : x ^ 3 = ((P - 3 : Nat) : ZMod P) := by
    have : ((P - 3 : Nat) : ZMod P) = (P : ZMod P) - 3 := by
      rw [Nat.cast_sub (by decide +kernel)]; rfl
    rw [this, CharP.cast_eq_zero]
    linear_combination -h
  have hx0 : x ≠ 0 := by
    rintro rfl
    apply three_ne
    linear_combination -h
  have h1 : (((P - 3 : Nat) : ZMod P)) ^ ((P - 1) / 3) = 1 := by
    rw [← hx, ← pow_mul, show 3 * ((P - 1) / 3) = P - 1 by decide +kernel]
    exact ZMod.pow_card_sub_one_eq_one hx0
  rw [← powMod_cast] at h1
  have h2 : ((powMod (P - 3) ((P - 1) / 3) P : Nat) : ZMod P) = ((1 : Nat) : ZMod P) := h1.trans Nat.cast_one.symm
  rw [ZMod.natCast_eq_natCast_iff'] at h2
  revert h2
  decide +kernel

end APS
