import Verif.Proofs.TowerField
import Mathlib.NumberTheory.LegendreSymbol.Basic
import Mathlib.Algebra.CharP.Lemmas
import Mathlib.FieldTheory.Finite.Basic

/-! p-th powers in the tower -/
namespace APS
open APS.Spec APS.Pairing Polynomial

variable (p : Nat) [hp : Fact p.Prime]

theorem charP_fp2 : CharP (Fp2 p) p := by
  refine charP_of_injective_ringHom (f := algebraMap (ZMod p) (Fp2 p)) ?_ p
  intro a b h
  have := congrArg QuadraticAlgebra.re h
  simpa using this

theorem fp2_decomp (x : Fp2 p) : x = algebraMap (ZMod p) (Fp2 p) x.re + algebraMap (ZMod p) (Fp2 p) x.im * ⟨0, 1⟩ := by
  ext <;> simp

theorem fp2_i_sq : ((⟨0, 1⟩ : Fp2 p)) ^ 2 = -1 := by
  rw [pow_two]
  ext <;> simp <;> rfl

theorem fp2_i_pow (h4 : p % 4 = 3) : ((⟨0, 1⟩ : Fp2 p)) ^ p = -⟨0, 1⟩ := by
  obtain ⟨k, hk⟩ : ∃ k, p = 2 * (2 * k + 1) + 1 := ⟨p / 4, by omega⟩
  have h : ∀ n, n = 2 * (2 * k + 1) + 1 → ((⟨0, 1⟩ : Fp2 p)) ^ n = -⟨0, 1⟩ := by
    rintro n rfl
    rw [pow_succ, pow_mul, fp2_i_sq, Odd.neg_one_pow ⟨k, rfl⟩, neg_one_mul]
  exact h p hk

/-- conjugation is the p-th power -/
theorem fp2_pow_p (h4 : p % 4 = 3) (x : Fp2 p) : x ^ p = star x := by
  have := charP_fp2 p
  conv_lhs => rw [fp2_decomp p x]
  rw [add_pow_char, mul_pow, ← map_pow, ← map_pow, ZMod.pow_card, ZMod.pow_card, fp2_i_pow p h4]
  ext <;> simp

theorem fp2_pow_p2 (h4 : p % 4 = 3) (x : Fp2 p) : x ^ p ^ 2 = x := by
  rw [pow_two, pow_mul, fp2_pow_p p h4, fp2_pow_p p h4, star_star]

theorem fp2_h2 (h4 : p % 4 = 3) : ∀ r : ZMod p, r ^ 2 ≠ -1 + 0 * r := by
  intro r h
  have : IsSquare (-1 : ZMod p) := ⟨r, by rw [← pow_two, h]; ring⟩
  exact (ZMod.exists_sq_eq_neg_one_iff.1 this) h4

section
variable [h2 : Fact (∀ r : ZMod p, r ^ 2 ≠ -1 + 0 * r)]

theorem fp2_pow_sub_one (h4 : p % 4 = 3) {x : Fp2 p} (hx : x ≠ 0) : x ^ (p ^ 2 - 1) = 1 := by
  have h := fp2_pow_p2 p h4 x
  have hp0 : 0 < p ^ 2 := pow_pos hp.out.pos 2
  obtain ⟨k, hk⟩ : ∃ k, p ^ 2 = k + 1 := ⟨p ^ 2 - 1, by omega⟩
  rw [hk, pow_succ] at h
  have : x ^ k = 1 := mul_right_cancel₀ hx (by rw [h, one_mul])
  rw [show p ^ 2 - 1 = k by omega, this]

theorem xi_ne : xi p ≠ 0 := fun h => by have := congrArg QuadraticAlgebra.im h; simp [xi] at this

theorem fp6_h6 (h4 : p % 4 = 3) (hdvd : 3 ∣ p ^ 2 - 1) (hxi : xi p ^ ((p ^ 2 - 1) / 3) ≠ 1) : ∀ r : Fp2 p, r ^ 3 ≠ xi p := by
  intro r h
  have hr : r ≠ 0 := by
    rintro rfl
    exact xi_ne p (by rw [← h]; ring)
  apply hxi
  rw [← h, ← pow_mul, Nat.mul_div_cancel' hdvd]
  exact fp2_pow_sub_one p h4 hr

variable [h6 : Fact (∀ r : Fp2 p, r ^ 3 ≠ xi p)]

theorem fp6_of_inj : Function.Injective (AdjoinRoot.of (X ^ 3 - C (xi p) : (Fp2 p)[X])) :=
  (AdjoinRoot.of (X ^ 3 - C (xi p) : (Fp2 p)[X])).injective

theorem charP_fp6 : CharP (Fp6 p) p := by
  have := charP_fp2 p
  exact charP_of_injective_ringHom (fp6_of_inj p) p

theorem tau_ne : tau p ≠ 0 := by
  intro h
  have := tau_cube p
  rw [h] at this
  have h0 : AdjoinRoot.of (X ^ 3 - C (xi p) : (Fp2 p)[X]) (xi p) = AdjoinRoot.of _ 0 := by rw [← this, map_zero]; ring
  exact xi_ne p (fp6_of_inj p h0)

/-- `τ^n = τ ξ^((n-1)/3)` when `3 ∣ n - 1` -/
theorem tau_pow {n : Nat} (h : n % 3 = 1) : tau p ^ n = AdjoinRoot.of _ (xi p ^ ((n - 1) / 3)) * tau p := by
  have : n = 3 * ((n - 1) / 3) + 1 := by omega
  conv_lhs => rw [this, pow_succ, pow_mul, tau_cube]
  rw [map_pow]

/-- the `p^k`-th power in `Fp6`, coordinatewise -/
theorem fp6_pow {n k : Nat} (hn : n = p ^ k) (h3 : n % 3 = 1) (x y z : Fp2 p) :
    (AdjoinRoot.of _ x * tau p ^ 2 + AdjoinRoot.of _ y * tau p + AdjoinRoot.of _ z : Fp6 p) ^ n =
    AdjoinRoot.of _ (x ^ n * (xi p ^ ((n - 1) / 3)) ^ 2) * tau p ^ 2 +
      AdjoinRoot.of _ (y ^ n * xi p ^ ((n - 1) / 3)) * tau p + AdjoinRoot.of _ (z ^ n) := by
  have := charP_fp6 p
  have ht := tau_pow p h3
  subst hn
  rw [add_pow_char_pow, add_pow_char_pow, mul_pow, mul_pow, ← pow_mul (tau p) 2, mul_comm 2, pow_mul (tau p), ht]
  simp only [map_mul, map_pow]
  ring

/-- every element of `Fp6` has coordinates -/
theorem fp6_coords (a : Fp6 p) : ∃ x y z : Fp2 p,
    a = AdjoinRoot.of _ x * tau p ^ 2 + AdjoinRoot.of _ y * tau p + AdjoinRoot.of _ z := by
  have hm : (X ^ 3 - C (xi p) : (Fp2 p)[X]).Monic := monic_X_pow_sub_C _ (by norm_num)
  obtain ⟨g, rfl⟩ := AdjoinRoot.mk_surjective a
  refine ⟨(g %ₘ (X ^ 3 - C (xi p))).coeff 2, (g %ₘ (X ^ 3 - C (xi p))).coeff 1, (g %ₘ (X ^ 3 - C (xi p))).coeff 0, ?_⟩
  have h1 : AdjoinRoot.mk (X ^ 3 - C (xi p) : (Fp2 p)[X]) g = AdjoinRoot.mk _ (g %ₘ (X ^ 3 - C (xi p))) := by
    rw [AdjoinRoot.mk_eq_mk]
    exact ⟨g /ₘ (X ^ 3 - C (xi p)), by linear_combination -(modByMonic_add_div g (X ^ 3 - C (xi p)))⟩
  have hd : (g %ₘ (X ^ 3 - C (xi p))).natDegree < 3 := by
    have := natDegree_modByMonic_lt g hm (by
      intro h
      have := congrArg natDegree h
      rw [natDegree_X_pow_sub_C] at this
      simp at this)
    rwa [natDegree_X_pow_sub_C] at this
  rw [h1]
  conv_lhs => rw [(g %ₘ (X ^ 3 - C (xi p))).as_sum_range' 3 hd]
  simp only [Finset.sum_range_succ, Finset.sum_range_zero, zero_add, map_add, ← C_mul_X_pow_eq_monomial, map_mul, map_pow, AdjoinRoot.mk_X, AdjoinRoot.mk_C, pow_zero, pow_one, mul_one, tau]
  ring

/-- the `p^6`-th power is the identity on `Fp6` -/
theorem fp6_pow_p6 (h4 : p % 4 = 3) (h3 : p % 3 = 1) (a : Fp6 p) : a ^ p ^ 6 = a := by
  obtain ⟨x, y, z, rfl⟩ := fp6_coords p a
  have h6 : p ^ 6 % 3 = 1 := by rw [Nat.pow_mod, h3]
  have hx : ∀ x : Fp2 p, x ^ p ^ 6 = x := fun x => by
    rw [show p ^ 6 = p ^ 2 * p ^ 2 * p ^ 2 by ring, pow_mul, pow_mul, fp2_pow_p2 p h4, fp2_pow_p2 p h4, fp2_pow_p2 p h4]
  have hz : xi p ^ ((p ^ 6 - 1) / 3) = 1 := by
    have hd : 3 ∣ p ^ 4 + p ^ 2 + 1 := by
      rw [Nat.dvd_iff_mod_eq_zero]
      simp [Nat.add_mod, Nat.pow_mod, h3]
    obtain ⟨c, hc⟩ := hd
    have h1 : 1 ≤ p ^ 2 := Nat.one_le_pow _ _ hp.out.pos
    have : p ^ 6 - 1 = (p ^ 2 - 1) * (p ^ 4 + p ^ 2 + 1) := by
      obtain ⟨k, hk⟩ : ∃ k, p ^ 2 = k + 1 := ⟨p ^ 2 - 1, by omega⟩
      rw [show p ^ 6 = (p ^ 2) ^ 3 by ring, show p ^ 4 = (p ^ 2) ^ 2 by ring, hk]
      rw [Nat.add_sub_cancel]
      have : (k + 1) ^ 3 = k * ((k + 1) ^ 2 + (k + 1) + 1) + 1 := by ring
      omega
    rw [this, hc, show (p ^ 2 - 1) * (3 * c) = 3 * ((p ^ 2 - 1) * c) by ring, Nat.mul_div_cancel_left _ (by norm_num), pow_mul, fp2_pow_sub_one p h4 (xi_ne p), one_pow]
  rw [fp6_pow p rfl h6, hz, hx, hx, hx]; simp

theorem fp6_pow_sub_one (h4 : p % 4 = 3) (h3 : p % 3 = 1) {x : Fp6 p} (hx : x ≠ 0) : x ^ (p ^ 6 - 1) = 1 := by
  have h := fp6_pow_p6 p h4 h3 x
  have hp0 : 0 < p ^ 6 := pow_pos hp.out.pos 6
  obtain ⟨k, hk⟩ : ∃ k, p ^ 6 = k + 1 := ⟨p ^ 6 - 1, by omega⟩
  rw [hk, pow_succ] at h
  have : x ^ k = 1 := mul_right_cancel₀ hx (by rw [h, one_mul])
  rw [show p ^ 6 - 1 = k by omega, this]

theorem tau_pow_half (h4 : p % 4 = 3) (h3 : p % 3 = 1) (hxi : xi p ^ ((p ^ 2 - 1) / 2) = -1) :
    tau p ^ ((p ^ 6 - 1) / 2) = -1 := by
  have hd : (p ^ 4 + p ^ 2 + 1) % 6 = 3 := by
    have : p % 6 = 1 := by omega
    simp [Nat.add_mod, Nat.pow_mod, this]
  obtain ⟨c, hc⟩ : ∃ c, p ^ 4 + p ^ 2 + 1 = 3 * (2 * c + 1) := ⟨(p ^ 4 + p ^ 2 + 1) / 6, by omega⟩
  have h1 : 1 ≤ p ^ 2 := Nat.one_le_pow _ _ hp.out.pos
  have h8 : (p ^ 2) % 2 = 1 := by
    have : p % 2 = 1 := by omega
    simp [Nat.pow_mod, this]
  have : p ^ 6 - 1 = (p ^ 2 - 1) * (p ^ 4 + p ^ 2 + 1) := by
    obtain ⟨k, hk⟩ : ∃ k, p ^ 2 = k + 1 := ⟨p ^ 2 - 1, by omega⟩
    rw [show p ^ 6 = (p ^ 2) ^ 3 by ring, show p ^ 4 = (p ^ 2) ^ 2 by ring, hk]
    rw [Nat.add_sub_cancel]
    have : (k + 1) ^ 3 = k * ((k + 1) ^ 2 + (k + 1) + 1) + 1 := by ring
    omega
  obtain ⟨k, hk⟩ : ∃ k, p ^ 2 - 1 = 2 * k := ⟨(p ^ 2 - 1) / 2, by omega⟩
  rw [this, hc, hk, show 2 * k * (3 * (2 * c + 1)) = 2 * (3 * (k * (2 * c + 1))) by ring, Nat.mul_div_cancel_left _ (by norm_num),
    pow_mul, tau_cube, pow_mul, ← map_pow]
  rw [hk, Nat.mul_div_cancel_left _ (by norm_num)] at hxi
  rw [hxi, map_neg, map_one, Odd.neg_one_pow ⟨c, rfl⟩]

theorem fp12_h12 (h4 : p % 4 = 3) (h3 : p % 3 = 1) (hxi : xi p ^ ((p ^ 2 - 1) / 2) = -1) :
    ∀ r : Fp6 p, r ^ 2 ≠ tau p + 0 * r := by
  intro r h
  rw [zero_mul, add_zero] at h
  have hr : r ≠ 0 := by
    rintro rfl
    exact tau_ne p (by rw [← h]; ring)
  have h1 := tau_pow_half p h4 h3 hxi
  have hodd : (p ^ 6) % 2 = 1 := by
    have : p % 2 = 1 := by omega
    simp [Nat.pow_mod, this]
  rw [← h, ← pow_mul, Nat.mul_div_cancel' (by omega), fp6_pow_sub_one p h4 h3 hr] at h1
  have := charP_fp6 p
  have h2 : ((2 : Nat) : Fp6 p) = 0 := by
    push_cast
    linear_combination h1
  rw [CharP.cast_eq_zero_iff (Fp6 p) p] at h2
  have := Nat.le_of_dvd (by norm_num) h2
  omega

theorem charP_fp12 : CharP (Fp12 p) p := by
  have := charP_fp6 p
  refine charP_of_injective_ringHom (f := algebraMap (Fp6 p) (Fp12 p)) ?_ p
  intro a b h
  have := congrArg QuadraticAlgebra.re h
  simpa using this

theorem fp12_decomp (a : Fp12 p) : a = algebraMap (Fp6 p) (Fp12 p) a.re + algebraMap (Fp6 p) (Fp12 p) a.im * ⟨0, 1⟩ := by
  ext <;> simp

theorem omega_sq : ((⟨0, 1⟩ : Fp12 p)) ^ 2 = algebraMap (Fp6 p) (Fp12 p) (tau p) := by
  rw [pow_two]
  ext <;> simp

/-- the `p^k`-th power in `Fp12`, coordinatewise -/
theorem fp12_pow {n k : Nat} (hn : n = p ^ k) (h2 : n % 2 = 1) (a : Fp12 p) :
    a ^ n = ⟨a.re ^ n, a.im ^ n * tau p ^ ((n - 1) / 2)⟩ := by
  have := charP_fp12 p
  have hw : ((⟨0, 1⟩ : Fp12 p)) ^ n = algebraMap (Fp6 p) (Fp12 p) (tau p ^ ((n - 1) / 2)) * ⟨0, 1⟩ := by
    have : n = 2 * ((n - 1) / 2) + 1 := by omega
    conv_lhs => rw [this, pow_succ, pow_mul, omega_sq]
    rw [map_pow]
  conv_lhs => rw [fp12_decomp p a]
  subst hn
  rw [add_pow_char_pow, mul_pow, hw, ← mul_assoc, ← map_pow, ← map_pow, ← map_mul]
  ext <;> simp [-map_pow, -map_mul]

/-- conjugation in `Fp12` is the `p^6`-th power -/
theorem fp12_pow_p6 (h4 : p % 4 = 3) (h3 : p % 3 = 1) (hxi : xi p ^ ((p ^ 2 - 1) / 2) = -1) (a : Fp12 p) :
    a ^ p ^ 6 = star a := by
  have hodd : (p ^ 6) % 2 = 1 := by
    have : p % 2 = 1 := by omega
    simp [Nat.pow_mod, this]
  rw [fp12_pow p rfl hodd, tau_pow_half p h4 h3 hxi, fp6_pow_p6 p h4 h3, fp6_pow_p6 p h4 h3]
  ext <;> simp

end
end APS
