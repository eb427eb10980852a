import Verif.Proofs.BnOrder
import Verif.Model.Optate

/-! `finalExponentiation` -/
namespace APS
open APS.Spec APS.Pairing

noncomputable instance fp12Field' : Field (Fp12 P) := inferInstance

/-- the exponent the code computes, in terms of the exponents of its building blocks -/
def hardExp : Nat :=
  let y0 := P + P ^ 2 + P ^ 2 * P
  let y1 := P ^ 6
  let y2 := u * u * P ^ 2
  let y3 := u * P * P ^ 6
  let y4 := (u + u * u * P) * P ^ 6
  let y5 := u * u * P ^ 6
  let y6 := (u * u * u + u * u * u * P) * P ^ 6
  let t0 := (y6 + y6) + y4 + y5
  let t1 := y3 + y5 + t0
  let t0 := t0 + y2
  let t1 := (t1 + t1) + t0
  let t1 := t1 + t1
  let t0 := t1 + y1
  let t1 := t1 + y0
  (t0 + t0) + t1

theorem hardExp_eq : ((P ^ 6 - 1) * (P ^ 2 + 1) * hardExp) % (P ^ 12 - 1) = ((P ^ 12 - 1) / Order) % (P ^ 12 - 1) := by
  decide +kernel

theorem order_dvd : Order * ((P ^ 12 - 1) / Order) = P ^ 12 - 1 := by decide +kernel

theorem fp12_pow_p12 (x : Fp12 P) : x ^ P ^ 12 = x := by
  rw [show 12 = 6 + 6 from rfl, pow_add, pow_mul, fp12_pow_p6 P bnP_mod4 bnP_mod3 xi_pow_pp12,
    fp12_pow_p6 P bnP_mod4 bnP_mod3 xi_pow_pp12, star_star]

theorem fp12_pow_sub_one {x : Fp12 P} (hx : x ≠ 0) : x ^ (P ^ 12 - 1) = 1 := by
  have h := fp12_pow_p12 x
  have e : P ^ 12 = (P ^ 12 - 1) + 1 := by
    have : 0 < P ^ 12 := Nat.pow_pos (by decide +kernel)
    omega
  rw [e, pow_succ] at h
  exact mul_right_cancel₀ hx (by rw [h, one_mul])

theorem finalExp_hard (inp : Gfp12) :
    val12 P (finalExponentiation inp) =
      ((val12 P inp ^ P ^ 6 * (val12 P inp)⁻¹) * (val12 P inp ^ P ^ 6 * (val12 P inp)⁻¹) ^ P ^ 2) ^ hardExp := by
  have hc : ∀ x : Gfp12, val12 P ⟨x.x.negative, x.y⟩ = val12 P x ^ P ^ 6 := conj12
  simp only [finalExponentiation, val12_mul, val12_square, frob12, frob12P2, conj12, val12_exp, hc, val12_invert]
  generalize (val12 P inp ^ P ^ 6 * (val12 P inp)⁻¹) * (val12 P inp ^ P ^ 6 * (val12 P inp)⁻¹) ^ P ^ 2 = g
  simp only [← pow_mul, ← pow_add, ← pow_succ]
  rfl

/-- the value computed by `finalExponentiation` -/
theorem finalExp_eq (inp : Gfp12) : val12 P (finalExponentiation inp) = val12 P inp ^ ((P ^ 12 - 1) / Order) := by
  rw [finalExp_hard]
  generalize val12 P inp = v
  by_cases hv : v = 0
  · subst hv
    rw [inv_zero, mul_zero, zero_mul, zero_pow, zero_pow]
    · decide +kernel
    · decide +kernel
  · have e1 : v ^ P ^ 6 * v⁻¹ = v ^ (P ^ 6 - 1) := by
      rw [pow_sub₀ v hv (Nat.one_le_pow _ _ (by decide +kernel)), pow_one]
    rw [e1, ← pow_mul, ← pow_add, ← pow_mul]
    have e2 : (P ^ 6 - 1 + (P ^ 6 - 1) * P ^ 2) * hardExp = (P ^ 6 - 1) * (P ^ 2 + 1) * hardExp := by ring
    rw [e2]
    have h1 := fp12_pow_sub_one hv
    rw [← Nat.div_add_mod ((P ^ 6 - 1) * (P ^ 2 + 1) * hardExp) (P ^ 12 - 1), pow_add, pow_mul, h1, one_pow, one_mul, hardExp_eq]
    conv_rhs => rw [← Nat.div_add_mod ((P ^ 12 - 1) / Order) (P ^ 12 - 1), pow_add, pow_mul, h1, one_pow, one_mul]

theorem finalExp_order {inp : Gfp12} (h : val12 P inp ≠ 0) : val12 P (finalExponentiation inp) ^ Order = 1 := by
  rw [finalExp_eq, ← pow_mul, mul_comm, order_dvd, fp12_pow_sub_one h]

/-- elements of `F_{p⁶}` are removed by the final exponentiation -/
theorem finalExp_fp6 {x : Fp6 P} (hx : x ≠ 0) : (algebraMap (Fp6 P) (Fp12 P) x) ^ ((P ^ 12 - 1) / Order) = 1 := by
  rw [← map_pow, show (P ^ 12 - 1) / Order = (P ^ 6 - 1) * ((P ^ 6 + 1) / Order) by decide +kernel, pow_mul,
    fp6_pow_sub_one P bnP_mod4 bnP_mod3 hx, one_pow, map_one]

end APS
