import Mathlib.Algebra.Module.Basic
import Mathlib.Tactic.Abel
import Mathlib.Tactic.Ring
import Mathlib.Tactic.FieldSimp

/-! Miller's algorithm for an abstract "line" function `H : G → G → M`, and the two additivity arguments. -/
namespace APS.Bil

variable {M G : Type} [CommGroup M] [AddCommGroup G]

/-- one iteration -/
def stepG (H : G → G → M) (Q : G) (s : M × G) (d : Int) : M × G :=
  let f := s.1 ^ 2 * H s.2 s.2
  let T := s.2 + s.2
  if d = 1 then (f * H T Q, T + Q)
  else if d = -1 then (f * H T (-Q), T - Q)
  else (f, T)

/-- the loop and the two final lines -/
def finG (H : G → G → M) (π : G →+ G) (ds : List Int) (Q : G) : M :=
  let s := ds.foldl (stepG H Q) (1, Q)
  s.1 * H s.2 (π Q) * H (s.2 + π Q) (-π (π Q))

/-- the multiple reached after the digits -/
def digVal (k : Int) : List Int → Int
  | [] => k
  | d :: ds => digVal (2 * k + (if d = 1 then 1 else if d = -1 then -1 else 0)) ds

theorem fold_point (H : G → G → M) (Q : G) : ∀ (ds : List Int) (k : Int) (f : M),
    (ds.foldl (stepG H Q) (f, k • Q)).2 = digVal k ds • Q
  | [], k, f => rfl
  | d :: ds, k, f => by
    rw [List.foldl_cons, digVal]
    have : ∃ f', stepG H Q (f, k • Q) d = (f', (2 * k + (if d = 1 then 1 else if d = -1 then -1 else 0)) • Q) := by
      unfold stepG
      simp only
      by_cases h1 : d = 1
      · rw [if_pos h1, if_pos h1]
        refine ⟨_, Prod.ext rfl ?_⟩
        simp only [add_smul, mul_smul, one_smul, two_smul]
      · rw [if_neg h1, if_neg h1]
        by_cases h2 : d = -1
        · rw [if_pos h2, if_pos h2]
          refine ⟨_, Prod.ext rfl ?_⟩
          simp only [add_smul, mul_smul, two_smul, neg_smul, one_smul, sub_eq_add_neg]
        · rw [if_neg h2, if_neg h2]
          refine ⟨_, Prod.ext rfl ?_⟩
          simp only [add_smul, mul_smul, two_smul, zero_smul, add_zero]
    obtain ⟨f', hf⟩ := this
    rw [hf]
    exact fold_point H Q ds _ f'

theorem fold_point1 (H : G → G → M) (Q : G) (ds : List Int) : (ds.foldl (stepG H Q) (1, Q)).2 = digVal 1 ds • Q := by
  have := fold_point H Q ds 1 1
  rwa [one_smul] at this

section A
variable (H₁ H₂ H₃ : G → G → M) (lam : G → M)

theorem foldA (h : ∀ S T, H₃ S T * (lam S * lam T) = H₁ S T * H₂ S T * lam (S + T)) (hn : ∀ S, lam S * lam (-S) = 1) (Q : G) :
    ∀ (ds : List Int) (k : Int) (f₁ f₂ f₃ : M), f₃ * lam Q ^ k = f₁ * f₂ * lam (k • Q) →
      (ds.foldl (stepG H₃ Q) (f₃, k • Q)).1 * lam Q ^ digVal k ds =
        (ds.foldl (stepG H₁ Q) (f₁, k • Q)).1 * (ds.foldl (stepG H₂ Q) (f₂, k • Q)).1 * lam (digVal k ds • Q)
  | [], k, f₁, f₂, f₃, hf => hf
  | d :: ds, k, f₁, f₂, f₃, hf => by
    have hd : f₃ ^ 2 * H₃ (k • Q) (k • Q) * lam Q ^ (2 * k) =
        (f₁ ^ 2 * H₁ (k • Q) (k • Q)) * (f₂ ^ 2 * H₂ (k • Q) (k • Q)) * lam (k • Q + k • Q) := by
      calc f₃ ^ 2 * H₃ (k • Q) (k • Q) * lam Q ^ (2 * k) = (f₃ * lam Q ^ k) ^ 2 * H₃ (k • Q) (k • Q) := by
            rw [mul_pow, ← zpow_natCast (lam Q ^ k), ← zpow_mul, mul_comm k]; exact mul_right_comm _ _ _
        _ = f₁ ^ 2 * f₂ ^ 2 * (H₃ (k • Q) (k • Q) * (lam (k • Q) * lam (k • Q))) := by
            rw [hf, mul_pow, mul_pow, pow_two (lam _)]; simp only [mul_assoc, mul_comm, mul_left_comm]
        _ = _ := by rw [h]; simp only [mul_assoc, mul_left_comm]
    have hT : k • Q + k • Q = (2 * k) • Q := by rw [mul_smul, two_smul]
    rw [List.foldl_cons, List.foldl_cons, List.foldl_cons, digVal]
    unfold stepG
    simp only
    by_cases h1 : d = 1
    · simp only [if_pos h1]
      have hk : k • Q + k • Q + Q = (2 * k + 1) • Q := by rw [add_smul, one_smul, hT]
      rw [hk]
      apply foldA h hn Q ds
      rw [zpow_add, zpow_one, ← hk]
      calc f₃ ^ 2 * H₃ (k • Q) (k • Q) * H₃ (k • Q + k • Q) Q * (lam Q ^ (2 * k) * lam Q)
          = (f₃ ^ 2 * H₃ (k • Q) (k • Q) * lam Q ^ (2 * k)) * (H₃ (k • Q + k • Q) Q * lam Q) := by
            simp only [mul_assoc, mul_left_comm]
        _ = (f₁ ^ 2 * H₁ (k • Q) (k • Q)) * (f₂ ^ 2 * H₂ (k • Q) (k • Q)) * (H₃ (k • Q + k • Q) Q * (lam (k • Q + k • Q) * lam Q)) := by
            rw [hd]; simp only [mul_assoc, mul_left_comm]
        _ = _ := by rw [h]; simp only [mul_assoc, mul_left_comm]
    · simp only [if_neg h1]
      by_cases h2 : d = -1
      · simp only [if_pos h2]
        have hk : k • Q + k • Q - Q = (2 * k + -1) • Q := by rw [add_smul, neg_smul, one_smul, hT, sub_eq_add_neg]
        rw [hk]
        apply foldA h hn Q ds
        have hneg : lam Q ^ (-1 : Int) = lam (-Q) := by
          rw [zpow_neg, zpow_one]; exact inv_eq_of_mul_eq_one_right (hn Q)
        rw [zpow_add, hneg, ← hk, sub_eq_add_neg]
        calc f₃ ^ 2 * H₃ (k • Q) (k • Q) * H₃ (k • Q + k • Q) (-Q) * (lam Q ^ (2 * k) * lam (-Q))
            = (f₃ ^ 2 * H₃ (k • Q) (k • Q) * lam Q ^ (2 * k)) * (H₃ (k • Q + k • Q) (-Q) * lam (-Q)) := by
              simp only [mul_assoc, mul_left_comm]
          _ = (f₁ ^ 2 * H₁ (k • Q) (k • Q)) * (f₂ ^ 2 * H₂ (k • Q) (k • Q)) * (H₃ (k • Q + k • Q) (-Q) * (lam (k • Q + k • Q) * lam (-Q))) := by
              rw [hd]; simp only [mul_assoc, mul_left_comm]
          _ = _ := by rw [h]; simp only [mul_assoc, mul_left_comm]
      · simp only [if_neg h2, add_zero]
        rw [hT]
        apply foldA h hn Q ds
        rw [← hT]; exact hd

/-- additivity in the evaluation point -/
theorem finA (h : ∀ S T, H₃ S T * (lam S * lam T) = H₁ S T * H₂ S T * lam (S + T)) (hn : ∀ S, lam S * lam (-S) = 1)
    (π : G →+ G) (p r : Nat) (hp : ∀ S, lam (π S) = lam S ^ p) (hr : ∀ S, lam S ^ r = 1) (ds : List Int) (Q : G)
    (hend : digVal 1 ds • Q + π Q - π (π Q) + π (π (π Q)) = 0) (hdvd : (r : Int) ∣ digVal 1 ds + p - p ^ 2 + p ^ 3) :
    finG H₃ π ds Q = finG H₁ π ds Q * finG H₂ π ds Q := by
  have h1 := foldA H₁ H₂ H₃ lam h hn Q ds 1 1 1 1 (by rw [zpow_one, one_smul, one_mul, one_mul, one_mul])
  rw [one_smul] at h1
  unfold finG
  simp only [fold_point1]
  set s := digVal 1 ds with hs
  generalize (ds.foldl (stepG H₁ Q) (1, Q)).1 = f₁ at *
  generalize (ds.foldl (stepG H₂ Q) (1, Q)).1 = f₂ at *
  generalize (ds.foldl (stepG H₃ Q) (1, Q)).1 = f₃ at *
  have hl : ∀ S, lam (-S) = (lam S)⁻¹ := fun S => (inv_eq_of_mul_eq_one_right (hn S)).symm
  have hT : s • Q + π Q + -π (π Q) = -π (π (π Q)) := by
    rw [eq_neg_iff_add_eq_zero, ← sub_eq_add_neg]; exact hend
  have e3 : lam (s • Q + π Q + -π (π Q)) = (lam Q ^ (p ^ 3 : Int))⁻¹ := by
    rw [hT, hl, hp, hp, hp, ← pow_mul, ← pow_mul, ← zpow_natCast]
    congr 2; push_cast; ring
  have e1 : lam (π Q) = lam Q ^ (p : Int) := by rw [hp, zpow_natCast]
  have e2 : lam (-π (π Q)) = (lam Q ^ (p ^ 2 : Int))⁻¹ := by
    rw [hl, hp, hp, ← pow_mul, ← zpow_natCast]; congr 2; push_cast; ring
  have k1 := h (s • Q) (π Q)
  have k2 := h (s • Q + π Q) (-π (π Q))
  rw [e1] at k1
  rw [e2, e3] at k2
  have hone : lam Q ^ (s + p - p ^ 2 + p ^ 3 : Int) = 1 := by
    obtain ⟨m, hm⟩ := hdvd
    rw [hm, zpow_mul, zpow_natCast, hr, one_zpow]
  have key : f₃ * H₃ (s • Q) (π Q) * H₃ (s • Q + π Q) (-π (π Q)) * lam Q ^ (s + p - p ^ 2 + p ^ 3 : Int) =
      f₁ * H₁ (s • Q) (π Q) * H₁ (s • Q + π Q) (-π (π Q)) * (f₂ * H₂ (s • Q) (π Q) * H₂ (s • Q + π Q) (-π (π Q))) := by
    rw [zpow_add, zpow_sub, zpow_add]
    have a1 : f₃ = f₁ * f₂ * lam (s • Q) * (lam Q ^ s)⁻¹ := by rw [← h1, mul_inv_cancel_right]
    have a2 : H₃ (s • Q) (π Q) = H₁ (s • Q) (π Q) * H₂ (s • Q) (π Q) * lam (s • Q + π Q) * (lam (s • Q) * lam Q ^ (p : Int))⁻¹ := by
      rw [← k1, mul_inv_cancel_right]
    have a3 : H₃ (s • Q + π Q) (-π (π Q)) = H₁ (s • Q + π Q) (-π (π Q)) * H₂ (s • Q + π Q) (-π (π Q)) * (lam Q ^ (p ^ 3 : Int))⁻¹ *
        (lam (s • Q + π Q) * (lam Q ^ (p ^ 2 : Int))⁻¹)⁻¹ := by
      rw [← k2, mul_inv_cancel_right]
    rw [a1, a2, a3]
    generalize lam (s • Q) = x
    generalize lam (s • Q + π Q) = y
    generalize lam Q ^ (p ^ 3 : Int) = z3
    generalize lam Q ^ (p ^ 2 : Int) = z2
    generalize lam Q ^ (p : Int) = z1
    generalize lam Q ^ s = z0
    simp only [div_eq_mul_inv, mul_inv, inv_inv]
    generalize H₁ (s • Q) (π Q) = u1
    generalize H₂ (s • Q) (π Q) = u2
    generalize H₁ (s • Q + π Q) (-π (π Q)) = v1
    generalize H₂ (s • Q + π Q) (-π (π Q)) = v2
    have hx := mul_inv_cancel x
    calc _ = (f₁ * u1 * v1 * (f₂ * u2 * v2)) * (x * x⁻¹) * (y * y⁻¹) * (z0 * z0⁻¹) * (z1 * z1⁻¹) * (z2 * z2⁻¹) * (z3 * z3⁻¹) := by
          simp only [mul_assoc, mul_comm, mul_left_comm]
      _ = _ := by simp only [mul_inv_cancel, mul_one]
  rw [hone, mul_one] at key
  exact key
end A

section B
variable (H : G → G → M)

theorem four (hs : ∀ S T, H S T = H T S) (hc : ∀ S T U, H S T * H (S + T) U = H T U * H S (T + U)) (S₁ S₂ T₁ T₂ : G) :
    H S₁ T₁ * H S₂ T₂ * H (S₁ + T₁) (S₂ + T₂) = H (S₁ + S₂) (T₁ + T₂) * H S₁ S₂ * H T₁ T₂ := by
  have a1 := hc (S₁ + T₁) S₂ T₂
  have a2 := hc (S₁ + S₂) T₁ T₂
  have a3 := hc T₁ S₁ S₂
  calc H S₁ T₁ * H S₂ T₂ * H (S₁ + T₁) (S₂ + T₂) = H S₁ T₁ * (H (S₁ + T₁) S₂ * H (S₁ + T₁ + S₂) T₂) := by rw [a1, mul_assoc]
    _ = (H T₁ S₁ * H (T₁ + S₁) S₂) * H (S₁ + S₂ + T₁) T₂ := by
        rw [hs S₁ T₁, add_comm S₁ T₁, show T₁ + S₁ + S₂ = S₁ + S₂ + T₁ by abel, mul_assoc]
    _ = H S₁ S₂ * (H (S₁ + S₂) T₁ * H (S₁ + S₂ + T₁) T₂) := by rw [a3, hs T₁ (S₁ + S₂), mul_assoc]
    _ = _ := by rw [a2]; simp only [mul_comm, mul_left_comm]

variable (hs : ∀ S T, H S T = H T S) (hc : ∀ S T U, H S T * H (S + T) U = H T U * H S (T + U))
  (h0 : ∀ S, H S 0 = 1) (hn : ∀ S, H S (-S) = 1)
include hs hc h0 hn

theorem negH (S T : G) : H (-S) (-T) = (H S T)⁻¹ := by
  have := four H hs hc S T (-S) (-T)
  rw [hn, hn, one_mul, one_mul, show S + -S = 0 by abel, show T + -T = 0 by abel, h0, show -S + -T = -(S + T) by abel, hn, one_mul] at this
  exact (inv_eq_of_mul_eq_one_right this.symm).symm

theorem foldB (Q₁ Q₂ : G) :
    ∀ (ds : List Int) (k : Int) (f₁ f₂ f₃ : M), f₁ * f₂ * H (k • Q₁) (k • Q₂) = f₃ * H Q₁ Q₂ ^ k →
      (ds.foldl (stepG H Q₁) (f₁, k • Q₁)).1 * (ds.foldl (stepG H Q₂) (f₂, k • Q₂)).1 * H (digVal k ds • Q₁) (digVal k ds • Q₂) =
        (ds.foldl (stepG H (Q₁ + Q₂)) (f₃, k • (Q₁ + Q₂))).1 * H Q₁ Q₂ ^ digVal k ds
  | [], k, f₁, f₂, f₃, hf => hf
  | d :: ds, k, f₁, f₂, f₃, hf => by
    have hT : ∀ Q : G, k • Q + k • Q = (2 * k) • Q := fun Q => by rw [mul_smul, two_smul]
    have hd : (f₁ ^ 2 * H (k • Q₁) (k • Q₁)) * (f₂ ^ 2 * H (k • Q₂) (k • Q₂)) * H ((2 * k) • Q₁) ((2 * k) • Q₂) =
        (f₃ ^ 2 * H (k • (Q₁ + Q₂)) (k • (Q₁ + Q₂))) * H Q₁ Q₂ ^ (2 * k) := by
      have := four H hs hc (k • Q₁) (k • Q₂) (k • Q₁) (k • Q₂)
      rw [hT, hT, ← smul_add] at this
      calc _ = (f₁ * f₂) ^ 2 * (H (k • Q₁) (k • Q₁) * H (k • Q₂) (k • Q₂) * H ((2 * k) • Q₁) ((2 * k) • Q₂)) := by
            rw [mul_pow]; simp only [mul_assoc, mul_left_comm]
        _ = (f₁ * f₂ * H (k • Q₁) (k • Q₂)) ^ 2 * H (k • (Q₁ + Q₂)) (k • (Q₁ + Q₂)) := by
            rw [this, mul_pow _ (H _ _), pow_two (H _ _)]; simp only [mul_assoc, mul_left_comm, mul_comm]
        _ = _ := by
            rw [hf, mul_pow, ← zpow_natCast (H Q₁ Q₂ ^ k), ← zpow_mul, mul_comm k]; exact mul_right_comm _ _ _
    rw [List.foldl_cons, List.foldl_cons, List.foldl_cons, digVal]
    unfold stepG
    simp only
    by_cases h1 : d = 1
    · simp only [if_pos h1, hT]
      have hk : ∀ Q : G, (2 * k) • Q + Q = (2 * k + 1) • Q := fun Q => by rw [add_smul, one_smul]
      rw [hk, hk, hk]
      apply foldB Q₁ Q₂ ds
      have := four H hs hc ((2 * k) • Q₁) ((2 * k) • Q₂) Q₁ Q₂
      rw [hk, hk, ← smul_add] at this
      rw [zpow_add, zpow_one]
      calc _ = (f₁ ^ 2 * H (k • Q₁) (k • Q₁)) * (f₂ ^ 2 * H (k • Q₂) (k • Q₂)) *
            (H ((2 * k) • Q₁) Q₁ * H ((2 * k) • Q₂) Q₂ * H ((2 * k + 1) • Q₁) ((2 * k + 1) • Q₂)) := by
            simp only [mul_assoc, mul_left_comm]
        _ = ((f₁ ^ 2 * H (k • Q₁) (k • Q₁)) * (f₂ ^ 2 * H (k • Q₂) (k • Q₂)) * H ((2 * k) • Q₁) ((2 * k) • Q₂)) *
            (H ((2 * k) • (Q₁ + Q₂)) (Q₁ + Q₂) * H Q₁ Q₂) := by rw [this]; simp only [mul_assoc, mul_left_comm]
        _ = _ := by rw [hd]; simp only [mul_assoc, mul_left_comm]
    · simp only [if_neg h1]
      by_cases h2 : d = -1
      · simp only [if_pos h2, hT]
        have hk : ∀ Q : G, (2 * k) • Q - Q = (2 * k + -1) • Q := fun Q => by rw [add_smul, neg_smul, one_smul, sub_eq_add_neg]
        rw [hk, hk, hk]
        apply foldB Q₁ Q₂ ds
        have := four H hs hc ((2 * k) • Q₁) ((2 * k) • Q₂) (-Q₁) (-Q₂)
        rw [← sub_eq_add_neg, ← sub_eq_add_neg, hk, hk, ← smul_add, negH H hs hc h0 hn, ← neg_add] at this
        rw [zpow_add, zpow_neg, zpow_one]
        calc _ = (f₁ ^ 2 * H (k • Q₁) (k • Q₁)) * (f₂ ^ 2 * H (k • Q₂) (k • Q₂)) *
              (H ((2 * k) • Q₁) (-Q₁) * H ((2 * k) • Q₂) (-Q₂) * H ((2 * k + -1) • Q₁) ((2 * k + -1) • Q₂)) := by
              simp only [mul_assoc, mul_left_comm]
          _ = ((f₁ ^ 2 * H (k • Q₁) (k • Q₁)) * (f₂ ^ 2 * H (k • Q₂) (k • Q₂)) * H ((2 * k) • Q₁) ((2 * k) • Q₂)) *
              (H ((2 * k) • (Q₁ + Q₂)) (-(Q₁ + Q₂)) * (H Q₁ Q₂)⁻¹) := by rw [this]; simp only [mul_assoc, mul_left_comm]
          _ = _ := by rw [hd]; simp only [mul_assoc, mul_left_comm]
      · simp only [if_neg h2, add_zero, hT]
        apply foldB Q₁ Q₂ ds
        exact hd

/-- additivity in the point that is multiplied -/
theorem finB (π : G →+ G) (p r : Nat) (hp : ∀ S T, H (π S) (π T) = H S T ^ p) (hr : ∀ S T, H S T ^ r = 1) (ds : List Int) (Q₁ Q₂ : G)
    (hend : ∀ Q, digVal 1 ds • Q + π Q - π (π Q) + π (π (π Q)) = 0) (hdvd : (r : Int) ∣ digVal 1 ds + p - p ^ 2 + p ^ 3) :
    finG H π ds (Q₁ + Q₂) = finG H π ds Q₁ * finG H π ds Q₂ := by
  have h1 := foldB H hs hc h0 hn Q₁ Q₂ ds 1 1 1 1 (by rw [zpow_one, one_smul, one_smul, one_mul])
  rw [one_smul, one_smul, one_smul] at h1
  unfold finG
  simp only [fold_point1]
  set s := digVal 1 ds with hsd
  generalize (ds.foldl (stepG H Q₁) (1, Q₁)).1 = f₁ at *
  generalize (ds.foldl (stepG H Q₂) (1, Q₂)).1 = f₂ at *
  generalize (ds.foldl (stepG H (Q₁ + Q₂)) (1, Q₁ + Q₂)).1 = f₃ at *
  have hT : ∀ Q, s • Q + π Q + -π (π Q) = -π (π (π Q)) := fun Q => by
    rw [eq_neg_iff_add_eq_zero, ← sub_eq_add_neg]; exact hend Q
  have k1 := four H hs hc (s • Q₁) (s • Q₂) (π Q₁) (π Q₂)
  have k2 := four H hs hc (s • Q₁ + π Q₁) (s • Q₂ + π Q₂) (-π (π Q₁)) (-π (π Q₂))
  rw [hT, hT, negH H hs hc h0 hn, negH H hs hc h0 hn, hp, hp, hp, ← neg_add, ← map_add, ← map_add,
    show s • Q₁ + π Q₁ + (s • Q₂ + π Q₂) = s • (Q₁ + Q₂) + π (Q₁ + Q₂) by rw [smul_add, map_add]; abel] at k2
  rw [← smul_add, ← map_add, hp] at k1
  have hr0 := hr Q₁ Q₂
  generalize H Q₁ Q₂ = h at *
  have e3 : ((h ^ p) ^ p) ^ p = h ^ (p ^ 3 : Int) := by
    rw [← pow_mul, ← pow_mul, ← zpow_natCast]; congr 1; push_cast; ring
  have e2 : (h ^ p) ^ p = h ^ (p ^ 2 : Int) := by rw [← pow_mul, ← zpow_natCast]; congr 1; push_cast; ring
  have e1 : h ^ p = h ^ (p : Int) := by rw [zpow_natCast]
  rw [e3, e2] at k2
  rw [e1] at k1
  have hone : h ^ (s + p - p ^ 2 + p ^ 3 : Int) = 1 := by
    obtain ⟨m, hm⟩ := hdvd
    rw [hm, zpow_mul, zpow_natCast, hr0, one_zpow]
  generalize H (s • Q₁) (s • Q₂) = x at *
  generalize H (s • Q₁ + π Q₁) (s • Q₂ + π Q₂) = y at *
  generalize H (s • Q₁) (π Q₁) = u1 at *
  generalize H (s • Q₂) (π Q₂) = u2 at *
  generalize H (s • (Q₁ + Q₂)) (π (Q₁ + Q₂)) = u3 at *
  generalize H (s • Q₁ + π Q₁) (-π (π Q₁)) = v1 at *
  generalize H (s • Q₂ + π Q₂) (-π (π Q₂)) = v2 at *
  generalize H (s • (Q₁ + Q₂) + π (Q₁ + Q₂)) (-π (π (Q₁ + Q₂))) = v3 at *
  rw [zpow_add, zpow_sub, zpow_add] at hone
  generalize h ^ (p ^ 3 : Int) = z3 at *
  generalize h ^ (p ^ 2 : Int) = z2 at *
  generalize h ^ (p : Int) = z1 at *
  generalize h ^ s = z0 at *
  have a1 : f₃ = f₁ * f₂ * x * z0⁻¹ := by rw [h1, mul_inv_cancel_right]
  have a2 : u3 = u1 * u2 * y * (x * z1)⁻¹ := by rw [k1, mul_assoc u3, mul_inv_cancel_right]
  have a3 : v3 = v1 * v2 * z3⁻¹ * (y * z2⁻¹)⁻¹ := by rw [k2, mul_assoc v3, mul_inv_cancel_right]
  rw [a1, a2, a3]
  have hinv : (z0 * z1 * z2⁻¹ * z3)⁻¹ = 1 := by rw [hone, inv_one]
  simp only [div_eq_mul_inv, mul_inv, inv_inv] at hinv ⊢
  calc _ = (f₁ * u1 * v1 * (f₂ * u2 * v2)) * (x * x⁻¹) * (y * y⁻¹) * (z0⁻¹ * z1⁻¹ * z2 * z3⁻¹) := by
        simp only [mul_assoc, mul_comm, mul_left_comm]
    _ = _ := by rw [hinv, mul_inv_cancel, mul_inv_cancel, mul_one, mul_one, mul_one]
end B
end APS.Bil
