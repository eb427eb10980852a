import Verif.Proofs.AteFinal
import Verif.Proofs.Gt

/-! The line functions and the Miller loop of optate.go compute the lines and the loop of the specification, up to factors of `F_{p²}`. -/
namespace APS
open APS.Spec APS.Pairing WeierstrassCurve.Affine

theorem mulLine_val (ret : Gfp12) (a b c : Gfp2) :
    val12 P (mulLine ret a b c) = val12 P ret * (of2 (val2 P c) + of2 (val2 P b) * omega + of2 (val2 P a) * omega ^ 3) := by
  have h : of2 (val2 P c) + of2 (val2 P b) * omega + of2 (val2 P a) * omega ^ 3 = (⟨e2 (val2 P c), e2 (val2 P b) + e2 (val2 P a) * tau P⟩ : Fp12 P) := by
    rw [omega_cube]
    ext
    · simp [omega, of2_eq]
    · simp [omega, of2_eq]
  rw [h]
  have hx : val12 P (mulLine ret a b c) = ⟨val6 P (mulLine ret a b c).y, val6 P (mulLine ret a b c).x⟩ := rfl
  rw [hx]
  ext
  · simp only [mulLine, val12, QuadraticAlgebra.re_mul, val6_add, val6_sub, val6_mul, val6_mulTau, val6_mulScalar]
    simp only [val6, val2_zero, map_zero]
    ring
  · simp only [mulLine, val12, QuadraticAlgebra.im_mul, val6_add, val6_sub, val6_mul, val6_mulTau, val6_mulScalar]
    simp only [val6, val2_zero, val2_add, map_zero, map_add]
    ring

/-- a point object of the loop: Jacobian coordinates with `t = z²` -/
def RepT (r : Pt Gfp2) (T : (E2 P).Point) : Prop :=
  JRep (val2 P r.x) (val2 P r.y) (val2 P r.z) T ∧ val2 P r.t = val2 P r.z ^ 2

theorem cast_fp2 (n : Int) : ((n : Fp2 P)) = e1 (n : ZMod P) := by simp

theorem lineDouble (r : Pt Gfp2) (q : Pt Int) {T : (E2 P).Point} (hr : RepT r T) (hT : T ≠ 0) (hT2 : T + T ≠ 0)
    (ret : Gfp12) :
    ∃ a b c o, lineFunctionDouble r q = (a, b, c, o) ∧ RepT o (T + T) ∧ ∃ s : Fp2 P, s ≠ 0 ∧
      val12 P (mulLine ret a b c) = of2 s * (val12 P ret * lineAt (psi T) (psi T) (of1 q.x) (of1 q.y)) := by
  refine ⟨_, _, _, _, rfl, ⟨?_, ?_⟩, ?_⟩
  · refine jrep_double (two_ne2 bnP_ne2) hr.1 _ _ _ ?_ ?_ ?_
    · simp only [val2_add, val2_sub, val2_square, val2_mul]; ring
    · simp only [val2_add, val2_sub, val2_square, val2_mul]; ring
    · simp only [val2_add, val2_sub, val2_square, val2_mul, hr.2]; ring
  · simp only [val2_square]; ring
  · match T, hr, hT with
    | .some x y h, ⟨⟨hz, hx, hy⟩, ht⟩, _ =>
      have hxy := not_vert hT2
      have hy0 : y ≠ 0 := fun e => hxy ⟨rfl, by rw [e, neg_zero]⟩
      have h2 : (2 : Fp2 P) ≠ 0 := two_ne2 bnP_ne2
      have hyy : y ≠ (E2 P).negY x y := fun e => hxy ⟨rfl, by rwa [negY_short] at e⟩
      refine ⟨4 * val2 P r.y * val2 P r.z ^ 3, ?_, ?_⟩
      · rw [hy, show (4 : Fp2 P) = 2 * 2 by norm_num]
        exact mul_ne_zero (mul_ne_zero (mul_ne_zero h2 h2) (mul_ne_zero hy0 (pow_ne_zero _ hz))) (pow_ne_zero _ hz)
      · rw [mulLine_val, line_psi h h hxy]
        have hs : (E2 P).slope x x y y * (2 * y) = 3 * x ^ 2 := by
          rw [slope_of_Y_ne rfl hyy]
          simp only [negY, shortCurve]
          have : y - (-y - 0 * x - 0) ≠ 0 := by
            rw [show y - (-y - 0 * x - 0) = 2 * y by ring]; exact mul_ne_zero h2 hy0
          rw [div_mul_eq_mul_div, div_eq_iff this]; ring
        generalize (E2 P).slope x x y y = l at hs
        simp only [val2_add, val2_sub, val2_square, val2_mul, val2_mulScalar, val2_zero, ht, hx, hy, cast_fp2, omega_cube, of2_eq]
        generalize val2 P r.z = Z
        have k1 : 4 * (y * Z ^ 3) * Z ^ 3 * l = 6 * x ^ 2 * Z ^ 6 := by linear_combination 2 * Z ^ 6 * hs
        have k2 : 4 * (y * Z ^ 3) * Z ^ 3 * (l * x - y) = 6 * x ^ 3 * Z ^ 6 - 4 * y ^ 2 * Z ^ 6 := by linear_combination 2 * Z ^ 6 * x * hs
        have k1' := congrArg (fun z => of6 (e2 z)) k1
        have k2' := congrArg (fun z => of6 (e2 z)) k2
        simp only [map_add, map_sub, map_mul, map_pow, map_ofNat, map_neg, map_zero] at k1' k2' ⊢
        linear_combination (val12 P ret * omega * of6 (e2 (e1 (q.x : ZMod P)))) * k1' - (val12 P ret * of6 (tau P) * omega) * k2'

theorem lineAdd (r p : Pt Gfp2) (q : Pt Int) (r2 : Gfp2) {T Q : (E2 P).Point} (hr : RepT r T)
    (hp : ∃ x₂ y₂ h₂, Q = .some x₂ y₂ h₂ ∧ val2 P p.x = x₂ ∧ val2 P p.y = y₂) (hr2 : val2 P r2 = val2 P p.y ^ 2)
    (hT : T ≠ 0) (h1 : T ≠ Q) (h2 : T + Q ≠ 0) (ret : Gfp12) :
    ∃ a b c o, lineFunctionAdd r p q r2 = (a, b, c, o) ∧ RepT o (T + Q) ∧ ∃ s : Fp2 P, s ≠ 0 ∧
      val12 P (mulLine ret a b c) = of2 s * (val12 P ret * lineAt (psi T) (psi Q) (of1 q.x) (of1 q.y)) := by
  obtain ⟨x₂, y₂, h₂, rfl, hx2, hy2⟩ := hp
  match T, hr, hT with
  | .some x₁ y₁ h₁, ⟨⟨hz, hx, hy⟩, ht⟩, _ =>
    have hxy := not_vert h2
    have hx12 : x₁ ≠ x₂ := by
      rintro rfl
      have e1 := short_eq h₁
      have e2 := short_eq h₂
      have : (y₁ - y₂) * (y₁ + y₂) = 0 := by linear_combination e1 - e2
      rcases mul_eq_zero.1 this with e | e
      · have : y₁ = y₂ := sub_eq_zero.1 e
        subst this; exact h1 rfl
      · exact hxy ⟨rfl, by linear_combination e⟩
    have h2' : (2 : Fp2 P) ≠ 0 := two_ne2 bnP_ne2
    refine ⟨_, _, _, _, rfl, ⟨?_, ?_⟩, ?_⟩
    · refine jrep_add (Z₂ := 1) h2' (show JRep (b := val2 P twistB) (val2 P r.x) (val2 P r.y) (val2 P r.z) (.some x₁ y₁ h₁) from ⟨hz, hx, hy⟩)
        (show JRep (b := val2 P twistB) x₂ y₂ 1 (.some x₂ y₂ h₂) from ⟨one_ne_zero, by ring, by ring⟩) hz one_ne_zero
        (val2 P r.x) (x₂ * val2 P r.z ^ 2) (val2 P r.y) (y₂ * val2 P r.z ^ 3) (by ring) rfl (by ring) rfl ?_ _ _ _ ?_ ?_ ?_
      · rintro ⟨e, _⟩
        rw [hx] at e
        exact hx12 (mul_right_cancel₀ (pow_ne_zero 2 hz) e)
      · simp only [val2_add, val2_sub, val2_square, val2_mul, ht, hr2, hx2, hy2]; ring
      · simp only [val2_add, val2_sub, val2_square, val2_mul, ht, hr2, hx2, hy2]; ring
      · simp only [val2_add, val2_sub, val2_square, val2_mul, ht, hx2]; ring
    · simp only [val2_square]; ring
    · refine ⟨4 * val2 P r.z * (x₂ * val2 P r.z ^ 2 - val2 P r.x), ?_, ?_⟩
      · rw [hx, show (4 : Fp2 P) = 2 * 2 by norm_num, ← sub_mul]
        exact mul_ne_zero (mul_ne_zero (mul_ne_zero h2' h2') hz) (mul_ne_zero (sub_ne_zero.2 (Ne.symm hx12)) (pow_ne_zero _ hz))
      · rw [mulLine_val, line_psi h₁ h₂ hxy]
        have hs : (E2 P).slope x₁ x₂ y₁ y₂ * (x₁ - x₂) = y₁ - y₂ := by
          rw [slope_of_X_ne hx12, div_mul_cancel₀ _ (sub_ne_zero.2 hx12)]
        generalize (E2 P).slope x₁ x₂ y₁ y₂ = l at hs
        simp only [val2_add, val2_sub, val2_square, val2_mul, val2_mulScalar, val2_zero, ht, hr2, hx, hy, hx2, hy2, cast_fp2, omega_cube, of2_eq]
        generalize val2 P r.z = Z
        have k1 : 4 * Z * (x₂ * Z ^ 2 - x₁ * Z ^ 2) * l = 4 * (y₂ - y₁) * Z ^ 3 := by linear_combination -4 * Z ^ 3 * hs
        have k2 : 4 * Z * (x₂ * Z ^ 2 - x₁ * Z ^ 2) * (l * x₁ - y₁) = 4 * Z ^ 3 * ((y₂ - y₁) * x₂ - y₂ * (x₂ - x₁)) := by
          linear_combination -4 * Z ^ 3 * x₁ * hs
        have k1' := congrArg (fun z => of6 (e2 z)) k1
        have k2' := congrArg (fun z => of6 (e2 z)) k2
        simp only [map_add, map_sub, map_mul, map_pow, map_ofNat, map_neg, map_zero] at k1' k2' ⊢
        linear_combination (val12 P ret * omega * of6 (e2 (e1 (q.x : ZMod P)))) * k1' - (val12 P ret * of6 (tau P) * omega) * k2'

end APS
