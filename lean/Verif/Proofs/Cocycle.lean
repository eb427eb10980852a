import Mathlib.AlgebraicGeometry.EllipticCurve.Affine.Point
import Mathlib.Tactic.LinearCombination
import Mathlib.Tactic.FieldSimp

/-! Lines through points of an elliptic curve form a 2-cocycle, up to fourth roots of unity and vertical lines: the functions
`l(S,T) l(S+T,U) v(T+U)` and `l(T,U) l(S,T+U) v(S+T)` have the same ideal. -/
namespace APS.Coc
open WeierstrassCurve WeierstrassCurve.Affine WeierstrassCurve.Affine.CoordinateRing Polynomial Ideal
open scoped Polynomial.Bivariate

variable {K : Type} [Field K] [DecidableEq K] {W : Affine K}

/-- the ideal of functions vanishing at the point -/
noncomputable def ptIdeal : W.Point → Ideal W.CoordinateRing
  | .zero => ⊤
  | .some x y _ => XYIdeal W x (C y)

/-- the line through two points -/
noncomputable def nF (S T : W.Point) : W.CoordinateRing :=
  match S, T with
  | .some x₁ y₁ _, .some x₂ y₂ _ =>
    if x₁ = x₂ ∧ y₁ = W.negY x₂ y₂ then XClass W x₁ else YClass W (linePolynomial x₁ y₁ (W.slope x₁ x₂ y₁ y₂))
  | _, _ => 1

/-- the vertical line through a point -/
noncomputable def vF (S : W.Point) : W.CoordinateRing :=
  match S with
  | .some x _ _ => XClass W x
  | .zero => 1

/-- the vertical line through the sum -/
noncomputable def dF (S T : W.Point) : W.CoordinateRing :=
  match S, T with
  | .some _ _ _, .some _ _ _ => vF (S + T)
  | _, _ => 1

theorem ideal_add (S T : W.Point) : span {dF S T} * (ptIdeal S * ptIdeal T) = span {nF S T} * ptIdeal (S + T) := by
  match S, T with
  | .zero, T =>
    have : (Point.zero : W.Point) + T = T := zero_add T
    rw [this]
    have h1 : dF (Point.zero : W.Point) T = 1 := by cases T <;> rfl
    have h2 : nF (Point.zero : W.Point) T = 1 := by cases T <;> rfl
    rw [h1, h2, ptIdeal, Ideal.top_mul]
  | .some x y h, .zero =>
    have : (Point.some x y h : W.Point) + Point.zero = Point.some x y h := add_zero _
    rw [this]
    rw [show dF (Point.some x y h) Point.zero = 1 from rfl, show nF (Point.some x y h) Point.zero = 1 from rfl,
      show ptIdeal (Point.zero : W.Point) = ⊤ from rfl, Ideal.mul_top]
  | .some x₁ y₁ h₁, .some x₂ y₂ h₂ =>
    by_cases hxy : x₁ = x₂ ∧ y₁ = W.negY x₂ y₂
    · have hs : Point.some x₁ y₁ h₁ + Point.some x₂ y₂ h₂ = 0 := Point.add_of_Y_eq hxy.1 hxy.2
      have h1 : dF (Point.some x₁ y₁ h₁) (Point.some x₂ y₂ h₂) = 1 := by simp only [dF]; rw [hs]; rfl
      have h2 : nF (Point.some x₁ y₁ h₁) (Point.some x₂ y₂ h₂) = XClass W x₁ := by simp only [nF]; rw [if_pos hxy]
      rw [h1, h2, hs, span_singleton_one, Ideal.top_mul, show ptIdeal (0 : W.Point) = ⊤ from rfl, Ideal.mul_top]
      show XYIdeal W x₁ (C y₁) * XYIdeal W x₂ (C y₂) = XIdeal W x₁
      rw [hxy.1, hxy.2, XYIdeal_neg_mul h₂]
    · have hs := Point.add_some (h₁ := h₁) (h₂ := h₂) hxy
      have h1 : dF (Point.some x₁ y₁ h₁) (Point.some x₂ y₂ h₂) = XClass W (W.addX x₁ x₂ <| W.slope x₁ x₂ y₁ y₂) := by
        simp only [dF]; rw [hs]; rfl
      have h2 : nF (Point.some x₁ y₁ h₁) (Point.some x₂ y₂ h₂) = YClass W (linePolynomial x₁ y₁ (W.slope x₁ x₂ y₁ y₂)) := by
        simp only [nF]; rw [if_neg hxy]
      rw [h1, h2, hs]
      exact XYIdeal_mul_XYIdeal h₁.1 h₂.1 hxy

theorem vF_ne (S : W.Point) : vF S ≠ 0 := by
  match S with
  | .zero => exact one_ne_zero
  | .some x _ _ => exact XClass_ne_zero x

theorem dF_ne (S T : W.Point) : dF S T ≠ 0 := by
  match S, T with
  | .zero, .zero => exact one_ne_zero
  | .zero, .some _ _ _ => exact one_ne_zero
  | .some _ _ _, .zero => exact one_ne_zero
  | .some _ _ _, .some _ _ _ => exact vF_ne _

theorem nF_ne (S T : W.Point) : nF S T ≠ 0 := by
  match S, T with
  | .zero, .zero => exact one_ne_zero
  | .zero, .some _ _ _ => exact one_ne_zero
  | .some _ _ _, .zero => exact one_ne_zero
  | .some _ _ _, .some _ _ _ =>
    simp only [nF]
    split
    · exact XClass_ne_zero _
    · exact YClass_ne_zero _

/-- the ideal of a point can be cancelled -/
theorem ptIdeal_cancel (S : W.Point) {I J : Ideal W.CoordinateRing} (h : ptIdeal S * I = ptIdeal S * J) : I = J := by
  have hv : ptIdeal (-S) * ptIdeal S = span {vF S} := by
    match S with
    | .zero =>
      have : (-(Point.zero : W.Point)) = Point.zero := rfl
      rw [this]
      show (⊤ * ⊤ : Ideal _) = span {1}
      rw [Ideal.top_mul, span_singleton_one]
    | .some x y h => rw [Point.neg_some]; exact XYIdeal_neg_mul h
  have := congrArg (fun I => ptIdeal (-S) * I) h
  simp only [← mul_assoc, hv] at this
  exact (Ideal.span_singleton_mul_right_inj (vF_ne S)).1 this

/-- the two associations generate the same ideal -/
theorem assoc_ideal (S T U : W.Point) :
    span {dF S T * dF (S + T) U * (nF T U * nF S (T + U))} = span {dF T U * dF S (T + U) * (nF S T * nF (S + T) U)} := by
  have a1 := ideal_add S T
  have a2 := ideal_add (S + T) U
  have b1 := ideal_add T U
  have b2 := ideal_add S (T + U)
  have hassoc : S + (T + U) = S + T + U := (add_assoc S T U).symm
  rw [hassoc] at b2
  set J := ptIdeal S * (ptIdeal T * ptIdeal U) with hJ
  set I := ptIdeal (S + T + U) with hI
  have e1 : span {dF S T * dF (S + T) U} * J = span {nF S T * nF (S + T) U} * I := by
    rw [← span_singleton_mul_span_singleton, ← span_singleton_mul_span_singleton, mul_assoc (span {nF S T}), ← a2,
      mul_left_comm (span {nF S T}), ← mul_assoc (span {nF S T}), ← a1, hJ]
    ring
  have e2 : span {dF T U * dF S (T + U)} * J = span {nF T U * nF S (T + U)} * I := by
    rw [← span_singleton_mul_span_singleton, ← span_singleton_mul_span_singleton, mul_assoc (span {nF T U}), ← b2,
      mul_left_comm (span {nF T U}), mul_left_comm (span {nF T U}), ← b1, hJ]
    ring
  have key : I * (span {dF S T * dF (S + T) U * (nF T U * nF S (T + U))} * J) =
      I * (span {dF T U * dF S (T + U) * (nF S T * nF (S + T) U)} * J) := by
    rw [← span_singleton_mul_span_singleton (dF S T * dF (S + T) U), ← span_singleton_mul_span_singleton (dF T U * dF S (T + U))]
    calc I * (span {dF S T * dF (S + T) U} * span {nF T U * nF S (T + U)} * J)
        = (span {dF S T * dF (S + T) U} * J) * (span {nF T U * nF S (T + U)} * I) := by ring
      _ = (span {nF S T * nF (S + T) U} * I) * (span {dF T U * dF S (T + U)} * J) := by rw [e1, e2]
      _ = _ := by ring
  have := ptIdeal_cancel _ key
  rw [hJ] at this
  have c1 : ptIdeal S * (ptIdeal T * (ptIdeal U * span {dF S T * dF (S + T) U * (nF T U * nF S (T + U))})) =
      ptIdeal S * (ptIdeal T * (ptIdeal U * span {dF T U * dF S (T + U) * (nF S T * nF (S + T) U)})) := by
    calc _ = span {dF S T * dF (S + T) U * (nF T U * nF S (T + U))} * (ptIdeal S * (ptIdeal T * ptIdeal U)) := by ring
      _ = span {dF T U * dF S (T + U) * (nF S T * nF (S + T) U)} * (ptIdeal S * (ptIdeal T * ptIdeal U)) := this
      _ = _ := by ring
  exact ptIdeal_cancel _ (ptIdeal_cancel _ (ptIdeal_cancel _ c1))

/-- leading coefficient of the norm is a square root of one -/
def good (f : W.CoordinateRing) : Prop := (Algebra.norm K[X] f).leadingCoeff ^ 2 = 1

omit [DecidableEq K] in
theorem good_mul {f g : W.CoordinateRing} (hf : good f) (hg : good g) : good (f * g) := by
  unfold good at *
  rw [map_mul, leadingCoeff_mul, mul_pow, hf, hg, one_mul]

omit [DecidableEq K] in
theorem good_one : good (1 : W.CoordinateRing) := by
  unfold good
  rw [map_one, leadingCoeff_one, one_pow]

omit [DecidableEq K] in
theorem good_X (x : K) : good (XClass W x) := by
  have e : XClass W x = (X - C x : K[X]) • (1 : W.CoordinateRing) + (0 : K[X]) • CoordinateRing.mk W Y := by
    rw [zero_smul, add_zero, CoordinateRing.smul, mul_one]; rfl
  unfold good
  rw [e, norm_smul_basis]
  simp only [mul_zero, zero_mul, sub_zero, ne_eq, OfNat.ofNat_ne_zero, not_false_eq_true, zero_pow, leadingCoeff_pow]
  rw [leadingCoeff_X_sub_C, one_pow, one_pow]

omit [DecidableEq K] in
theorem good_Y (x y l : K) : good (YClass W (linePolynomial x y l)) := by
  have e : YClass W (linePolynomial x y l) = (-linePolynomial x y l : K[X]) • (1 : W.CoordinateRing) + (1 : K[X]) • CoordinateRing.mk W Y := by
    rw [CoordinateRing.smul, CoordinateRing.smul, mul_one]
    simp only [YClass, map_sub, map_neg, map_one, one_mul]
    ring
  unfold good
  rw [e, norm_smul_basis]
  have e2 : ((-linePolynomial x y l) ^ 2 - -linePolynomial x y l * 1 * (C W.a₁ * X + C W.a₃) -
      1 ^ 2 * (X ^ 3 + C W.a₂ * X ^ 2 + C W.a₄ * X + C W.a₆)) =
      C (-1) * X ^ 3 + C (l ^ 2 + l * W.a₁ - W.a₂) * X ^ 2 +
        C (2 * l * (y - l * x) + l * W.a₃ + (y - l * x) * W.a₁ - W.a₄) * X + C ((y - l * x) ^ 2 + (y - l * x) * W.a₃ - W.a₆) := by
    simp only [linePolynomial, map_add, map_sub, map_mul, map_pow, map_neg, map_ofNat, C_1]
    ring
  rw [e2, leadingCoeff_cubic (by norm_num)]
  norm_num

theorem good_v (S : W.Point) : good (vF S) := by
  match S with
  | .zero => exact good_one
  | .some _ _ _ => exact good_X _

theorem good_d (S T : W.Point) : good (dF S T) := by
  match S, T with
  | .zero, .zero => exact good_one
  | .zero, .some _ _ _ => exact good_one
  | .some _ _ _, .zero => exact good_one
  | .some _ _ _, .some _ _ _ => exact good_v _

theorem good_n (S T : W.Point) : good (nF S T) := by
  match S, T with
  | .zero, .zero => exact good_one
  | .zero, .some _ _ _ => exact good_one
  | .some _ _ _, .zero => exact good_one
  | .some _ _ _, .some _ _ _ =>
    simp only [nF]
    split
    · exact good_X _
    · exact good_Y _ _ _

omit [DecidableEq K] in
/-- units are constants -/
theorem unit_const {f : W.CoordinateRing} (h : IsUnit f) : ∃ c : K, f = algebraMap K W.CoordinateRing c := by
  obtain ⟨p, q, rfl⟩ := exists_smul_basis_eq f
  have h1 : IsUnit (Algebra.norm K[X] (p • (1 : W.CoordinateRing) + q • CoordinateRing.mk W Y)) := h.map _
  have h2 := degree_eq_zero_of_isUnit h1
  rw [degree_norm_smul_basis] at h2
  have hq : q = 0 := by
    by_contra hq
    have h3 : (2 • q.degree + 3 : WithBot ℕ) ≤ 0 := by rw [← h2]; exact le_max_right _ _
    rw [degree_eq_natDegree hq] at h3
    have : ((2 • q.natDegree + 3 : ℕ) : WithBot ℕ) ≤ ((0 : ℕ) : WithBot ℕ) := by
      push_cast; simpa using h3
    have : 2 • q.natDegree + 3 ≤ 0 := WithBot.coe_le_coe.1 this
    omega
  subst hq
  have hp : p.degree ≤ 0 := by
    by_contra hp
    have hp0 : p ≠ 0 := by rintro rfl; simp at hp
    have h3 : (2 • p.degree : WithBot ℕ) ≤ 0 := by rw [← h2]; exact le_max_left _ _
    rw [degree_eq_natDegree hp0] at h3 hp
    have : ((2 • p.natDegree : ℕ) : WithBot ℕ) ≤ ((0 : ℕ) : WithBot ℕ) := by
      push_cast; simpa using h3
    have := WithBot.coe_le_coe.1 this
    apply hp
    have : p.natDegree = 0 := by simpa using this
    rw [this]; simp
  rw [eq_C_of_degree_le_zero hp]
  refine ⟨p.coeff 0, ?_⟩
  rw [zero_smul, add_zero, CoordinateRing.smul, mul_one]
  rfl

/-- the cocycle identity for functions -/
theorem cocycle_fun (S T U : W.Point) : ∃ c : K, c ^ 4 = 1 ∧
    dF T U * dF S (T + U) * (nF S T * nF (S + T) U) =
      algebraMap K W.CoordinateRing c * (dF S T * dF (S + T) U * (nF T U * nF S (T + U))) := by
  obtain ⟨w, hw⟩ := span_singleton_eq_span_singleton.1 (assoc_ideal S T U)
  obtain ⟨c, hc⟩ := unit_const w.isUnit
  refine ⟨c, ?_, by rw [← hw, hc, mul_comm]⟩
  have g1 : good (dF S T * dF (S + T) U * (nF T U * nF S (T + U))) := good_mul (good_mul (good_d _ _) (good_d _ _)) (good_mul (good_n _ _) (good_n _ _))
  have g2 : good (dF T U * dF S (T + U) * (nF S T * nF (S + T) U)) := good_mul (good_mul (good_d _ _) (good_d _ _)) (good_mul (good_n _ _) (good_n _ _))
  rw [← hw] at g2
  unfold good at g1 g2
  rw [map_mul, leadingCoeff_mul, mul_pow, g1, one_mul, hc] at g2
  have e : algebraMap K W.CoordinateRing c = (C c : K[X]) • (1 : W.CoordinateRing) + (0 : K[X]) • CoordinateRing.mk W Y := by
    rw [zero_smul, add_zero, CoordinateRing.smul, mul_one]; rfl
  rw [e, norm_smul_basis] at g2
  simp only [mul_zero, zero_mul, sub_zero, ne_eq, OfNat.ofNat_ne_zero, not_false_eq_true, zero_pow, leadingCoeff_pow, leadingCoeff_C] at g2
  rw [← g2]; ring

/-- evaluation at a point of the curve -/
noncomputable def ev {x y : K} (h : W.Equation x y) : W.CoordinateRing →+* K :=
  AdjoinRoot.lift (evalRingHom x) y (by
    have : W.polynomial.evalEval x y = 0 := h
    rw [← this, evalEval, eval₂_evalRingHom])

omit [DecidableEq K] in
theorem ev_X {x y : K} (h : W.Equation x y) (a : K) : ev h (XClass W a) = x - a := by
  simp [ev, XClass]

omit [DecidableEq K] in
theorem ev_Y {x y : K} (h : W.Equation x y) (a b l : K) : ev h (YClass W (linePolynomial a b l)) = y - (l * (x - a) + b) := by
  simp [ev, YClass, linePolynomial]

omit [DecidableEq K] in
theorem ev_const {x y : K} (h : W.Equation x y) (c : K) : ev h (algebraMap K W.CoordinateRing c) = c := by
  have : algebraMap K W.CoordinateRing c = CoordinateRing.mk W (C (C c)) := rfl
  rw [this]
  simp [ev]

end APS.Coc
