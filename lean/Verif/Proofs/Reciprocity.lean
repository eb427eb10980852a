import Verif.Spec.Ate
import Verif.Proofs.Cocycle

/-! Lines on a short Weierstrass curve: values, symmetry, reciprocity, and the cocycle identity at a point -/
namespace APS
open APS.Spec WeierstrassCurve WeierstrassCurve.Affine Polynomial

section
variable {K : Type} [Field K] [DecidableEq K] {c : K}

theorem negY_short (x y : K) : (shortCurve c).negY x y = -y := by simp [negY, shortCurve]

theorem short_equation {x y : K} : (shortCurve c).Equation x y ↔ y ^ 2 = x ^ 3 + c := by
  rw [equation_iff]; simp [shortCurve]

/-- `L² - X³ - c` has the x-coordinates of the three points of the line as roots -/
theorem chord_vieta {x₁ x₂ y₁ y₂ : K} (h₁ : y₁ ^ 2 = x₁ ^ 3 + c) (h₂ : y₂ ^ 2 = x₂ ^ 3 + c) (hxy : ¬(x₁ = x₂ ∧ y₁ = -y₂)) :
    let l := (shortCurve c).slope x₁ x₂ y₁ y₂
    let k := y₁ - l * x₁
    let x₃ := (shortCurve c).addX x₁ x₂ l
    x₁ + x₂ + x₃ = l ^ 2 ∧ x₁ * x₂ + x₁ * x₃ + x₂ * x₃ = -2 * l * k ∧ x₁ * x₂ * x₃ = k ^ 2 - c := by
  intro l k x₃
  have h := addPolynomial_slope (W := shortCurve c) (short_equation.2 h₁) (short_equation.2 h₂) (by rw [negY_short]; exact hxy)
  have e3 : x₁ + x₂ + x₃ = l ^ 2 := by simp only [x₃, addX, shortCurve]; ring
  have hev : ∀ t : K, (l * (t - x₁) + y₁) ^ 2 - (t ^ 3 + c) = -((t - x₁) * (t - x₂) * (t - x₃)) := by
    intro t
    have := congrArg (eval t) h
    simp only [addPolynomial, linePolynomial, WeierstrassCurve.Affine.polynomial, eval_sub, eval_add, eval_mul, eval_pow, eval_C, eval_X, eval_neg,
      shortCurve, C_0, zero_mul, add_zero] at this
    simpa [l, x₃, addX, shortCurve] using this
  have h0 := hev 0
  have h1 := hev 1
  have e1 : x₁ * x₂ * x₃ = k ^ 2 - c := by simp only [k]; linear_combination -h0
  refine ⟨e3, ?_, e1⟩
  simp only [k] at e1 ⊢
  linear_combination h1 + e1 + e3

/-- the value of the line, when it is not vertical -/
theorem lineAt_some {x₁ x₂ y₁ y₂ : K} (h₁ : (shortCurve c).Nonsingular x₁ y₁) (h₂ : (shortCurve c).Nonsingular x₂ y₂)
    (hxy : ¬(x₁ = x₂ ∧ y₁ = -y₂)) (x y : K) :
    lineAt (.some x₁ y₁ h₁) (.some x₂ y₂ h₂) x y =
      y - ((shortCurve c).slope x₁ x₂ y₁ y₂ * x + (y₁ - (shortCurve c).slope x₁ x₂ y₁ y₂ * x₁)) := by
  simp only [lineAt]
  rw [if_neg hxy]; ring

theorem lineAt_vert {x₁ x₂ y₁ y₂ : K} (h₁ : (shortCurve c).Nonsingular x₁ y₁) (h₂ : (shortCurve c).Nonsingular x₂ y₂)
    (hxy : x₁ = x₂ ∧ y₁ = -y₂) (x y : K) : lineAt (.some x₁ y₁ h₁) (.some x₂ y₂ h₂) x y = x - x₁ := by
  simp only [lineAt]
  rw [if_pos hxy]

theorem lineAt_zero_left (T : (shortCurve c).Point) (x y : K) : lineAt 0 T x y = 1 := by cases T <;> rfl
theorem lineAt_zero_right (T : (shortCurve c).Point) (x y : K) : lineAt T 0 x y = 1 := by cases T <;> rfl

theorem lineAt_symm (S T : (shortCurve c).Point) (x y : K) : lineAt S T x y = lineAt T S x y := by
  match S, T with
  | .zero, .zero => rfl
  | .zero, .some _ _ _ => rfl
  | .some _ _ _, .zero => rfl
  | .some x₁ y₁ h₁, .some x₂ y₂ h₂ =>
    by_cases hxy : x₁ = x₂ ∧ y₁ = -y₂
    · rw [lineAt_vert h₁ h₂ hxy, lineAt_vert h₂ h₁ ⟨hxy.1.symm, by rw [hxy.2, neg_neg]⟩, hxy.1]
    · rw [lineAt_some h₁ h₂ hxy, lineAt_some h₂ h₁ (fun e => hxy ⟨e.1.symm, by rw [e.2, neg_neg]⟩)]
      by_cases hx : x₁ = x₂
      · subst hx
        have e1 := short_eq h₁
        have e2 := short_eq h₂
        have : (y₁ - y₂) * (y₁ + y₂) = 0 := by linear_combination e1 - e2
        rcases mul_eq_zero.1 this with e | e
        · have : y₁ = y₂ := sub_eq_zero.1 e
          subst this; rfl
        · exact absurd ⟨rfl, by linear_combination e⟩ hxy
      · rw [slope_of_X_ne hx, slope_of_X_ne (Ne.symm hx)]
        have h1 : x₁ - x₂ ≠ 0 := sub_ne_zero.2 hx
        have h2 : x₂ - x₁ ≠ 0 := sub_ne_zero.2 (Ne.symm hx)
        have h3 : x₂ - x₁ = -(x₁ - x₂) := by ring
        rw [h3]
        field_simp
        ring

/-- the line at opposite points of the curve -/
theorem lineAt_conj {x₁ x₂ y₁ y₂ : K} (h₁ : (shortCurve c).Nonsingular x₁ y₁) (h₂ : (shortCurve c).Nonsingular x₂ y₂)
    (hxy : ¬(x₁ = x₂ ∧ y₁ = -y₂)) {x y : K} (h : y ^ 2 = x ^ 3 + c) :
    lineAt (.some x₁ y₁ h₁) (.some x₂ y₂ h₂) x y * lineAt (.some x₁ y₁ h₁) (.some x₂ y₂ h₂) x (-y) =
      -((x - x₁) * (x - x₂) * (x - (shortCurve c).addX x₁ x₂ ((shortCurve c).slope x₁ x₂ y₁ y₂))) := by
  obtain ⟨e1, e2, e3⟩ := chord_vieta (short_eq h₁) (short_eq h₂) hxy
  rw [lineAt_some h₁ h₂ hxy, lineAt_some h₁ h₂ hxy]
  linear_combination -h - x ^ 2 * e1 + x * e2 - e3

/-- reciprocity of two lines -/
theorem line_reciprocity {x₁ x₂ y₁ y₂ a₁ a₂ b₁ b₂ : K}
    (h₁ : (shortCurve c).Nonsingular x₁ y₁) (h₂ : (shortCurve c).Nonsingular x₂ y₂) (hxy : ¬(x₁ = x₂ ∧ y₁ = -y₂))
    (k₁ : (shortCurve c).Nonsingular a₁ b₁) (k₂ : (shortCurve c).Nonsingular a₂ b₂) (hab : ¬(a₁ = a₂ ∧ b₁ = -b₂))
    (x₃ y₃ a₃ b₃ : K) (hx₃ : x₃ = (shortCurve c).addX x₁ x₂ ((shortCurve c).slope x₁ x₂ y₁ y₂))
    (hy₃ : y₃ = (shortCurve c).addY x₁ x₂ y₁ ((shortCurve c).slope x₁ x₂ y₁ y₂))
    (ha₃ : a₃ = (shortCurve c).addX a₁ a₂ ((shortCurve c).slope a₁ a₂ b₁ b₂))
    (hb₃ : b₃ = (shortCurve c).addY a₁ a₂ b₁ ((shortCurve c).slope a₁ a₂ b₁ b₂)) :
    lineAt (.some x₁ y₁ h₁) (.some x₂ y₂ h₂) a₁ b₁ * lineAt (.some x₁ y₁ h₁) (.some x₂ y₂ h₂) a₂ b₂ *
        lineAt (.some x₁ y₁ h₁) (.some x₂ y₂ h₂) a₃ (-b₃) =
      -(lineAt (.some a₁ b₁ k₁) (.some a₂ b₂ k₂) x₁ y₁ * lineAt (.some a₁ b₁ k₁) (.some a₂ b₂ k₂) x₂ y₂ *
        lineAt (.some a₁ b₁ k₁) (.some a₂ b₂ k₂) x₃ (-y₃)) := by
  obtain ⟨e1, e2, e3⟩ := chord_vieta (short_eq h₁) (short_eq h₂) hxy
  obtain ⟨f1, f2, f3⟩ := chord_vieta (short_eq k₁) (short_eq k₂) hab
  simp only [← hx₃] at e1 e2 e3
  simp only [← ha₃] at f1 f2 f3
  have hs : ∀ {x₁ x₂ y₁ y₂ : K}, (shortCurve c).Nonsingular x₁ y₁ → (shortCurve c).Nonsingular x₂ y₂ → ¬(x₁ = x₂ ∧ y₁ = -y₂) →
      y₂ = (shortCurve c).slope x₁ x₂ y₁ y₂ * x₂ + (y₁ - (shortCurve c).slope x₁ x₂ y₁ y₂ * x₁) := by
    intro x₁ x₂ y₁ y₂ h₁ h₂ hxy
    by_cases hx : x₁ = x₂
    · subst hx
      have e1 := short_eq h₁
      have e2 := short_eq h₂
      have : (y₁ - y₂) * (y₁ + y₂) = 0 := by linear_combination e1 - e2
      rcases mul_eq_zero.1 this with e | e
      · linear_combination -e
      · exact absurd ⟨rfl, by linear_combination e⟩ hxy
    · rw [slope_of_X_ne hx]
      have h1 : x₁ - x₂ ≠ 0 := sub_ne_zero.2 hx
      field_simp
      ring
  have hx2 := hs h₁ h₂ hxy
  have ha2 := hs k₁ k₂ hab
  have hx3 : -y₃ = (shortCurve c).slope x₁ x₂ y₁ y₂ * x₃ + (y₁ - (shortCurve c).slope x₁ x₂ y₁ y₂ * x₁) := by
    rw [hy₃, hx₃]; simp only [addY, negAddY, negY, shortCurve]; ring
  have ha3 : -b₃ = (shortCurve c).slope a₁ a₂ b₁ b₂ * a₃ + (b₁ - (shortCurve c).slope a₁ a₂ b₁ b₂ * a₁) := by
    rw [hb₃, ha₃]; simp only [addY, negAddY, negY, shortCurve]; ring
  simp only [lineAt_some h₁ h₂ hxy, lineAt_some k₁ k₂ hab]
  generalize (shortCurve c).slope x₁ x₂ y₁ y₂ = l at *
  generalize (shortCurve c).slope a₁ a₂ b₁ b₂ = m at *
  obtain ⟨kl, hkl⟩ : ∃ kl, kl = y₁ - l * x₁ := ⟨_, rfl⟩
  obtain ⟨km, hkm⟩ : ∃ km, km = b₁ - m * a₁ := ⟨_, rfl⟩
  have hx1 : y₁ = l * x₁ + kl := by rw [hkl]; ring
  have ha1 : b₁ = m * a₁ + km := by rw [hkm]; ring
  rw [← hkl] at e2 e3 hx2 hx3 ⊢
  rw [← hkm] at f2 f3 ha2 ha3 ⊢
  rw [hx3, ha3]
  rw [hx2, ha2, hx1, ha1]
  have p1 : ∀ d e : K, (d * x₁ + e) * (d * x₂ + e) * (d * x₃ + e) = d ^ 3 * (kl ^ 2 - c) + d ^ 2 * e * (-2 * l * kl) + d * e ^ 2 * l ^ 2 + e ^ 3 := by
    intro d e; linear_combination d ^ 3 * e3 + d ^ 2 * e * e2 + d * e ^ 2 * e1
  have p2 : ∀ d e : K, (d * a₁ + e) * (d * a₂ + e) * (d * a₃ + e) = d ^ 3 * (km ^ 2 - c) + d ^ 2 * e * (-2 * m * km) + d * e ^ 2 * m ^ 2 + e ^ 3 := by
    intro d e; linear_combination d ^ 3 * f3 + d ^ 2 * e * f2 + d * e ^ 2 * f1
  have q1 := p1 (l - m) (kl - km)
  have q2 := p2 (m - l) (km - kl)
  linear_combination q1 + q2

end

end APS
