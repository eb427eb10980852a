import Verif.Proofs.FrobTwist
import Verif.Proofs.Cocycle
import Verif.Proofs.BilinearAbs

/-! The lines of Miller's algorithm after the final exponentiation: they satisfy the hypotheses of `Bil.finA` and `Bil.finB`. -/
namespace APS
open APS.Spec APS.Pairing WeierstrassCurve.Affine

/-- inclusion `F_{p⁶} → F_{p¹²}` -/
noncomputable abbrev of6 : Fp6 P →+* Fp12 P := algebraMap (Fp6 P) (Fp12 P)
/-- inclusion `F_{p²} → F_{p⁶}` -/
noncomputable abbrev e2 : Fp2 P →+* Fp6 P := AdjoinRoot.of _
/-- inclusion `F_p → F_{p²}` -/
noncomputable abbrev e1 : ZMod P →+* Fp2 P := algebraMap _ _

theorem of2_eq (a : Fp2 P) : of2 a = of6 (e2 a) := rfl
theorem of1_eq (a : ZMod P) : of1 a = of6 (e2 (e1 a)) := rfl
theorem omega_sq' : omega ^ 2 = of6 (tau P) := omega_pow_two
theorem omega_cube : omega ^ 3 = of6 (tau P) * omega := by rw [pow_succ, omega_sq']

/-- the exponent of the final exponentiation -/
def eN : Nat := (P ^ 12 - 1) / Order

theorem comb_zero {a b : Fp6 P} (h : of6 a + of6 b * omega = 0) : a = 0 ∧ b = 0 := by
  have h1 := congrArg QuadraticAlgebra.re h
  have h2 := congrArg QuadraticAlgebra.im h
  simp [omega] at h1 h2
  exact ⟨h1, h2⟩

theorem e2_ne {a : Fp2 P} (h : a ≠ 0) : e2 a ≠ 0 := (map_ne_zero e2).2 h
theorem eN_of6 {a : Fp6 P} (h : a ≠ 0) : of6 a ^ eN = 1 := finalExp_fp6 h
theorem eN_four {c : Fp12 P} (h : c ^ 4 = 1) : c ^ eN = 1 := by
  rw [show eN = 4 * (eN / 4) by decide +kernel, pow_mul, h, one_pow]
theorem eN_neg_one : (-1 : Fp12 P) ^ eN = 1 := eN_four (by norm_num)
theorem eN_order {z : Fp12 P} (h : z ≠ 0) : (z ^ eN) ^ Order = 1 := by
  rw [← pow_mul, mul_comm, eN, order_dvd, fp12_pow_sub_one h]

theorem psi_some {x y : Fp2 P} (h : (E2 P).Nonsingular x y) : psi (.some x y h) = .some _ _ (map_nonsing of2 omega_ne psi_b h) := rfl
theorem phi_some {x y : ZMod P} (h : (E1 P).Nonsingular x y) :
    ∃ h', phi (.some x y h) = .some (of1 x) (of1 y) h' := by
  have : ∀ {a b : Fp12 P} (ha : a = of1 x) (hb : b = of1 y) (hab : E12.Nonsingular a b), ∃ h', Point.some a b hab = .some (of1 x) (of1 y) h' := by
    rintro _ _ rfl rfl h; exact ⟨h, rfl⟩
  exact this (by rw [one_pow, mul_one]) (by rw [one_pow, mul_one]) (map_nonsing of1 one_ne_zero (by rw [map_ofNat, one_pow, mul_one]) h)

/-! ### lines between points of the twist, at points of E1 -/

theorem psi_vert {x₁ x₂ y₁ y₂ : Fp2 P} : (of2 x₁ * omega ^ 2 = of2 x₂ * omega ^ 2 ∧ of2 y₁ * omega ^ 3 = -(of2 y₂ * omega ^ 3)) ↔ (x₁ = x₂ ∧ y₁ = -y₂) := by
  have := map_negY_iff (b := val2 P twistB) (c := (3 : Fp12 P)) of2 omega_ne (x₁ := x₁) (x₂ := x₂) (y₁ := y₁) (y₂ := y₂)
  rwa [negY_short, negY_short] at this

theorem line_psi_vert {x₁ x₂ y₁ y₂ : Fp2 P} (h₁ : (E2 P).Nonsingular x₁ y₁) (h₂ : (E2 P).Nonsingular x₂ y₂) (hxy : x₁ = x₂ ∧ y₁ = -y₂) (x y : ZMod P) :
    lineAt (psi (.some x₁ y₁ h₁)) (psi (.some x₂ y₂ h₂)) (of1 x) (of1 y) = of6 (e2 (e1 x) - e2 x₁ * tau P) := by
  rw [psi_some, psi_some, lineAt_vert _ _ (psi_vert.2 hxy), of1_eq, of2_eq, omega_sq', map_sub, map_mul]

theorem line_psi {x₁ x₂ y₁ y₂ : Fp2 P} (h₁ : (E2 P).Nonsingular x₁ y₁) (h₂ : (E2 P).Nonsingular x₂ y₂) (hxy : ¬(x₁ = x₂ ∧ y₁ = -y₂)) (x y : ZMod P) :
    lineAt (psi (.some x₁ y₁ h₁)) (psi (.some x₂ y₂ h₂)) (of1 x) (of1 y) =
      of6 (e2 (e1 y)) + of6 (-(e2 ((E2 P).slope x₁ x₂ y₁ y₂) * e2 (e1 x)) + e2 ((E2 P).slope x₁ x₂ y₁ y₂ * x₁ - y₁) * tau P) * omega := by
  rw [psi_some, psi_some, lineAt_some _ _ (fun h => hxy (psi_vert.1 h)),
    map_slope (b := val2 P twistB) of2 omega_ne (by rw [negY_short]; exact hxy)]
  simp only [of1_eq, of2_eq, map_add, map_neg, map_sub, map_mul]
  have h2 := omega_sq'
  linear_combination (of6 (e2 ((E2 P).slope x₁ x₂ y₁ y₂)) * of6 (e2 x₁) * omega - of6 (e2 y₁) * omega) * h2

/-- abscissa not zero -/
def nz (S : (E2 P).Point) : Prop := ∀ x y h, S = .some x y h → x ≠ 0

theorem GG2_nz {S : (E2 P).Point} (h : S ∈ GG2) : nz S := by
  rintro x y hn rfl; exact (GG2_coord h).1

theorem e1_e2_tau {x : ZMod P} {x₁ : Fp2 P} (h : x₁ ≠ 0) : e2 (e1 x) - e2 x₁ * tau P ≠ 0 := by
  intro h0
  have := basis_zero P (x := 0) (y := -x₁) (z := e1 x) (by
    rw [map_zero, zero_mul, zero_add, map_neg]; linear_combination h0)
  exact h (neg_eq_zero.1 this.2.1)

theorem line_psi_ne {S T : (E2 P).Point} (hS : nz S) {x y : ZMod P} (hy : y ≠ 0) :
    lineAt (psi S) (psi T) (of1 x) (of1 y) ≠ 0 := by
  match S, T, hS with
  | .zero, T, _ => exact (lineAt_zero_left (c := (3 : Fp12 P)) (psi T) _ _).trans_ne one_ne_zero
  | .some x₁ y₁ h₁, .zero, _ => exact (lineAt_zero_right (c := (3 : Fp12 P)) (psi (.some x₁ y₁ h₁)) _ _).trans_ne one_ne_zero
  | .some x₁ y₁ h₁, .some x₂ y₂ h₂, hS =>
    by_cases hxy : x₁ = x₂ ∧ y₁ = -y₂
    · rw [line_psi_vert h₁ h₂ hxy]
      exact (map_ne_zero of6).2 (e1_e2_tau (hS _ _ _ rfl))
    · rw [line_psi h₁ h₂ hxy]
      exact fun h => e2_ne ((map_ne_zero e1).2 hy) (comb_zero h).1

/-- the vertical line at the opposite of a point is removed -/
theorem line_psi_neg {S : (E2 P).Point} (hS : nz S) (x y : ZMod P) : lineAt (psi S) (psi (-S)) (of1 x) (of1 y) ^ eN = 1 := by
  match S, hS with
  | .zero, _ =>
    have := lineAt_zero_left (c := (3 : Fp12 P)) (psi (-0)) (of1 x) (of1 y)
    exact (congrArg (· ^ eN) this).trans (one_pow _)
  | .some x₁ y₁ h₁, hS =>
    rw [Point.neg_some, line_psi_vert h₁ _ ⟨rfl, by rw [negY_short, neg_neg]⟩]
    exact eN_of6 (e1_e2_tau (hS _ _ _ rfl))

/-! ### cocycle -/

theorem ev_n {S T : E12.Point} {x y : Fp12 P} (h : E12.Equation x y) : Coc.ev h (Coc.nF S T) = lineAt S T x y := by
  match S, T with
  | .zero, .zero => exact map_one _
  | .zero, .some _ _ _ => exact map_one _
  | .some _ _ _, .zero => exact map_one _
  | .some x₁ y₁ h₁, .some x₂ y₂ h₂ =>
    simp only [Coc.nF, lineAt, negY_short]
    split
    · exact Coc.ev_X h _
    · exact Coc.ev_Y h _ _ _

theorem ev_d {S T : (E2 P).Point} (hn : nz (S + T)) {x y : ZMod P} (h : E12.Equation (of1 x) (of1 y)) :
    Coc.ev h (Coc.dF (psi S) (psi T)) ≠ 0 ∧ Coc.ev h (Coc.dF (psi S) (psi T)) ^ eN = 1 := by
  have h1 : Coc.ev h 1 ≠ 0 ∧ Coc.ev h 1 ^ eN = 1 := by rw [map_one]; exact ⟨one_ne_zero, one_pow _⟩
  have key : ∀ U : (E2 P).Point, nz U → Coc.ev h (Coc.vF (psi U)) ≠ 0 ∧ Coc.ev h (Coc.vF (psi U)) ^ eN = 1 := by
    intro U hU
    match U, hU with
    | .zero, _ => exact h1
    | .some x₁ y₁ h₁, hU =>
      have : Coc.ev h (Coc.vF (psi (.some x₁ y₁ h₁))) = of6 (e2 (e1 x) - e2 x₁ * tau P) := by
        rw [psi_some]
        refine (Coc.ev_X h _).trans ?_
        rw [of1_eq, of2_eq, omega_sq', map_sub, map_mul]
      rw [this]
      exact ⟨(map_ne_zero of6).2 (e1_e2_tau (hU _ _ _ rfl)), eN_of6 (e1_e2_tau (hU _ _ _ rfl))⟩
  match S, T with
  | .zero, .zero => exact h1
  | .zero, .some _ _ _ => exact h1
  | .some _ _ _, .zero => exact h1
  | .some x₁ y₁ h₁, .some x₂ y₂ h₂ =>
    have : Coc.dF (psi (.some x₁ y₁ h₁)) (psi (.some x₂ y₂ h₂)) = Coc.vF (psi (.some x₁ y₁ h₁ + .some x₂ y₂ h₂)) := by
      rw [map_add]; rfl
    rw [this]
    exact key _ hn

theorem line_cocycle {S T U : (E2 P).Point} (h1 : nz (T + U)) (h2 : nz (S + (T + U))) (h3 : nz (S + T)) {x y : ZMod P} (hn : (E1 P).Nonsingular x y) :
    lineAt (psi S) (psi T) (of1 x) (of1 y) ^ eN * lineAt (psi (S + T)) (psi U) (of1 x) (of1 y) ^ eN =
      lineAt (psi T) (psi U) (of1 x) (of1 y) ^ eN * lineAt (psi S) (psi (T + U)) (of1 x) (of1 y) ^ eN := by
  obtain ⟨h', _⟩ := phi_some hn
  have heq : E12.Equation (of1 x) (of1 y) := h'.1
  obtain ⟨c, hc, h⟩ := Coc.cocycle_fun (psi S) (psi T) (psi U)
  have h := congrArg (Coc.ev heq) h
  simp only [map_mul, Coc.ev_const, ← map_add, ev_n] at h
  have h := congrArg (· ^ eN) h
  simp only [mul_pow, eN_four hc, one_mul] at h
  rw [(ev_d h1 heq).2, (ev_d h2 heq).2, (ev_d h3 heq).2, (ev_d (by rw [add_assoc]; exact h2) heq).2] at h
  simpa only [one_mul] using h

/-! ### Frobenius -/

instance : CharP (Fp12 P) P := charP_of_injective_ringHom (f := of1) (RingHom.injective _) P

theorem omega_frob : omega ^ P = of2 (val2 P xiToPMinus1Over6) * omega := by
  rw [← xi_pow_p16, map_pow, ← omega_pow_six, ← pow_mul, ← pow_succ, show 6 * ((P - 1) / 6) + 1 = P by decide +kernel]

theorem of1_frob (x : ZMod P) : of1 x ^ P = of1 x := by rw [← map_pow, ZMod.pow_card]

theorem line_frob (S T : (E2 P).Point) (x y : ZMod P) :
    lineAt (psi (frobTw S)) (psi (frobTw T)) (of1 x) (of1 y) = lineAt (psi S) (psi T) (of1 x) (of1 y) ^ P := by
  match S, T with
  | .zero, T => exact (lineAt_zero_left (c := (3 : Fp12 P)) (psi (frobTw T)) _ _).trans (by
      rw [show psi Point.zero = 0 from rfl, lineAt_zero_left (c := (3 : Fp12 P)), one_pow])
  | .some x₁ y₁ h₁, .zero => exact (lineAt_zero_right (c := (3 : Fp12 P)) (psi (frobTw (.some x₁ y₁ h₁))) _ _).trans (by
      rw [show psi Point.zero = 0 from rfl, lineAt_zero_right (c := (3 : Fp12 P)), one_pow])
  | .some x₁ y₁ h₁, .some x₂ y₂ h₂ =>
    rw [frobTw_some, frobTw_some, psi_some, psi_some, psi_some, psi_some]
    have hb : (frobenius (Fp2 P) P x₁ * val2 P xiToPMinus1Over6 ^ 2 = frobenius (Fp2 P) P x₂ * val2 P xiToPMinus1Over6 ^ 2 ∧
        frobenius (Fp2 P) P y₁ * val2 P xiToPMinus1Over6 ^ 3 = -(frobenius (Fp2 P) P y₂ * val2 P xiToPMinus1Over6 ^ 3)) ↔ (x₁ = x₂ ∧ y₁ = -y₂) := by
      have := map_negY_iff (b := val2 P twistB) (c := val2 P twistB) (frobenius (Fp2 P) P) frobU_ne (x₁ := x₁) (x₂ := x₂) (y₁ := y₁) (y₂ := y₂)
      rwa [negY_short, negY_short] at this
    by_cases hxy : x₁ = x₂ ∧ y₁ = -y₂
    · rw [lineAt_vert _ _ (psi_vert.2 (hb.2 hxy)), lineAt_vert _ _ (psi_vert.2 hxy), sub_pow_char, of1_frob, mul_pow, ← pow_mul, mul_comm 2 P, pow_mul,
        omega_frob, map_mul, map_pow, frobenius_def, map_pow]
      ring
    · rw [lineAt_some _ _ (fun h => hxy (hb.1 (psi_vert.1 h))), lineAt_some _ _ (fun h => hxy (psi_vert.1 h)),
        map_slope (b := val2 P twistB) of2 omega_ne (by rw [negY_short]; exact fun h => hxy (hb.1 h)),
        map_slope (b := val2 P twistB) of2 omega_ne (by rw [negY_short]; exact hxy),
        map_slope (b := val2 P twistB) (c := val2 P twistB) (frobenius (Fp2 P) P) frobU_ne (by rw [negY_short]; exact hxy)]
      generalize (E2 P).slope x₁ x₂ y₁ y₂ = l
      have hF : ∀ z : Fp12 P, z ^ P = frobenius (Fp12 P) P z := fun z => rfl
      have ho : frobenius (Fp12 P) P omega = of2 (val2 P xiToPMinus1Over6) * omega := omega_frob
      have h2 : ∀ a : Fp2 P, frobenius (Fp12 P) P (of2 a) = of2 (frobenius (Fp2 P) P a) := fun a => (map_pow of2 a P).symm
      have h1 : ∀ a : ZMod P, frobenius (Fp12 P) P (of1 a) = of1 a := of1_frob
      rw [hF]
      simp only [map_sub, map_add, map_mul, map_pow, ho, h2, h1]
      ring

end APS
