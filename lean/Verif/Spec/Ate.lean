import Verif.Proofs.BnOrder
import Verif.Proofs.PointMap
import Verif.Model.Optate

/-! The optimal ate pairing of the BN curve, as in the literature (Vercauteren 2008; Naehrig, Niederhagen, Schwabe 2010,
algorithm 1), with affine points and Mathlib's group law.

`E2` is embedded into the curve over `F_{p¹²}` by the untwisting map `ψ (x, y) = (x ω², y ω³)`, `E1` by inclusion. -/
namespace APS.Spec
open APS.Pairing WeierstrassCurve.Affine

/-- the line through two points of a curve, evaluated at `(x, y)`: the tangent if they are equal, the vertical line if they are
opposite, 1 if one of them is infinity -/
def lineAt {F : Type} [Field F] [DecidableEq F] {b : F} (S T : (shortCurve b).Point) (x y : F) : F :=
  match S, T with
  | .some x₁ y₁ _, .some x₂ y₂ _ =>
    if x₁ = x₂ ∧ y₁ = -y₂ then x - x₁ else y - ((shortCurve b).slope x₁ x₂ y₁ y₂ * (x - x₁) + y₁)
  | _, _ => 1

noncomputable instance decEqFp12 : DecidableEq (Fp12 P) := Classical.decEq _

/-- inclusion `F_{p²} → F_{p¹²}` -/
noncomputable def of2 : Fp2 P →+* Fp12 P := (algebraMap (Fp6 P) (Fp12 P)).comp (AdjoinRoot.of _)

/-- inclusion `F_p → F_{p¹²}` -/
noncomputable def of1 : ZMod P →+* Fp12 P := of2.comp (algebraMap (ZMod P) (Fp2 P))

/-- `ω` -/
noncomputable def omega : Fp12 P := ⟨0, 1⟩

theorem omega_pow_two : omega ^ 2 = algebraMap (Fp6 P) (Fp12 P) (tau P) := omega_sq P

theorem omega_pow_six : omega ^ 6 = of2 (xi P) := by
  rw [show 6 = 2 * 3 from rfl, pow_mul, omega_pow_two, ← map_pow, tau_cube]; rfl

theorem omega_ne : omega ≠ 0 := by
  intro h
  have := omega_pow_six
  rw [h, zero_pow (by norm_num)] at this
  exact xi_ne P ((map_eq_zero of2).1 this.symm)

/-- the curve `y² = x³ + 3` over `F_{p¹²}` -/
noncomputable abbrev E12 : WeierstrassCurve.Affine (Fp12 P) := shortCurve 3

theorem psi_b : of2 (val2 P twistB) * omega ^ 6 = 3 := by
  rw [omega_pow_six, ← map_mul, twistB_eq, map_ofNat]

/-- the untwisting map `(x, y) ↦ (x ω², y ω³)` -/
noncomputable def psi : (E2 P).Point →+ E12.Point := pointMap of2 omega_ne psi_b

/-- the inclusion of the points of G1, `(x, y) ↦ (x, y)` -/
noncomputable def phi : (E1 P).Point →+ E12.Point := pointMap of1 (u := 1) one_ne_zero (by rw [map_ofNat, one_pow, mul_one])

instance : CharP (Fp2 P) P := charP_fp2 P

theorem frob_b : (frobenius (Fp2 P) P) (val2 P twistB) * val2 P xiToPMinus1Over6 ^ 6 = val2 P twistB := by
  have h : (val2 P twistB) ^ P * xi P ^ P = 3 := by
    rw [← mul_pow, twistB_eq]
    have := map_ofNat (frobenius (Fp2 P) P) 3
    rwa [frobenius_def] at this
  have e : xi P ^ P = xi P ^ (P - 1) * xi P := by rw [← pow_succ]; rfl
  rw [frobenius_def, ← xi_pow_p16, ← pow_mul, show (P - 1) / 6 * 6 = P - 1 by decide +kernel]
  apply mul_right_cancel₀ (xi_ne P)
  rw [mul_assoc, ← e, h, twistB_eq]

theorem frobU_ne : val2 P xiToPMinus1Over6 ≠ 0 := by
  rw [← xi_pow_p16]; exact pow_ne_zero _ (xi_ne P)

/-- the Frobenius `π` on the twist: `ψ (π Q)` is `ψ Q` with both coordinates raised to the power `p` (see `psi_frob`) -/
noncomputable def frobTw : (E2 P).Point →+ (E2 P).Point := pointMap (frobenius (Fp2 P) P) frobU_ne frob_b

/-- one iteration of Miller's algorithm at `X = (x, y)`: the state is the value of the function and a multiple of `Q` -/
noncomputable def millerStepAff (Q : (E2 P).Point) (x y : Fp12 P) (s : Fp12 P × (E2 P).Point) (d : Int) : Fp12 P × (E2 P).Point :=
  let f := s.1 ^ 2 * lineAt (psi s.2) (psi s.2) x y
  let T := s.2 + s.2
  if d = 1 then (f * lineAt (psi T) (psi Q) x y, T + Q)
  else if d = -1 then (f * lineAt (psi T) (psi (-Q)) x y, T - Q)
  else (f, T)

/-- Miller's algorithm for the digits of `6u + 2` (most significant digit, which is 1, first), and the two last lines -/
noncomputable def millerAff (Q : (E2 P).Point) (x y : Fp12 P) : Fp12 P :=
  let s := (sixuPlus2NAF.dropLast.reverse).foldl (millerStepAff Q x y) (1, Q)
  let f := s.1 * lineAt (psi s.2) (psi (frobTw Q)) x y
  let T := s.2 + frobTw Q
  f * lineAt (psi T) (psi (-frobTw (frobTw Q))) x y

/-- the optimal ate pairing -/
noncomputable def ate (A : (E1 P).Point) (Q : (E2 P).Point) : Fp12 P :=
  match A with
  | .zero => 1
  | .some x y _ => if Q = 0 then 1 else millerAff Q (of1 x) (of1 y) ^ ((P ^ 12 - 1) / Order)

end APS.Spec
