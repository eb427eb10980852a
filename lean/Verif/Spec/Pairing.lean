import Mathlib.Algebra.QuadraticAlgebra.Basic
import Mathlib.AlgebraicGeometry.EllipticCurve.Affine.Point
import Mathlib.RingTheory.AdjoinRoot
import Mathlib.Algebra.Field.ZMod
import Verif.Model.Curve

/-! What the elements and points of package bn256 stand for. -/
namespace APS.Spec
open APS.Pairing Polynomial

/-- `F_p[i]/(i² + 1)`: Mathlib's quadratic algebra with `ω² = -1` -/
abbrev Fp2 (p : Nat) := QuadraticAlgebra (ZMod p) (-1) 0

/-- the element `x i + y` a gfP2 stands for -/
def val2 (p : Nat) (a : Gfp2) : Fp2 p := ⟨(a.y : ZMod p), (a.x : ZMod p)⟩

/-- `ξ = i + 9` -/
def xi (p : Nat) : Fp2 p := ⟨9, 1⟩

/-- `F_{p²}[τ]/(τ³ - ξ)` -/
noncomputable abbrev Fp6 (p : Nat) := AdjoinRoot (X ^ 3 - C (xi p) : (Fp2 p)[X])

/-- `τ` -/
noncomputable def tau (p : Nat) : Fp6 p := AdjoinRoot.root _

/-- the element `x τ² + y τ + z` a gfP6 stands for -/
noncomputable def val6 (p : Nat) (a : Gfp6) : Fp6 p :=
  AdjoinRoot.of _ (val2 p a.x) * tau p ^ 2 + AdjoinRoot.of _ (val2 p a.y) * tau p + AdjoinRoot.of _ (val2 p a.z)

/-- `F_{p⁶}[ω]/(ω² - τ)` -/
noncomputable abbrev Fp12 (p : Nat) := QuadraticAlgebra (Fp6 p) (tau p) 0

/-- the element `x ω + y` a gfP12 stands for -/
noncomputable def val12 (p : Nat) (a : Gfp12) : Fp12 p := ⟨val6 p a.y, val6 p a.x⟩

/-- the curve `y² = x³ + b` over a field -/
def shortCurve {F : Type} [Field F] (b : F) : WeierstrassCurve.Affine F := ⟨0, 0, 0, 0, b⟩

/-- Jacobian coordinates: `(X, Y, Z)` with `Z ≠ 0` is the point `(X/Z², Y/Z³)`, `Z = 0` is the point at infinity. -/
def JRep {F : Type} [Field F] {b : F} (X Y Z : F) : (shortCurve b).Point → Prop
  | .zero => Z = 0
  | .some x y _ => Z ≠ 0 ∧ X = x * Z ^ 2 ∧ Y = y * Z ^ 3

/-- the curve of G₁, `y² = x³ + 3` over `F_p` -/
abbrev E1 (p : Nat) [Fact p.Prime] : WeierstrassCurve.Affine (ZMod p) := shortCurve 3

/-- the point `a` stands for the curve point `Q`.  The code tests `z` against the number 0, so `z` must not be another
multiple of `p`; it is never negative. -/
def Rep1 (p : Nat) [Fact p.Prime] (a : Pt Int) (Q : (E1 p).Point) : Prop :=
  JRep (a.x : ZMod p) (a.y : ZMod p) (a.z : ZMod p) Q ∧ 0 ≤ a.z ∧ ((p : Int) ∣ a.z → a.z = 0)

/-- the curve of G₂, `y² = x³ + twistB` over `F_{p²}` (a field when -1 is no square) -/
abbrev E2 (p : Nat) [Fact p.Prime] [Fact (∀ r : ZMod p, r ^ 2 ≠ -1 + 0 * r)] : WeierstrassCurve.Affine (Fp2 p) :=
  shortCurve (val2 p twistB)

/-- the point `a` of the twist stands for `Q`; as in `Rep1`, `z` is the pair (0, 0) if it represents zero. -/
def Rep2 (p : Nat) [Fact p.Prime] [Fact (∀ r : ZMod p, r ^ 2 ≠ -1 + 0 * r)] (a : Pt Gfp2) (Q : (E2 p).Point) : Prop :=
  JRep (val2 p a.x) (val2 p a.y) (val2 p a.z) Q ∧ 0 ≤ a.z.y ∧ (val2 p a.z = 0 → a.z = ⟨0, 0⟩)

end APS.Spec
