import Verif.Spec.Basic
import Mathlib.Algebra.Polynomial.Coeff

/-! Specification vocabulary for sparse polynomials. -/
namespace APS.Spec
open Polynomial

/-- The array content `m` (index ↦ integer, absent = 0) denotes the polynomial `P` over `ZMod q`. -/
def Denotes (q : Nat) (m : Nat → Int) (P : (ZMod q)[X]) : Prop := ∀ k, P.coeff k = (m k : ZMod q)

/-- no stored coefficient is a non-zero multiple of `q` (in particular all arrays with values in `[0,q)`) -/
def Reduced (q : Nat) (m : Nat → Int) : Prop := ∀ k, m k ≠ 0 → ¬ (q : Int) ∣ m k

end APS.Spec
