import Mathlib.Data.ZMod.Basic
import Mathlib.Algebra.Polynomial.Basic
import Mathlib.Algebra.Polynomial.Eval.Defs

/-! Specification vocabulary, independent of the model's functions. -/
namespace APS.Spec
open Polynomial

/-- `r` is the canonical representative of the residue class of `a` modulo `q`. -/
def IsRep (q : Nat) (r a : Int) : Prop := 0 ≤ r ∧ r < q ∧ r ≡ a [ZMOD q]

/-- every entry is a canonical residue -/
def Canon (q : Nat) (l : List Int) : Prop := ∀ x ∈ l, 0 ≤ x ∧ x < (q : Int)

/-- The polynomial over `ZMod q` denoted by a coefficient list, lowest coefficient first. -/
noncomputable def poly (q : Nat) : List Int → (ZMod q)[X]
  | [] => 0
  | a :: l => C (a : ZMod q) + X * poly q l

end APS.Spec
