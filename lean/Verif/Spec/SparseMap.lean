import Mathlib.Logic.Function.Basic

/-! Specification of a sparse array: a total map from index to integer, absent = 0. -/
namespace APS.Spec

/-- operations of the sparse array API -/
inductive Op where
  /-- `Put(k, v, f)` with a callback that never panics: new value `f old v` (`Insert` is `f = fun _ v => v`) -/
  | put (k : Nat) (v : Int) (f : Int → Int → Int)
  /-- `Remove(k)` -/
  | remove (k : Nat)
  /-- `InsertNoOverwriteAllowed(k, v)` -/
  | insertNew (k : Nat) (v : Int)

/-- effect of one operation on the abstract map -/
def mapStep (m : Nat → Int) : Op → (Nat → Int)
  | .put k v f => Function.update m k (f (m k) v)
  | .remove k => Function.update m k 0
  | .insertNew k v => Function.update m k v

/-- the abstract map after a history -/
def mapRun (ops : List Op) : Nat → Int := ops.foldl mapStep (fun _ => 0)

/-- the operation is one the API contract allows in state `m`: only present keys are removed, and
no-overwrite insertion is used on absent keys only -/
def Allowed (m : Nat → Int) : Op → Prop
  | .put .. => True
  | .remove k => m k ≠ 0
  | .insertNew k _ => m k = 0

/-- every operation of the history is allowed when it is issued -/
def AllAllowed (m : Nat → Int) : List Op → Prop
  | [] => True
  | op :: ops => Allowed m op ∧ AllAllowed (mapStep m op) ops

end APS.Spec
