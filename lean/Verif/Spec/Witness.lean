import Verif.Spec.Source
import Verif.Model.Witness

/-! Specification vocabulary for witness calculation. -/
namespace APS.Spec
open APS.Circuit

/-- the Go function `k ↦ ScalarBaseMult(k).X()` represents the function `gx` on the field -/
def GxRep {q : Nat} (gxI : Int → Int) (gx : ZMod q → ZMod q) : Prop := ∀ k : Int, 0 ≤ k → (gxI k : ZMod q) = gx k

/-- position `j` occurs in the dense row -/
def MentionsD (row : Row (List Int)) (j : Nat) : Prop :=
  row.L.getD j 0 ≠ 0 ∨ row.R.getD j 0 ≠ 0 ∨ row.E.getD j 0 ≠ 0 ∨ row.O.getD j 0 ≠ 0

/-- position `j` is the position of a bit of some number -/
def IsBitPos (sp : SplitMap) (j : Nat) : Prop := ∃ e ∈ sp, j ∈ e.2

/-- The first row that reads a bit reads it with coefficient 1 (or not at all) on each side. -/
def BitsReadPlain (q : Nat) (sp : SplitMap) (rows : List (Row (List Int))) : Prop :=
  ∀ pre row post, rows = pre ++ row :: post → ∀ j, IsBitPos sp j → (∀ r ∈ pre, ¬ MentionsD r j) →
    ∀ e ∈ [row.L.getD j 0, row.R.getD j 0, row.E.getD j 0, row.O.getD j 0], e = 0 ∨ ((e : Int) : ZMod q) = 1

/-- all four sides of all rows have one entry per witness position -/
def Rectangular {α : Type} (size : α → Nat) (n : Nat) (rows : List (Row α)) : Prop :=
  ∀ row ∈ rows, size row.L = n ∧ size row.R = n ∧ size row.E = n ∧ size row.O = n

/-- The list of input values gives each main input the value `vals`, in canonical form, and nothing else. -/
structure InputsFor {q : Nat} (I : List Name) (vals : Name → ZMod q) (inputs : List (Name × Int)) : Prop where
  all : ∀ n ∈ I, ∃ e ∈ inputs, e.1 = n
  val : ∀ e ∈ inputs, e.1 ∈ I ∧ e.2 = ((vals e.1).val : Int)

/-- the name of the randomizer wire is not used by the program -/
def NoRandName (I P : List Name) (s : St) : Prop :=
  randIn ∉ oneName :: P ∧ randIn ∉ I ∧ randIn ∉ s.c.computed

instance (I P : List Name) (s : St) : Decidable (NoRandName I P s) := by unfold NoRandName; infer_instance

end APS.Spec
