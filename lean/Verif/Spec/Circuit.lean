import Verif.Model.R1CS
import Mathlib.Data.ZMod.Basic
import Mathlib.Algebra.BigOperators.Group.Finset.Basic
import Mathlib.Algebra.BigOperators.Intervals

/-! Specification vocabulary for linear forms, gates and constraint rows.  Only the data types of the model are used. -/
namespace APS.Spec
open APS.Circuit

/-- value of `m·name` (or of the constant `m`) when the names have the values `ν` -/
def factorVal {q : Nat} (ν : Name → ZMod q) (f : Factor) : ZMod q :=
  (f.mul : ZMod q) * (if f.tok.isNum then 1 else ν f.tok.ident)

/-- value of a linear form -/
def formVal {q : Nat} (ν : Name → ZMod q) (f : Factors) : ZMod q := (f.map (factorVal ν)).sum

/-- What a gate says about the values `ν` of the names.  `gx e` is the X coordinate of `g^e`, modulo `q`. -/
def GateHolds {q : Nat} (gx : ZMod q → ZMod q) (ν : Name → ZMod q) (g : Gate) : Prop :=
  match g.typ with
  | .mult => formVal ν g.left * formVal ν g.right = formVal ν g.out
  | .scalarBase => gx (formVal ν g.expo) = ν g.ident
  | .equality => formVal ν g.left = formVal ν g.right
  | .zeroOrOne => ν g.ident = 0 ∨ ν g.ident = 1
  | .addition => formVal ν g.left = formVal ν g.out
  | .sumCheck => formVal ν g.left = ν g.arith.ident

instance {q : Nat} (gx : ZMod q → ZMod q) (ν : Name → ZMod q) (g : Gate) : Decidable (GateHolds gx ν g) := by
  unfold GateHolds; split <;> infer_instance

/-- inner product of a matrix row (given by its entries) with a witness vector -/
def dot (q : Nat) (entry : Nat → Int) (w : List Int) : ZMod q :=
  ∑ i ∈ Finset.range w.length, (entry i : ZMod q) * ((w.getD i 0 : Int) : ZMod q)

/-- The witness `w` satisfies the constraint with the rows `L, R, E, O` (entries as functions of the position):
`(L·w)(R·w) + X(g^(E·w)) = O·w`. -/
def RowSat (q : Nat) (gx : ZMod q → ZMod q) (L R E O : Nat → Int) (w : List Int) : Prop :=
  dot q L w * dot q R w + gx (dot q E w) = dot q O w

/-- the witness position a factor refers to: constants use position 0 -/
def pos (m : IndexMap) (f : Factor) : Nat := if f.tok.isNum then 0 else m.get f.tok.ident

/-- no two factors of the form refer to the same position -/
def Distinct (m : IndexMap) (f : Factors) : Prop := (f.map (pos m)).Nodup

/-- What constraint generation expects of a gate: sums and bit sums have no right side; the forms it writes mention each
position once; the wires written directly have a position of their own. -/
structure GateOK (m : IndexMap) (g : Gate) : Prop where
  left : Distinct m g.left
  right : Distinct m g.right
  expo : Distinct m g.expo
  out : Distinct m g.out
  shape : g.typ = .addition ∨ g.typ = .sumCheck → g.right = []
  wire : g.typ = .scalarBase ∨ g.typ = .zeroOrOne → m.has g.ident = true ∧ m.get g.ident ≠ 0
  split : g.typ = .sumCheck → m.has g.arith.ident = true

/-- the values of the names read off a witness -/
def valsOf (q : Nat) (m : IndexMap) (w : List Int) (n : Name) : ZMod q := ((w.getD (m.get n) 0 : Int) : ZMod q)

/-- every name has its own position, and the positions are 0, 1, …, length-1 -/
structure GoodIndex (m : IndexMap) : Prop where
  inj : ∀ a b, m.has a = true → m.has b = true → m.get a = m.get b → a = b
  lt : ∀ a, m.has a = true → m.get a < m.length
  onto : ∀ i < m.length, ∃ a, m.has a = true ∧ m.get a = i

/-- entries of a dense row -/
def denseEntry (row : List Int) (i : Nat) : Int := row.getD i 0

/-- entries of a sparse row: what `Get(i)` returns, 0 if there is no entry -/
def sparseEntry (t : APS.Avl.Tree) (i : Nat) : Int := (t.get i).getD 0

/-- number texts are not names with a position of their own -/
def NumAtZero (m : IndexMap) (f : Factors) : Prop := ∀ x ∈ f, x.tok.isNum = true → m.get x.tok.ident = 0

/-- no constant of the gate is written like a name that has a position of its own -/
structure NumsOK (m : IndexMap) (g : Gate) : Prop where
  left : NumAtZero m g.left
  right : NumAtZero m g.right
  expo : NumAtZero m g.expo
  out : NumAtZero m g.out

/-- what the randomizer row says -/
def RandHolds {q : Nat} (gx : ZMod q → ZMod q) (ν : Name → ZMod q) : Prop := ν randIn * ν randIn + gx (ν randIn) = ν randOut

/-- satisfaction of a dense row -/
abbrev SatD (q : Nat) (gx : ZMod q → ZMod q) (w : List Int) (row : Row (List Int)) : Prop :=
  RowSat q gx (denseEntry row.L) (denseEntry row.R) (denseEntry row.E) (denseEntry row.O) w
/-- satisfaction of a sparse row -/
abbrev SatS (q : Nat) (gx : ZMod q → ZMod q) (w : List Int) (row : Row APS.Avl.Tree) : Prop :=
  RowSat q gx (sparseEntry row.L) (sparseEntry row.R) (sparseEntry row.E) (sparseEntry row.O) w

end APS.Spec
