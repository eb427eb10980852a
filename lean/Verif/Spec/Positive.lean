import Verif.Spec.Lang

/-! Expressions of sums and products, for the claim that the compiler always finishes on them. -/
namespace APS.LangSpec
open APS.ParseSpec (Ex indexText)
open APS.Circuit (Name)

/-- the value of a decimal number -/
def lit : Ex → Nat
  | .num w => Nat.ofDigitChars 10 w 0
  | _ => 0

/-- built from the names `xs`, elements of arrays `a[2][3]` with a name in `xs`, and decimal numbers other than 0 with `+` and `*`, in any nesting -/
inductive SumProd (xs : List Name) : Ex → Prop
  | num {w} : APS.Spec.IsLit w → Nat.ofDigitChars 10 w 0 ≠ 0 → SumProd xs (.num w)
  | var {x} : x ∈ xs → SumProd xs (.var x)
  | elem {a is} : is ≠ [] → (∀ w ∈ is, APS.Spec.IsLit w ∧ Nat.ofDigitChars 10 w 0 < 2 ^ 63) → a ++ indexText ((is.map .num).map lit) ∈ xs →
      SumProd xs (.arr a (is.map .num))
  | paren {e} : SumProd xs e → SumProd xs (.paren e)
  | add {l r} : SumProd xs l → SumProd xs r → SumProd xs (.bin ⟨.arithmetic, ['+']⟩ l r)
  | mul {l r} : SumProd xs l → SumProd xs r → SumProd xs (.bin ⟨.arithmetic, ['*']⟩ l r)

/-- value of such an expression in the natural numbers when all variables are 1 -/
def atOnes : Ex → Nat
  | .num w => Nat.ofDigitChars 10 w 0
  | .var _ | .arr _ _ => 1
  | .paren e => atOnes e
  | .bin op l r => if op.text = ['+'] then atOnes l + atOnes r else if op.text = ['*'] then atOnes l * atOnes r else 0
  | _ => 0

/-- value of such an expression in a semiring, when the variables have the values `vals` -/
def valueOf {R : Type} [Semiring R] (vals : Name → R) : Ex → R
  | .num w => (Nat.ofDigitChars 10 w 0 : Nat)
  | .var x => vals x
  | .arr a idx => vals (a ++ indexText (idx.map lit))
  | .paren e => valueOf vals e
  | .bin op l r => if op.text = ['+'] then valueOf vals l + valueOf vals r else if op.text = ['*'] then valueOf vals l * valueOf vals r else 0
  | _ => 0

/-- `equal(l, r)` for each of the pairs -/
def equations (eqs : List (Ex × Ex)) : List Stm := eqs.map fun e => .call kwEqual [e.1, e.2]

/-- number of multiplication signs -/
def muls : Ex → Nat
  | .paren e => muls e
  | .bin op l r => muls l + muls r + if op.text = ['*'] then 1 else 0
  | _ => 0

/-- number of multiplication signs in equations, and one for each equation -/
def equationsSize : List (Ex × Ex) → Nat
  | [] => 0
  | e :: eqs => muls e.1 + muls e.2 + 1 + equationsSize eqs

/-- The numbers of which the names of gates are made have at least 16 digits, so that `String()[:16]` exists.  (A hash of 128 bits has
fewer with a probability below 10^-23.) -/
structure LongHash (H : Name → Nat) : Prop where
  text : ∀ t, 10 ^ 15 ≤ H t
  gate : ∀ a b c, 10 ^ 15 ≤ (H a + H b) ^^^ H c

end APS.LangSpec
