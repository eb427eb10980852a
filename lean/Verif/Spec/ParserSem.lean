import Verif.Spec.Parser
import Verif.Model.Compile

/-! What a parse tree denotes, and what a written expression denotes: independent of the parser. -/
namespace APS.ParseSpec
open APS.Lex (Token TokenType)
open APS.Parse (Constraint)
open APS.Circuit (Expr)

/-- an arithmetic operation by its sign -/
def opExpr (op : Token) (a b : Expr) : Option Expr :=
  if op.type = .arithmetic then
    if op.text = ['+'] then some (.add a b)
    else if op.text = ['-'] then some (.sub a b)
    else if op.text = ['*'] then some (.mul a b)
    else if op.text = ['/'] then some (.div a b)
    else none
  else none

/-- The operation tree denoted by a parse tree (numbers, variables, the four operations): an unnamed node with one child
is that child, one with three children is the operation named by the first, applied to the second and third. -/
def denote : Constraint → Option Expr
  | .mk t [] => match t.type with
    | .number => some (.num t.text)
    | .identifier => some (.var t.text)
    | _ => none
  | .mk t [a] => if t.type = .unassigned then denote a else none
  | .mk t [o, a, b] => if t.type = .unassigned then do
      let x ← denote a
      let y ← denote b
      opExpr o.output x y
    else none
  | _ => none

/-- The operation tree a written expression shows: parentheses group, nothing else does. -/
def Ex.shows : Ex → Option Expr
  | .num w => some (.num w)
  | .var w => some (.var w)
  | .bin op l r => do
    let x ← l.shows
    let y ← r.shows
    opExpr op x y
  | .paren e => e.shows
  | _ => none

/-- the sign of an arithmetic operator -/
def arith (c : Char) : Token := ⟨.arithmetic, [c]⟩

/-- an operation tree written with all its parentheses -/
def full : Expr → Ex
  | .num w => .num w
  | .var w => .var w
  | .add a b => .bin (arith '+') (.paren (full a)) (.paren (full b))
  | .sub a b => .bin (arith '-') (.paren (full a)) (.paren (full b))
  | .mul a b => .bin (arith '*') (.paren (full a)) (.paren (full b))
  | .div a b => .bin (arith '/') (.paren (full a)) (.paren (full b))
  | .baseMul a => full a
  | .addGate a _ => full a

/-- only numbers, variables and the four operations -/
def Plain : Expr → Prop
  | .num w => Inert w
  | .var w => Inert w
  | .add a b | .sub a b | .mul a b | .div a b => Plain a ∧ Plain b
  | .baseMul _ | .addGate _ _ => False

/-! ### sequences without parentheses -/

/-- `x₀ o₁ x₁ o₂ x₂ …` -/
def chainTokens (x : Token) : List (Char × Token) → List Token
  | [] => [x]
  | (o, y) :: more => x :: arith o :: chainTokens y more

/-- grouped from the right -/
def groupRight (x : Expr) : List (Char × Expr) → Option Expr
  | [] => some x
  | (o, y) :: more => do
    let r ← groupRight y more
    opExpr (arith o) x r

/-- grouped from the left, as usual for operators of equal precedence -/
def groupLeft (x : Expr) : List (Char × Expr) → Option Expr
  | [] => some x
  | (o, y) :: more => do
    let l ← opExpr (arith o) x y
    groupLeft l more

/-! ### array names -/

/-- all index tuples below the dimensions, the last index running fastest -/
def tuples : List Nat → List (List Nat)
  | [] => [[]]
  | d :: ds => (List.range d).flatMap fun j => (tuples ds).map (j :: ·)

/-- `[i][j]…` in decimal -/
def indexText (is : List Nat) : List Char := is.flatMap fun i => '[' :: (Nat.toDigits 10 i ++ [']'])

end APS.ParseSpec
