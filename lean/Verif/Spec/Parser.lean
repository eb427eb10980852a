import Verif.Model.Parser

/-! What brackets and expressions are, independently of how the parser finds them. -/
namespace APS.ParseSpec
open APS.Lex (Token TokenType)
open APS.Parse (Constraint isOperator)

/-- opening minus closing brackets -/
def depth (op cl : List Char) : List Token → Int
  | [] => 0
  | t :: ts => (if t.text = op then 1 else 0) - (if t.text = cl then 1 else 0) + depth op cl ts

/-- every bracket is closed, and none is closed before it is opened -/
def Balanced (op cl : List Char) (ts : List Token) : Prop :=
  depth op cl ts = 0 ∧ ∀ p, p <+: ts → 0 ≤ depth op cl p

/-! ### expressions as they are written -/

/-- an expression as written: parentheses are kept -/
inductive Ex where
  | num (w : List Char)
  | var (w : List Char)
  | bin (op : Token) (l r : Ex)
  | paren (e : Ex)
  | call (f : List Char) (args : List Ex)
  | arr (a : List Char) (idx : List Ex)

def lpar : Token := ⟨.syntax, ['(']⟩
def rpar : Token := ⟨.syntax, [')']⟩
def lbrk : Token := ⟨.syntax, ['[']⟩
def rbrk : Token := ⟨.syntax, [']']⟩
def comma : Token := ⟨.syntax, [',']⟩

mutual
/-- the tokens of an expression -/
def write : Ex → List Token
  | .num w => [⟨.number, w⟩]
  | .var w => [⟨.identifier, w⟩]
  | .bin op l r => write l ++ op :: write r
  | .paren e => lpar :: (write e ++ [rpar])
  | .call f args => ⟨.functionCall, f⟩ :: lpar :: (writeArgs args ++ [rpar])
  | .arr a idx => ⟨.identifier, a⟩ :: writeIdx idx
/-- arguments, with commas -/
def writeArgs : List Ex → List Token
  | [] => []
  | e :: es => write e ++ writeMore es
/-- further arguments -/
def writeMore : List Ex → List Token
  | [] => []
  | e :: es => comma :: (write e ++ writeMore es)
/-- indices, each in brackets -/
def writeIdx : List Ex → List Token
  | [] => []
  | e :: es => lbrk :: (write e ++ rbrk :: writeIdx es)
end

/-- texts without a meaning of their own for the parser -/
def Inert (w : List Char) : Prop :=
  w ≠ ['('] ∧ w ≠ [')'] ∧ w ≠ ['['] ∧ w ≠ [']'] ∧ w ≠ [','] ∧ w ≠ ['\n'] ∧ w ≠ ['{'] ∧ w ≠ ['}'] ∧ w ≠ ['='] ∧ w ≠ [';']

instance (w : List Char) : Decidable (Inert w) := by unfold Inert; infer_instance

/-- no operator outside parentheses -/
def Ex.closed : Ex → Bool
  | .bin _ _ _ => false
  | _ => true

mutual
/-- An expression is well written: names are not punctuation, operators are operators, an array access has an index,
and a LEFT operand that is itself an operation is in parentheses. -/
def Ex.ok : Ex → Prop
  | .num w => Inert w
  | .var w => Inert w
  | .bin op l r => isOperator op.type = true ∧ Inert op.text ∧ l.closed = true ∧ l.ok ∧ r.ok
  | .paren e => e.ok
  | .call f args => Inert f ∧ okAll args
  | .arr a idx => Inert a ∧ idx ≠ [] ∧ okAll idx
def okAll : List Ex → Prop
  | [] => True
  | e :: es => e.ok ∧ okAll es
end

/-- the expression without the parentheses round it -/
def Ex.core : Ex → Ex
  | .paren e => e.core
  | e => e

/-- a single name or number, up to parentheses -/
def Ex.single (e : Ex) : Bool :=
  match e.core with
  | .num _ => true
  | .var _ => true
  | _ => false

/-- concatenation of the texts -/
def spell (ts : List Token) : List Char := ts.flatMap Token.text

mutual
/-- The parse tree of an expression: an operation has the operator, the left and the right operand as children.  Of two
operands one of which is a single name or number, the other one gets a node of its own. -/
def tree : Ex → Constraint
  | .num w => .mk ⟨.number, w⟩ []
  | .var w => .mk ⟨.identifier, w⟩ []
  | .paren e => tree e
  | .bin op l r =>
    let wl : Constraint := if !l.single && r.single then .mk ⟨.unassigned, spell (write l.core)⟩ [tree l] else tree l
    let wr : Constraint := if l.single && !r.single then .mk ⟨.unassigned, spell (write r.core)⟩ [tree r] else tree r
    .mk ⟨.unassigned, spell (write (.bin op l r))⟩ [.mk op [], wl, wr]
  | .call f args => .mk ⟨.functionCall, f⟩ (trees args)
  | .arr a idx => .mk ⟨.arrayCall, a⟩ (trees idx)
def trees : List Ex → List Constraint
  | [] => []
  | e :: es => tree e :: trees es
end

end APS.ParseSpec
