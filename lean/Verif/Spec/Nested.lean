import Verif.Model.Program

/-! The nesting of statements, independently of how the compiler finds it. -/
namespace APS.ProgSpec
open APS.Lex (Token TokenType)
open APS.Parse (Constraint)
open APS.Prog (opensNested)

/-- Statements with their nesting: a plain constraint, a `for` or a function with its body, an if chain with the bodies of
its branches. -/
inductive Code where
  | simple (c : Constraint)
  | block (c : Constraint) (body : List Code)
  | chain (c : Constraint) (body : List Code) (more : List (Constraint × List Code))

/-- the end marks sent by the parser (parser.go:224, 245) -/
def nestedEnd : Constraint := .mk ⟨.nestedEnd, []⟩ []
def chainEnd : Constraint := .mk ⟨.ifElseEnd, []⟩ []

mutual
/-- the constraints the parser sends for a statement -/
def emit : Code → List Constraint
  | .simple c => [c]
  | .block c body => c :: (emitAll body ++ [nestedEnd])
  | .chain c body more => c :: (emitAll body ++ nestedEnd :: (emitBranches more ++ [chainEnd]))
def emitAll : List Code → List Constraint
  | [] => []
  | s :: ss => emit s ++ emitAll ss
/-- `else if` and `else` branches -/
def emitBranches : List (Constraint × List Code) → List Constraint
  | [] => []
  | b :: bs => emitBranch b ++ emitBranches bs
def emitBranch : Constraint × List Code → List Constraint
  | (c, body) => c :: (emitAll body ++ [nestedEnd])
end

mutual
/-- marks are used for what they mark -/
def Code.ok : Code → Prop
  | .simple c => opensNested c.output.type = false ∧ c.output.type ≠ .nestedEnd ∧ c.output.type ≠ .ifElseEnd
  | .block c body => (c.output.type = .forT ∨ c.output.type = .functionDefine) ∧ okCodes body
  | .chain c body more => c.output.type = .ifT ∧ okCodes body ∧ okBranches more
def okCodes : List Code → Prop
  | [] => True
  | s :: ss => s.ok ∧ okCodes ss
def okBranches : List (Constraint × List Code) → Prop
  | [] => True
  | b :: bs => okBranch b ∧ okBranches bs
def okBranch : Constraint × List Code → Prop
  | (c, body) => c.output.type = .elseT ∧ okCodes body
end

mutual
/-- there is an if chain in the statement, at any depth -/
def Code.hasIf : Code → Bool
  | .simple _ => false
  | .block _ body => hasIfs body
  | .chain _ _ _ => true
def hasIfs : List Code → Bool
  | [] => false
  | s :: ss => s.hasIf || hasIfs ss
end

/-- some branch of a chain contains a further chain -/
def nestedIf (body : List Code) (more : List (Constraint × List Code)) : Bool :=
  hasIfs body || more.any fun b => hasIfs b.2

end APS.ProgSpec
