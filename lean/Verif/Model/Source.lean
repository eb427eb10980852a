import Verif.Model.Program

/-! From the tokens of a source text to the function objects of the program. -/
namespace APS.Prog
open APS.Lex (Token TokenType)
open APS.Parse (Constraint statementMode)
open APS.Circuit

/-- circuitcompiler/parser.go:84-87: the name of a public input.  `GetMainCircuit` is still `nil`, so `compile` finds no
variables; the model has an empty heap there. -/
def publicName (H : Name → Nat) (q n : Nat) (c : Constraint) : Option Name :=
  (resolveArray (compile H q n) 0 c.inputs c.output.text { m := {} }).map Prod.fst

/-- circuitcompiler/parser.go:68-98 `Parse` (with `checkSemantics`) after the lexer: `PublicInputs`, which begin with "1"
(Programm.go:90-96), and the function objects.  Without `done` the loop waits for ever. -/
def parse (H : Name → Nat) (q n : Nat) (readFile : List Char → Option (List Token)) (toks : List Token) : Option (List Name × Mem) := do
  let s ← statementMode readFile n toks
  if s.done then do
    let pubs ← (s.sent.filter fun c => c.output.type == .publicT).mapM (publicName H q n)
    let m ← program s.sent
    pure ("1".toList :: pubs, m)
  else none

/-- circuitcompiler/Programm.go:127-129, 628 `GetMainCircuit().Inputs` -/
def mainInputs (m : Mem) : Option (List Name) := do
  let a ← m.ownFunction 0 "main".toList
  let f ← m.objs[a]?
  pure f.inputs

end APS.Prog
