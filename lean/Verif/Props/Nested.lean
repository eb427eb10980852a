import Verif.Proofs.Nested

/-! C48, C83: nested statements and if chains. -/
namespace APS.Prog
open APS.Lex (Token TokenType tokenize stackAllTokens)
open APS.Parse (Constraint statementMode Sent)
open APS.ProgSpec
open APS.Circuit

/-- C48: a `for`, a function or a branch is split off exactly up to its own end, for any nesting inside (also of ifs). -/
theorem C48_nested {c : Constraint} (hc : opensNested c.output.type = true) (body : List Code) (h : okCodes body)
    (r : List Constraint) : splitAtNestedEnd (c :: (emitAll body ++ nestedEnd :: r)) = some (c :: emitAll body, r) :=
  split_nested hc (even_emitAll body h) r

/-- C48 for chains without further chains inside: the chain is split off exactly.  Missing: chains with chains inside,
where it is false (`C48_refuted`). -/
theorem C48_chain_partial {c : Constraint} {body : List Code} {more : List (Constraint × List Code)}
    (h : (Code.chain c body more).ok) (hi : nestedIf body more = false) (r : List Constraint) :
    splitAtIfEnd (emit (.chain c body more) ++ r) =
      some (c :: (emitAll body ++ nestedEnd :: emitBranches more), chainEnd :: r) := split_chain h hi r

/-- C48 is FALSE: EVERY if chain with a further chain inside, at any depth and in any branch, crashes the compiler. -/
theorem C48_refuted {c : Constraint} {body : List Code} {more : List (Constraint × List Code)}
    (h : (Code.chain c body more).ok) (hi : nestedIf body more = true) (r : List Constraint) (n : Nat) (m : Mem) (cur : Nat) :
    preCompile n m cur (emit (.chain c body more) ++ r) = none := nested_panics h hi r n m cur

/-- the constraints of a program text -/
def parseText (src : String) : Option (List Constraint) :=
  match tokenize (10 * src.length + 10) src.toList with
  | some (.closed toks) => (statementMode (fun _ => none) (src.length + 2) (stackAllTokens toks)).map Sent.sent
  | _ => none

/-- the returned linear form of a program text -/
def runText (H : Name → Nat) (q n : Nat) (src : String) : Option Factors := do
  let cs ← parseText src
  let m ← program cs
  let (f, _) ← execute H q n m
  pure f

/-- a chain inside a loop inside the `else` branch of a chain -/
def sampleChain : Code :=
  .chain (node .ifT []) [.simple (node .varOverload [])]
    [(node .elseT [], [.block (node .forT []) [.chain (node .ifT []) [.simple (node .ret [])] []]])]

example : sampleChain.ok ∧ (∃ c b ms, sampleChain = .chain c b ms ∧ nestedIf b ms = true) := by
  refine ⟨?_, _, _, _, rfl, rfl⟩
  simp [sampleChain, Code.ok, okCodes, okBranches, okBranch, node, Constraint.output, opensNested]

example : ∃ c b ms, (Code.chain c b ms).ok ∧ nestedIf b ms = false ∧ ms ≠ [] :=
  ⟨node .ifT [], [.simple (node .varOverload [])], [(node .elseT [], [])], by
    simp [Code.ok, okCodes, okBranches, okBranch, node, Constraint.output, opensNested], rfl, by simp⟩

/-- a text with an if inside an if is parsed, and then crashes the compiler -/
example : (parseText "func main(x,y){\nif 1==1 {\nif 1==1 {\nreturn x\n}else{\nreturn y\n}\n}else{\nreturn y\n}\nreturn x\n}").isSome = true ∧
    (parseText "func main(x,y){\nif 1==1 {\nif 1==1 {\nreturn x\n}else{\nreturn y\n}\n}else{\nreturn y\n}\nreturn x\n}").bind program = none := by
  constructor <;> decide +kernel

/-! ### C83 -/

/-- C83 is FALSE: after a branch that does not return, the following branches are executed too:
the program below returns `y` although the condition is true.  (No gate is made, so the hash function is irrelevant.) -/
theorem C83_refuted :
    runText (fun _ => 0) 10007 100 "func main(x,y){\nvar a = 0\nif 1==1 {\na = x\n}else{\na = y\n}\nreturn a\n}" =
      some [argF ['y'] 1] := by
  decide +kernel

end APS.Prog
