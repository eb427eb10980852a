import Verif.Spec.Lang
import Verif.Model.Program

/-!
What the parser makes of a program of Spec/Lang: the constraints of its statements (circuitcompiler/parser.go:100-422).  That
the parser does make these is proved in Proofs/ParseProgram.lean.
-/
namespace APS.LangSpec
open APS.ParseSpec (Ex tree trees indexText)
open APS.Parse (Constraint marker)
open APS.Circuit (Name)

/-- the target of an assignment -/
def target (x : Name) : List Ex → Constraint
  | [] => .mk ⟨.identifier, x⟩ []
  | i :: is => .mk ⟨.arrayCall, x⟩ (trees (i :: is))

/-- the constraint of `return e`, if there is one -/
def emitFin : Option Ex → List Constraint
  | none => []
  | some e => [marker .ret [tree e]]

mutual
/-- the constraints of a statement -/
def emit : Stm → List Constraint
  | .decl x e => [.mk ⟨.varDeclare, x⟩ [tree e]]
  | .declArr a es => [.mk ⟨.arrayDeclare, a⟩ (trees es)]
  | .assign x idx e => [marker .varOverload [target x idx, tree e]]
  | .call f args => [.mk ⟨.functionCall, f⟩ (trees args)]
  | .loop l cmp r x step body =>
    marker .forT [tree (.bin ⟨.comparator, cmp⟩ l r), marker .varOverload [target x [], tree step]] ::
      (emits body ++ [marker .nestedEnd])
  | .cond l cmp r body fin =>
    marker .ifT [tree (.bin ⟨.comparator, cmp⟩ l r)] :: (emits body ++ (emitFin fin ++ [marker .nestedEnd, marker .ifElseEnd]))
/-- the constraints of a block -/
def emits : List Stm → List Constraint
  | [] => []
  | st :: sts => emit st ++ emits sts
end

/-- the constraint of a public input: a name or an array element -/
def emitPublic (p : Name × List Nat) : Constraint := .mk ⟨.publicT, p.1⟩ (p.2.map fun k => .mk ⟨.number, Nat.toDigits 10 k⟩ [])

/-- the constraints of a function; `pubs` are the names after `public` at the beginning of its body -/
def emitFun (pubs : List (Name × List Nat)) (F : Fun) : List Constraint :=
  .mk ⟨.functionDefine, F.name⟩ (F.names.map fun x => .mk ⟨.argument, x⟩ []) ::
    (pubs.map emitPublic ++ (emits F.body ++ [marker .ret [tree F.ret]]) ++ [marker .nestedEnd])

/-- a program: its functions in the order of the text; one of them is `main` -/
structure Program where
  before : List Fun
  pubs : List (Name × List Nat)
  main : Fun
  after : List Fun

/-- the functions other than `main` -/
def Program.funs (p : Program) : List Fun := p.before ++ p.after

/-- the names of the public inputs -/
def Program.publics (p : Program) : List Name := p.pubs.map fun x => x.1 ++ indexText x.2

/-- the constraints of a program -/
def Program.emit (p : Program) : List Constraint :=
  p.before.flatMap (emitFun []) ++ (emitFun p.pubs p.main ++ p.after.flatMap (emitFun []))

/-- a well-formed program -/
structure Program.ok (p : Program) : Prop where
  main : p.main.name = "main".toList
  nodup : (p.funs.map Fun.name).Nodup
  name : ∀ F ∈ p.funs, isWord F.name = true ∧ F.name ∉ builtins
  ok : ∀ F ∈ p.funs, F.ok p.funs
  mainOk : p.main.ok p.funs
  pubs : ∀ x ∈ p.publics, x ∈ p.main.names

end APS.LangSpec
