import Verif.Spec.Emit

/-! How programs of Spec/Lang are written: their tokens, with one line break after each statement and each opening brace. -/
namespace APS.LangSpec
open APS.Lex (Token TokenType)
open APS.ParseSpec (Ex write writeArgs writeIdx lpar rpar lbrk rbrk Inert okAll)
open APS.Circuit (Name)

def brk : Token := ⟨.syntax, ['\n']⟩
def lcur : Token := ⟨.syntax, ['{']⟩
def rcur : Token := ⟨.syntax, ['}']⟩
def semi : Token := ⟨.syntax, [';']⟩
def gets : Token := ⟨.assignment, ['=']⟩
def kwVar : Token := ⟨.varDeclare, "var".toList⟩
def kwIf : Token := ⟨.ifT, "if".toList⟩
def kwFor : Token := ⟨.forT, "for".toList⟩
def kwFunc : Token := ⟨.functionDefine, "func".toList⟩
def kwReturn : Token := ⟨.ret, "return".toList⟩
def kwPublic : Token := ⟨.publicT, "public".toList⟩
def eof : Token := ⟨.eof, []⟩

/-- the line `return e`, if there is one -/
def writeFin : Option Ex → List Token
  | none => []
  | some e => kwReturn :: (ParseSpec.write e ++ [brk])

mutual
/-- the tokens of a statement -/
def Stm.write : Stm → List Token
  | .decl x e => kwVar :: ⟨.identifier, x⟩ :: gets :: ParseSpec.write e
  | .declArr a es => kwVar :: ⟨.identifier, a⟩ :: lbrk :: rbrk :: gets :: lcur :: (writeArgs es ++ [rcur])
  | .assign x idx e => ⟨.identifier, x⟩ :: (writeIdx idx ++ gets :: ParseSpec.write e)
  | .call f args => ⟨.functionCall, f⟩ :: lpar :: (writeArgs args ++ [rpar])
  | .loop l cmp r x step body =>
    kwFor :: lpar :: (ParseSpec.write (.bin ⟨.comparator, cmp⟩ l r) ++ semi :: ⟨.identifier, x⟩ :: gets ::
      (ParseSpec.write step ++ rpar :: lcur :: brk :: (lines body ++ [rcur])))
  | .cond l cmp r body fin =>
    kwIf :: lpar :: (ParseSpec.write (.bin ⟨.comparator, cmp⟩ l r) ++ rpar :: lcur :: brk :: (lines body ++ (writeFin fin ++ [rcur])))
/-- a block: one statement per line -/
def lines : List Stm → List Token
  | [] => []
  | st :: sts => st.write ++ brk :: lines sts
end

/-- a parameter or public input: a name, or an array with numbers in brackets -/
def paramEx (p : Name × List Nat) : Ex := if p.2 = [] then .var p.1 else .arr p.1 (p.2.map fun d => .num (Nat.toDigits 10 d))

/-- the line `public{…}` -/
def publicLine (pubs : List (Name × List Nat)) : List Token :=
  if pubs = [] then [] else kwPublic :: lcur :: (writeArgs (pubs.map paramEx) ++ [rcur, brk])

/-- `func name(params) { public{…} body return e }` -/
def Fun.write (pubs : List (Name × List Nat)) (F : Fun) : List Token :=
  kwFunc :: ⟨.functionCall, F.name⟩ :: lpar :: (writeArgs (F.params.map paramEx) ++ rpar :: lcur :: brk ::
    (publicLine pubs ++ (lines F.body ++ kwReturn :: (ParseSpec.write F.ret ++ [brk, rcur]))))

/-- the functions, one after the other -/
def Program.tokens (p : Program) : List Token :=
  p.before.flatMap (fun F => F.write [] ++ [brk]) ++ (p.main.write p.pubs ++ brk :: p.after.flatMap (fun F => F.write [] ++ [brk]))

/-- with the mark of the end -/
def Program.write (p : Program) : List Token := p.tokens ++ [eof]

/-- The tokens read are those of the program, up to an empty line at the start of the text and the line break at its end. -/
def Program.spelled (p : Program) (ts : List Token) : Prop :=
  ∃ pre, (pre = [] ∨ pre = [brk]) ∧ (ts = pre ++ p.write ∨ ts = pre ++ (p.tokens.dropLast ++ [eof]))

instance (p : Program) (ts : List Token) : Decidable (p.spelled ts) :=
  decidable_of_iff ((ts = p.write ∨ ts = p.tokens.dropLast ++ [eof]) ∨ ts = brk :: p.write ∨ ts = brk :: (p.tokens.dropLast ++ [eof]))
    ⟨fun h => h.elim (fun h => ⟨[], .inl rfl, h⟩) fun h => ⟨[brk], .inr rfl, h⟩,
     fun ⟨pre, h1, h2⟩ => h1.elim (fun e => .inl (by subst e; exact h2)) fun e => .inr (by subst e; exact h2)⟩

theorem Program.spelled_write (p : Program) : p.spelled p.write := ⟨[], .inl rfl, .inl rfl⟩

/-- The block does not end with an `if`: after the closing brace of an `if` the parser looks at the next token of the same
block, and panics when there is none (circuitcompiler/parser.go:231).  The body of a function ends with `return`. -/
def endsPlain : List Stm → Bool
  | [] => true
  | [.cond ..] => false
  | [_] => true
  | _ :: st :: sts => endsPlain (st :: sts)

mutual
/-- The expressions are well written (Spec/Parser.lean) and the names are not punctuation. -/
def Stm.written : Stm → Prop
  | .decl x e => Inert x ∧ e.ok
  | .declArr a es => Inert a ∧ okAll es
  | .assign x idx e => Inert x ∧ okAll idx ∧ e.ok
  | .call f args => Inert f ∧ okAll args
  | .loop l cmp r x step body => (Ex.bin ⟨.comparator, cmp⟩ l r).ok ∧ Inert x ∧ step.ok ∧ writtenAll body ∧ endsPlain body = true
  | .cond l cmp r body fin => (Ex.bin ⟨.comparator, cmp⟩ l r).ok ∧ writtenAll body ∧ (∀ e, fin = some e → e.ok) ∧
      (fin = none → endsPlain body = true)
def writtenAll : List Stm → Prop
  | [] => True
  | st :: sts => st.written ∧ writtenAll sts
end

/-- names are not punctuation, the dimensions of arrays are positive numbers of the machine -/
def paramWritten (p : Name × List Nat) : Prop := Inert p.1 ∧ ∀ d ∈ p.2, 0 < d ∧ d < 2 ^ 63

def Fun.written (F : Fun) : Prop := Inert F.name ∧ (∀ p ∈ F.params, paramWritten p) ∧ writtenAll F.body ∧ F.ret.ok

/-- indices of public inputs may be zero -/
def Program.written (p : Program) : Prop :=
  (∀ F ∈ p.funs, F.written) ∧ p.main.written ∧ ∀ x ∈ p.pubs, Inert x.1 ∧ ∀ i ∈ x.2, i < 2 ^ 63

end APS.LangSpec
