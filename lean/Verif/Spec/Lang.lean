import Verif.Spec.ParserSem
import Verif.Spec.Source

/-!
The language of programs with functions, loops and arrays, and what its programs compute: an interpreter over the field,
independent of the compiler.

* There is one store per call of a function.  Names are declared before they are used and not declared twice in nested
  blocks (`Fun.ok`), so blocks need no store of their own.
* The fuel bounds the depth of the recursion; more fuel gives the same result (`Proofs/Lang.lean`).
* An `if` has no `else`, no other `if` and no declarations of its own in it: C48 and C83 say what goes wrong otherwise.
* `return` stands at the end of a function, or at the end of an `if` that is not inside a loop: C97 says what goes wrong in a
  loop.
* Not in the language: `else`, functions as values.
-/
namespace APS.LangSpec
open APS.ParseSpec (Ex tuples indexText Inert)
open APS.Circuit (Name)

/-- statements -/
inductive Stm where
  /-- `var x = e` -/
  | decl (x : Name) (e : Ex)
  /-- `var a[] = {e, …}` -/
  | declArr (a : Name) (es : List Ex)
  /-- `x = e`, `a[i]… = e` -/
  | assign (x : Name) (idx : List Ex) (e : Ex)
  /-- `f(e, …)` -/
  | call (f : Name) (args : List Ex)
  /-- `for (l cmp r; x = step) { body }` -/
  | loop (l : Ex) (cmp : Name) (r : Ex) (x : Name) (step : Ex) (body : List Stm)
  /-- `if (l cmp r) { body }`; with `fin = some e`: `if (l cmp r) { body return e }` -/
  | cond (l : Ex) (cmp : Name) (r : Ex) (body : List Stm) (fin : Option Ex)

/-- `func name(params) { body return ret }`; a parameter `a[2][3]` has the dimensions 2, 3 and stands for its elements -/
structure Fun where
  name : Name
  params : List (Name × List Nat)
  body : List Stm
  ret : Ex

/-- the names of the parameters, arrays element by element -/
def Fun.names (F : Fun) : List Name := F.params.flatMap fun p => (tuples p.2).map fun is => p.1 ++ indexText is

/-- ways in which a program has no result -/
inductive Err where
  | undeclared
  | divByZero
  | assertionFailed
  | malformed
  | outOfFuel
deriving DecidableEq

/-- values of the variables -/
abbrev Store (q : Nat) := Name → Option (ZMod q)

variable {q : Nat} [Fact q.Prime]

/-- the four operations -/
def arithOp (op : Name) (x y : ZMod q) : Except Err (ZMod q) :=
  if op = ['+'] then .ok (x + y)
  else if op = ['-'] then .ok (x - y)
  else if op = ['*'] then .ok (x * y)
  else if op = ['/'] then if y = 0 then .error .divByZero else .ok (x / y)
  else .error .malformed

/-- comparison of numbers -/
def compareOp (op : Name) (x y : Nat) : Except Err Bool :=
  if op = ['=', '='] then .ok (decide (x = y))
  else if op = ['!', '='] then .ok (decide (x ≠ y))
  else if op = ['>'] then .ok (decide (x > y))
  else if op = ['>', '='] then .ok (decide (x ≥ y))
  else if op = ['<'] then .ok (decide (x < y))
  else if op = ['<', '='] then .ok (decide (x ≤ y))
  else .error .malformed

/-- value of a variable -/
def get (ρ : Store q) (x : Name) : Except Err (ZMod q) :=
  match ρ x with
  | some v => .ok v
  | none => .error .undeclared

/-- change of a variable -/
def put (ρ : Store q) (x : Name) (v : ZMod q) : Store q := fun y => if y = x then some v else ρ y

/-- the parameters with their values -/
def start (xs : List Name) (vs : List (ZMod q)) : Store q := fun x => (xs.zip vs).lookup x

/-- the function of a name -/
def find (P : List Fun) (f : Name) : Except Err Fun :=
  match P.find? (fun F => F.name = f) with
  | some F => .ok F
  | none => .error .undeclared

def kwBase : Name := "scalarBaseMultiply".toList
def kwEqual : Name := "equal".toList
def kwSplit : Name := "SPLIT".toList

/-- evaluate a list -/
def evalList {α} (ev : α → Except Err (ZMod q)) : List α → Except Err (List (ZMod q))
  | [] => .ok []
  | e :: es => do
    let v ← ev e
    let vs ← evalList ev es
    .ok (v :: vs)

/-- run a list of statements -/
def runList (run : Store q → Stm → Except Err (Store q)) : Store q → List Stm → Except Err (Store q)
  | ρ, [] => .ok ρ
  | ρ, st :: sts => do
    let ρ ← run ρ st
    runList run ρ sts

/-- Run the body `sts` of a function and find what it returns: `ret`, unless an `if` with a `return` is taken before. -/
def finish (ev : Store q → Ex → Except Err (ZMod q)) (run : Store q → Stm → Except Err (Store q)) (ret : Ex) :
    Store q → List Stm → Except Err (ZMod q)
  | ρ, [] => ev ρ ret
  | ρ, st :: sts => match st with
    | .cond l cmp r body (some e) => do
      let a ← ev ρ l
      let b ← ev ρ r
      let go ← compareOp cmp a.val b.val
      if go then do
        let ρ ← runList run ρ body
        ev ρ e
      else finish ev run ret ρ sts
    | st => do
      let ρ ← run ρ st
      finish ev run ret ρ sts

/-- name of an array element; an index is the representative of its value in `0 … q-1` -/
def element (a : Name) (is : List (ZMod q)) : Name := a ++ indexText (is.map ZMod.val)

/-- declare the elements `a[i]`, `a[i+1]`, … -/
def declareFrom (ev : Store q → Ex → Except Err (ZMod q)) (a : Name) : Nat → List Ex → Store q → Except Err (Store q)
  | _, [], ρ => .ok ρ
  | i, e :: es, ρ => do
    let v ← ev ρ e
    declareFrom ev a (i + 1) es (put ρ (a ++ indexText [i]) v)

mutual
/-- value of an expression -/
def eval (gx : ZMod q → ZMod q) (P : List Fun) : Nat → Store q → Ex → Except Err (ZMod q)
  | 0, _, _ => .error .outOfFuel
  | n + 1, ρ, e => match e with
    | .num w => .ok ((Nat.ofDigitChars 10 w 0 : Nat) : ZMod q)
    | .var x => get ρ x
    | .paren e => eval gx P n ρ e
    | .bin op l r => do
      let x ← eval gx P n ρ l
      let y ← eval gx P n ρ r
      arithOp op.text x y
    | .arr a idx => do
      let is ← evalList (eval gx P n ρ) idx
      get ρ (element a is)
    | .call f args => do
      let vs ← evalList (eval gx P n ρ) args
      if f = kwBase then match vs with
        | [v] => .ok (gx v)
        | _ => .error .malformed
      else do
        let F ← find P f
        if F.names.length = vs.length then finish (eval gx P n) (run gx P n) F.ret (start F.names vs) F.body
        else .error .malformed
/-- effect of a statement on the store -/
def run (gx : ZMod q → ZMod q) (P : List Fun) : Nat → Store q → Stm → Except Err (Store q)
  | 0, _, _ => .error .outOfFuel
  | n + 1, ρ, st => match st with
    | .decl x e => do
      let v ← eval gx P n ρ e
      .ok (put ρ x v)
    | .declArr a es => declareFrom (eval gx P n) a 0 es ρ
    | .assign x idx e => do
      let is ← evalList (eval gx P n ρ) idx
      let v ← eval gx P n ρ e
      let _ ← get ρ (element x is)
      .ok (put ρ (element x is) v)
    | .call f args =>
      if f = kwEqual then do
        let vs ← evalList (eval gx P n ρ) args
        match vs with
        | [x, y] => if x = y then .ok ρ else .error .assertionFailed
        | _ => .error .malformed
      else if f = kwSplit then do
        let _ ← evalList (eval gx P n ρ) args
        .ok ρ
      else do
        let _ ← eval gx P n ρ (.call f args)
        .ok ρ
    | .loop l cmp r x step body => do
      let a ← eval gx P n ρ l
      let b ← eval gx P n ρ r
      let go ← compareOp cmp a.val b.val
      if go then do
        let ρ ← runList (run gx P n) ρ body
        let v ← eval gx P n ρ step
        let _ ← get ρ x
        run gx P n (put ρ x v) (.loop l cmp r x step body)
      else .ok ρ
    | .cond l cmp r body fin => do
      let a ← eval gx P n ρ l
      let b ← eval gx P n ρ r
      let go ← compareOp cmp a.val b.val
      if go then match fin with
        | none => runList (run gx P n) ρ body
        | some _ => .error .malformed
      else .ok ρ
end

/-- result of the main function `F` on the given inputs -/
def runMain (gx : ZMod q → ZMod q) (P : List Fun) (F : Fun) (n : Nat) (vals : Name → ZMod q) : Except Err (ZMod q) :=
  finish (eval gx P n) (run gx P n) F.ret (fun x => if x ∈ F.names then some (vals x) else none) F.body

/-! ### well-formed programs -/

/-- names with a meaning of their own in the compiler, and the function that is compiled -/
def builtins : List Name :=
  ["BREAK", "SPLIT", "AND", "NAND", "OR", "NOT", "addGateConstraint", "scalarBaseMultiply", "equal",
    "main"].map String.toList

/-- a name: letters, digits and underscores, not beginning with a digit -/
def isWord (w : Name) : Bool :=
  match w with
  | [] => false
  | c :: cs => (APS.Lex.isLetter c || c == '_') && cs.all fun c => APS.Lex.isLetter c || APS.Lex.isDigit c || c == '_'

mutual
/-- The variables of an expression are among `vis`, the functions among `P` with the right number of arguments, the
operators are arithmetic and the numbers decimal. -/
def okEx (P : List Fun) (vis : List Name) : Ex → Prop
  | .num w => APS.Spec.IsLit w
  | .var x => x ∈ vis
  | .paren e => okEx P vis e
  | .bin op l r => op.type = .arithmetic ∧ op.text ∈ [['+'], ['-'], ['*'], ['/']] ∧ okEx P vis l ∧ okEx P vis r
  | .arr a idx => a ∈ vis ∧ idx ≠ [] ∧ okExs P vis idx
  | .call f args => okExs P vis args ∧ ((f = kwBase ∧ args.length = 1) ∨
      (f ∉ builtins ∧ ∃ F ∈ P, F.name = f ∧ F.names.length = args.length))
def okExs (P : List Fun) (vis : List Name) : List Ex → Prop
  | [] => True
  | e :: es => okEx P vis e ∧ okExs P vis es
end

/-- the name declared by a statement, directly in its block -/
def Stm.declares : Stm → List Name
  | .decl x _ => [x]
  | .declArr a _ => [a]
  | _ => []

/-- the names declared directly in a block -/
def declared (sts : List Stm) : List Name := sts.flatMap Stm.declares

mutual
/-- there is no `if` in the statement -/
def Stm.ifFree : Stm → Bool
  | .loop _ _ _ _ _ body => ifFrees body
  | .cond .. => false
  | _ => true
def ifFrees : List Stm → Bool
  | [] => true
  | st :: sts => st.ifFree && ifFrees sts
end

/-- an `if` with a `return` -/
def Stm.isExit : Stm → Bool
  | .cond _ _ _ _ (some _) => true
  | _ => false

mutual
/-- A statement uses only names of `vis`, and the blocks in it declare names other than those of `outer`, the names
declared in the blocks around them. -/
def Stm.ok (P : List Fun) (outer vis : List Name) : Stm → Prop
  | .decl _ e => okEx P vis e
  | .declArr _ es => okExs P vis es
  | .assign x idx e => x ∈ vis ∧ okExs P vis idx ∧ okEx P vis e
  | .call f args =>
    if f = kwEqual then args.length = 2 ∧ okExs P vis args
    else if f = kwSplit then args.length = 1 ∧ okExs P vis args
    else okEx P vis (.call f args)
  | .loop l cmp r x step body =>
    okEx P vis l ∧ okEx P vis r ∧ x ∈ vis ∧ okEx P vis step ∧
    cmp ∈ [['=', '='], ['!', '='], ['>'], ['>', '='], ['<'], ['<', '=']] ∧
    (declared body).Nodup ∧ (∀ y ∈ declared body, isWord y = true ∧ y ∉ outer ∧ y ∉ builtins ∧ y ∉ P.map Fun.name) ∧
    (∀ st ∈ body, st.isExit = false) ∧ okStms P (declared body ++ outer) vis body
  | .cond l cmp r body fin =>
    okEx P vis l ∧ okEx P vis r ∧ cmp ∈ [['=', '='], ['!', '='], ['>'], ['>', '='], ['<'], ['<', '=']] ∧
    declared body = [] ∧ ifFrees body = true ∧ (∀ e, fin = some e → okEx P vis e) ∧ okStms P outer vis body
/-- statements in sequence: what one declares, the next may use -/
def okStms (P : List Fun) (outer vis : List Name) : List Stm → Prop
  | [] => True
  | st :: sts => st.ok P outer vis ∧ okStms P outer (st.declares ++ vis) sts
end

/-- names declared by a function in its outermost block, parameters included -/
def Fun.top (F : Fun) : List Name := F.params.map Prod.fst ++ declared F.body

/-- a well-formed function of the program `P` -/
def Fun.ok (P : List Fun) (F : Fun) : Prop :=
  F.top.Nodup ∧ (∀ y ∈ F.top, isWord y = true ∧ y ∉ builtins ∧ y ∉ P.map Fun.name) ∧
  okStms P F.top (F.params.map Prod.fst) F.body ∧ okEx P (F.top) F.ret

end APS.LangSpec
