import Verif.Model.Factors

/-!
Model of the arithmetic part of `circuitcompiler/Programm.go`: `compile` on expressions and the statements of a
straight-line `main` (variable declaration / overload, `equal`, `SPLIT`, `addGateConstraint`, `return`), `Execute` and
`completeFunction`.  Value semantics (no sharing of big.Int cells; see Model/Heap.lean for the sharing).
User-defined function calls, `for`, `if` and arrays accessed through computed indices are not part of this file
(an array element is the variable with the resolved name `a[3]`).
-/
namespace APS.Circuit

/-- value of a decimal digit string, most significant first (accumulator form) -/
def parseNat (acc : Nat) : Name → Option Nat
  | [] => some acc
  | c :: cs => if '0'.toNat ≤ c.toNat ∧ c.toNat ≤ '9'.toNat then parseNat (10 * acc + (c.toNat - '0'.toNat)) cs else none

/-- math/big `SetString(s, 10)` on an optional minus sign followed by decimal digits -/
def parseInt : Name → Option Int
  | [] => none
  | '-' :: [] => none
  | '-' :: cs => (parseNat 0 cs).map fun n => -(n : Int)
  | c :: cs => (parseNat 0 (c :: cs)).map fun n => (n : Int)

/-- arithmetic expressions (parse tree handed to `compile`, Programm.go:214) -/
inductive Expr where
  /-- `NumberToken` with its source text -/
  | num (text : Name)
  /-- `IDENTIFIER_VARIABLE` (or a resolved array element) -/
  | var (n : Name)
  | add (a b : Expr)
  | sub (a b : Expr)
  | mul (a b : Expr)
  | div (a b : Expr)
  /-- `scalarBaseMultiply(a)` -/
  | baseMul (a : Expr)
  /-- `addGateConstraint(a,b)` -/
  | addGate (a b : Expr)
deriving DecidableEq, Repr

/-- circuitcompiler/Programm.go:217-223: compile a `NumberToken` -/
def compileNum (q : Nat) (text : Name) : Option Factors :=
  (Fq.stringToField q (parseInt text)).map fun v => [⟨⟨true, text⟩, v⟩]

/-- circuitcompiler/factorHandling.go:277-312 followed by a call of the resulting function (Programm.go:487-522, 270-281):
what re-reading ONE stored factor yields.  A number is recompiled from its text (circuit.go:483-487), an argument with
multiplicative 1 directly, any other argument as the product `m * arg`. -/
def rereadOne (q : Nat) (f : Factor) : Option Factors :=
  if f.tok.isNum then compileNum q f.tok.ident
  else if f.mul = 1 then some [argF f.tok.ident 1]
  else match compileNum q (intStr f.mul) with
    | none => none
    | some n => mulFactors q n [argF f.tok.ident 1]

/-- circuitcompiler/factorHandling.go:267-275, 315-385: a stored sum is re-read as `f₀ + (f₁ + (…))`; two bare numbers are
folded by `combineFunctions`. -/
def rereadSum (q : Nat) : Factors → Option Factors
  | [] => none
  | [f] => rereadOne q f
  | [f, g] =>
    if f.tok.isNum && g.tok.isNum then compileNum q (intStr (Fq.add q f.mul g.mul))
    else do
      let a ← rereadOne q f
      let b ← rereadOne q g
      pure (addFactors q a b)
  | f :: fs => do
    let a ← rereadOne q f
    let b ← rereadSum q fs
    pure (addFactors q a b)

/-- circuitcompiler/Programm.go:224-243: reading a variable whose value was stored by
`facs.primitiveReturnfunction()` (Programm.go:320).  A single number is returned as stored (line 229-231). -/
def readVar (q : Nat) (f : Factors) : Option Factors :=
  if isSingleNumber f then some f else rereadSum q f

/-- variables of the current function: name ↦ stored linear form (Programm.go `functions`) -/
abbrev Env := List (Name × Factors)

/-- circuitcompiler/Programm.go:214-610 `compile` on expressions.
`dropped` collects the gates that `Add` discarded because their identifier was already taken (ghost: the code forgets
them; it is only used to state that no two different gates were confused). -/
structure St where
  c : Container := {}
  dropped : List Gate := []
deriving DecidableEq, Repr

/-- Programm.go:64-74 with the ghost log -/
def St.add (H : Name → Nat) (s : St) (g : Gate) (post : Gate → Gate := id) : Option (St × Gate) :=
  match s.c.add H g post with
  | none => none
  | some (c', g') => some (⟨c', if g'.ident ∈ s.c.computed then s.dropped ++ [g'] else s.dropped⟩, g')

/-- circuitcompiler/Programm.go:553-572 `*` on two compiled operands -/
def mulGate (H : Name → Nat) (q : Nat) (l r : Factors) (s : St) : Option (Factors × St) := do
  if isSingleNumber l || isSingleNumber r then
    let f ← mulFactors q l r
    pure (f, s)
  else
    let (k, l', r') ← extractConstant q l r
    let (s', g) ← s.add H { typ := .mult, left := l', right := r' } (fun g => { g with out := [argF g.ident 1] })
    pure ([argF g.ident k], s')

/-- circuitcompiler/Programm.go:573-597 `/` on two compiled operands -/
def divGate (H : Name → Nat) (q : Nat) (l r : Factors) (s : St) : Option (Factors × St) := do
  if isSingleNumber r then
    let i ← invertFactors q r
    let f ← mulFactors q l i
    pure (f, s)
  else
    let (gl, l') ← factorSignature l
    let (gr, r') ← factorSignature r
    let k ← Fq.div q gl gr
    let (s', g) ← s.add H { typ := .mult, right := r', out := l' } (fun g => { g with left := [argF g.ident 1] })
    pure ([argF g.ident k], s')

/-- circuitcompiler/Programm.go:446-459 `scalarBaseMultiply` on a compiled operand -/
def baseGate (H : Name → Nat) (e : Factors) (s : St) : Option (Factors × St) := do
  let (s', g) ← s.add H { typ := .scalarBase, expo := e }
  pure ([argF g.ident 1], s')

/-- circuitcompiler/Programm.go:416-443 `addGateConstraint` on two compiled operands: the extracted constants are
MULTIPLIED although the primitive parts are added. -/
def addGateConstraint (H : Name → Nat) (q : Nat) (l r : Factors) (s : St) : Option (Factors × St) := do
  let (k, l', r') ← extractConstant q l r
  let (s', g) ← s.add H { typ := .addition, left := addFactors q l' r' } (fun g => { g with out := [argF g.ident 1] })
  pure ([argF g.ident k], s')

/-- circuitcompiler/Programm.go:214-610 `compile` on expressions (left operand first) -/
def compile (H : Name → Nat) (q : Nat) (env : Env) : Expr → St → Option (Factors × St)
  | .num t, s => (compileNum q t).map (·, s)
  | .var n, s => match env.lookup n with
    | none => none
    | some f => (readVar q f).map (·, s)
  | .add a b, s => do
    let (l, s) ← compile H q env a s
    let (r, s) ← compile H q env b s
    pure (addFactors q l r, s)
  | .sub a b, s => do
    let (l, s) ← compile H q env a s
    let (r, s) ← compile H q env b s
    pure (addFactors q l (negateFactors r), s)
  | .mul a b, s => do
    let (l, s) ← compile H q env a s
    let (r, s) ← compile H q env b s
    mulGate H q l r s
  | .div a b, s => do
    let (l, s) ← compile H q env a s
    let (r, s) ← compile H q env b s
    divGate H q l r s
  | .baseMul a, s => do
    let (e, s) ← compile H q env a s
    baseGate H e s
  | .addGate a b, s => do
    let (l, s) ← compile H q env a s
    let (r, s) ← compile H q env b s
    addGateConstraint H q l r s

/-- circuitcompiler/Programm.go:24-57 `completeFunction` -/
def completeFunction (H : Name → Nat) (f : Factors) (s : St) : Option St :=
  if f = [] ∨ isSingleNumber f = true then some s
  else match f with
    | [x] => if x.mul = 1 then some s else completeAdd
    | _ => completeAdd
where
  /-- Programm.go:42-55 -/
  completeAdd : Option St := do
    let sig ← signature H f
    let (s', _) ← s.add H { typ := .addition, ident := sig, left := f, out := [argF sig 1] }
    pure s'

/-- circuitcompiler/Programm.go:379-381: name of the i-th bit of `z` -/
def bitName (i : Nat) (z : Name) : Name := Nat.toDigits 10 i ++ z

/-- circuitcompiler/Programm.go:375-397: the zero-or-one gates -/
def splitLoop (H : Name → Nat) (z : Tok) : List Nat → St → Option St
  | [], s => some s
  | i :: is, s => do
    let (s', _) ← s.add H { typ := .zeroOrOne, ident := bitName i z.ident, arith := z }
    splitLoop H z is s'

/-- circuitcompiler/Programm.go:353-410 `SPLIT` on a compiled operand; the multiplicative of the operand is ignored -/
def splitGate (H : Name → Nat) (q : Nat) (f : Factors) (s : St) : Option St :=
  match f with
  | [x] => do
    let N := Fq.bitLen q
    let s' ← splitLoop H x.tok (List.range N) s
    let bits := (List.range N).map fun (i : Nat) => argF (bitName i x.tok.ident) ((2 : Int) ^ i)
    let (s2, _) ← s'.add H { typ := .sumCheck, arith := x.tok, noNew := true, left := bits }
    pure s2
  | _ => none

/-- statements of a straight-line `main` -/
inductive Stmt where
  /-- `var x = e` and `x = e` (Programm.go:296-322; declarations are treated like overloads, circuit.go:177-188) -/
  | assign (x : Name) (e : Expr)
  /-- `equal(a,b)` -/
  | equal (a b : Expr)
  /-- `SPLIT(a)` -/
  | split (a : Expr)
  /-- an expression statement, e.g. a call of `scalarBaseMultiply(x)` -/
  | expr (e : Expr)
deriving DecidableEq, Repr

/-- Programm.go:296-322, 183-196: one task of `Execute` -/
def execStmt (H : Name → Nat) (q : Nat) (st : Env × St) : Stmt → Option (Env × St)
  | .assign x e => do
    let (f, s) ← compile H q st.1 e st.2
    let s' ← completeFunction H f s
    pure ((x, f) :: st.1, s')
  | .equal a b => do
    let (l, s) ← compile H q st.1 a st.2
    let (r, s) ← compile H q st.1 b s
    let (s', _) ← s.add H { typ := .equality, left := l, right := r, noNew := true }
    pure (st.1, s')
  | .split a => do
    let (f, s) ← compile H q st.1 a st.2
    let s' ← splitGate H q f s
    pure (st.1, s')
  | .expr e => do
    let (f, s) ← compile H q st.1 e st.2
    let s' ← completeFunction H f s
    pure (st.1, s')

/-- a straight-line program: main inputs, statements, returned expression -/
structure Prog where
  inputs : List Name
  body : List Stmt
  ret : Expr
deriving DecidableEq, Repr

/-- circuit.go:43-69: each main input is a variable holding itself -/
def initEnv (inputs : List Name) : Env := inputs.map fun n => (n, [argF n 1])

/-- circuitcompiler/Programm.go:183-196 `Execute`: returned linear form and gate list -/
def execute (H : Name → Nat) (q : Nat) (p : Prog) : Option (Factors × St) := do
  let (env, s) ← p.body.foldlM (execStmt H q) (initEnv p.inputs, {})
  let (f, s) ← compile H q env p.ret s
  let s' ← completeFunction H f s
  pure (f, s')

end APS.Circuit
