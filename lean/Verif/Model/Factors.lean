import Verif.Model.Field

/-!
Model of `circuitcompiler/factorHandling.go` and `circuitcompiler/gate.go`: linear forms ("factors") and gates.

Simplifications, stated once:
* Strings are lists of characters (`Name`).
* A factor's token is reduced to (is it a `NumberToken`?, identifier).  `compile` only ever puts `NumberToken` and
  `ARGUMENT` tokens into factors (Programm.go:223, 232, 278, 292, 340, 393, 408, 455, 566, 593), `ARGUMENT` is part of
  `IN`, and two non-number tokens therefore always have the same `Type`.
* SHA-256 is a parameter `H` (bytes of the string ↦ the 256-bit number); nothing is assumed about it.
* `sort.Sort` is insertion sort, the algorithm Go uses below 13 elements; `Less` is a non-strict order, and any
  correct algorithm gives the same result up to the order of factors that print identically.
* This file is the value semantics: big.Int cells are never shared.  Model/Heap.lean treats the sharing.
-/
namespace APS.Circuit

abbrev Name := List Char

/-- circuitcompiler/lexer.go:126-130 `Token`, as far as factors use it -/
structure Tok where
  isNum : Bool
  ident : Name
deriving DecidableEq, Repr

/-- circuitcompiler/factorHandling.go:19-22 `factor` -/
structure Factor where
  tok : Tok
  mul : Int
deriving DecidableEq, Repr

/-- circuitcompiler/factorHandling.go:17 `factors` -/
abbrev Factors := List Factor

/-- math/big `Int.String()` (decimal) -/
def intStr (n : Int) : Name :=
  if n < 0 then '-' :: Nat.toDigits 10 n.natAbs else Nat.toDigits 10 n.natAbs

/-- a number factor carrying its own decimal text -/
def numF (v : Int) : Factor := ⟨⟨true, intStr v⟩, v⟩
/-- an `ARGUMENT` factor -/
def argF (n : Name) (v : Int) : Factor := ⟨⟨false, n⟩, v⟩

/-- circuitcompiler/factorHandling.go:39-44 `factor.String`: `("%s"  fac: %v)` -/
def Factor.str (f : Factor) : Name :=
  ['(', '"'] ++ f.tok.ident ++ ['"', ' ', ' ', 'f', 'a', 'c', ':', ' '] ++ intStr f.mul ++ [')']

/-- `strings.Compare(a, b) < 0` -/
def strLt : Name → Name → Bool
  | _, [] => false
  | [], _ :: _ => true
  | a :: as, b :: bs => if a.toNat < b.toNat then true else if b.toNat < a.toNat then false else strLt as bs

/-- one insertion of `sort.insertionSort` with `Less(i,j) = !(f[i].String() < f[j].String())`
(factorHandling.go:32-37) -/
def insertDesc (x : Factor) : Factors → Factors
  | [] => [x]
  | y :: ys => if strLt x.str y.str then y :: insertDesc x ys else x :: y :: ys

/-- `sort.Sort(facs)` with `Less` of factorHandling.go:32-37 -/
def sortF (l : Factors) : Factors := l.foldl (fun acc x => insertDesc x acc) []

/-- circuitcompiler/factorHandling.go:53-56 `isSingleNumber` -/
def isSingleNumber : Factors → Bool
  | [f] => f.tok.isNum
  | _ => false

/-- circuitcompiler/factorHandling.go:60-63: the running gcd (math/big `GCD` of Go ≥ 1.14: gcd of absolute values) -/
def gcdLoop (g : Int) : Factors → Int
  | [] => g
  | f :: fs => gcdLoop (Int.gcd f.mul g) fs

/-- circuitcompiler/factorHandling.go:58-70 `extractGCD`.  An empty slice (`f[0]`) and a zero gcd (`Div`) panic.
math/big `Div` is Euclidean division. -/
def extractGCD : Factors → Option (Factors × Int)
  | [] => none
  | f :: fs =>
    let g := gcdLoop f.mul fs
    if g = 0 then none
    else some ((f :: fs).map fun x => { x with mul := x.mul / g }, g)

/-- circuitcompiler/factorHandling.go:72-78 `hashFactorsToBig` -/
def hashFactors (H : Name → Nat) (f : Factors) : Nat := H (f.flatMap Factor.str)

/-- `x.String()[:16]` of a natural number: panics when there are fewer than 16 digits -/
def sig16 (n : Nat) : Option Name :=
  let s := Nat.toDigits 10 n
  if s.length < 16 then none else some (s.take 16)

/-- circuitcompiler/factorHandling.go:80-83 `factors.factorSignature` -/
def signature (H : Name → Nat) (f : Factors) : Option Name := sig16 (hashFactors H f)

/-- circuitcompiler/factorHandling.go:100-105 `factorSignature`: gcd and sorted primitive part -/
def factorSignature (f : Factors) : Option (Int × Factors) :=
  match extractGCD f with
  | none => none
  | some (f', g) => some (g, sortF f')

/-- circuitcompiler/factorHandling.go:90-98 `extractConstant` -/
def extractConstant (q : Nat) (l r : Factors) : Option (Int × Factors × Factors) := do
  let (mL, fL) ← factorSignature l
  let (mR, fR) ← factorSignature r
  pure (Fq.mul q mL mR, fL, fR)

/-- circuitcompiler/factorHandling.go:128-159: body of the inner loop of `mulFactors` -/
def mulOne (q : Nat) (left right : Factor) : Option Factor :=
  if left.tok.isNum && !right.tok.isNum then some ⟨right.tok, Fq.mul q right.mul left.mul⟩
  else if !left.tok.isNum && right.tok.isNum then some ⟨left.tok, Fq.mul q right.mul left.mul⟩
  else if left.tok.isNum && right.tok.isNum then some (numF (Fq.mul q right.mul left.mul))
  else none

/-- circuitcompiler/factorHandling.go:126-160: inner loop; `left` is the loop variable (a copy), `cur` is `leftFactors[i]` -/
def mulRow (q : Nat) (left : Factor) : Factors → Factor → Option Factor
  | [], cur => some cur
  | r :: rs, _ => match mulOne q left r with
    | none => none
    | some f => mulRow q left rs f

/-- circuitcompiler/factorHandling.go:116-163 `mulFactors`; `none` is the explicit panic. -/
def mulFactors (q : Nat) (l r : Factors) : Option Factors :=
  let l' := if l.length < r.length then r else l
  let r' := if l.length < r.length then l else r
  l'.mapM fun f => mulRow q f r' f

/-- circuitcompiler/factorHandling.go:177-195 `addFactor` -/
def addFactor (q : Nat) (l r : Factor) : Option Factor :=
  if l.tok.isNum && r.tok.isNum then some (numF (Fq.add q l.mul r.mul))
  else if l.tok.isNum = r.tok.isNum ∧ l.tok.ident = r.tok.ident then some ⟨r.tok, Fq.add q l.mul r.mul⟩
  else none

/-- circuitcompiler/factorHandling.go:205-216: try to merge `l` into the first matching right factor -/
def addInto (q : Nat) (l : Factor) : Factors → Option Factors
  | [] => none
  | r :: rs => match addFactor q l r with
    | some s => some (s :: rs)
    | none => (addInto q l rs).map (r :: ·)

/-- circuitcompiler/factorHandling.go:202-220: the loop over the left factors -/
def addLoop (q : Nat) : Factors → Factors → Factors × Factors
  | [], right => ([], right)
  | l :: ls, right => match addInto q l right with
    | some right' => addLoop q ls right'
    | none => (l :: (addLoop q ls right).1, (addLoop q ls right).2)

/-- circuitcompiler/factorHandling.go:199-238 `addFactors` -/
def addFactors (q : Nat) (l r : Factors) : Factors :=
  let p := addLoop q l r
  let res := p.1 ++ p.2.filter (fun f => f.mul ≠ 0)
  if res = [] then [numF 0] else res

/-- circuitcompiler/factorHandling.go:239-248 `negateFactors` (value semantics; NOT reduced mod Q) -/
def negateFactors (l : Factors) : Factors :=
  l.map fun f => if f.tok.isNum then numF (-f.mul) else { f with mul := -f.mul }

/-- circuitcompiler/factorHandling.go:256-265 `invertFactors` -/
def invertFactors (q : Nat) (l : Factors) : Option Factors :=
  l.mapM fun f => (Fq.inverse q f.mul).map fun i => if f.tok.isNum then numF i else { f with mul := i }

/-- circuitcompiler/factorHandling.go:107-112 `scalarMultiplyFactors`: assigns to the loop copy, so nothing happens -/
def scalarMultiplyFactors (_q : Nat) (l : Factors) (_x : Int) : Factors := l

/-- circuitcompiler/gate.go:11-20 `gateType` (`returnMultiplicationGate` is never produced) -/
inductive GateType where
  | mult | scalarBase | equality | addition | sumCheck | zeroOrOne
deriving DecidableEq, Repr

/-- circuitcompiler/gate.go:22-33 `Gate` -/
structure Gate where
  typ : GateType
  ident : Name := []
  left : Factors := []
  right : Factors := []
  expo : Factors := []
  out : Factors := []
  noNew : Bool := false
  arith : Tok := ⟨false, []⟩
deriving DecidableEq, Repr

/-- circuitcompiler/gate.go:50-58: the number whose decimal text gives the identifier -/
def gateHash (H : Name → Nat) (g : Gate) : Nat :=
  (hashFactors H (sortF g.left) + hashFactors H (sortF g.right)) ^^^ hashFactors H (sortF g.expo ++ sortF g.out)

/-- circuitcompiler/gate.go:46-59 `setAndGetID`: sorts the four slices in place and stores the identifier -/
def setAndGetID (H : Name → Nat) (g : Gate) : Option Gate :=
  (sig16 (gateHash H g)).map fun s =>
    { g with left := sortF g.left, right := sortF g.right, expo := sortF g.expo, out := sortF g.out, ident := s }

/-- circuitcompiler/gate.go:39-44 `ID`: the gate with its identifier set -/
def withID (H : Name → Nat) (g : Gate) : Option Gate :=
  if g.ident = [] then setAndGetID H g else some g

/-- circuitcompiler/Programm.go:10-14 `gateContainer`; `computed` is `computedFactors` (`splittedElements` is unused) -/
structure Container where
  gates : List Gate := []
  computed : List Name := []
deriving DecidableEq, Repr

/-- circuitcompiler/Programm.go:64-74 `Add`.  Returns the container and the gate with its identifier.  The caller keeps a
pointer and may still set `outIns`/`leftIns` of the stored gate: `post` is that later assignment (identity if none). -/
def Container.add (H : Name → Nat) (c : Container) (g : Gate) (post : Gate → Gate := id) :
    Option (Container × Gate) :=
  match withID H g with
  | none => none
  | some g' =>
    if g'.ident ∈ c.computed then some (c, post g')
    else some (⟨c.gates ++ [post g'], c.computed ++ [g'.ident]⟩, post g')

end APS.Circuit
