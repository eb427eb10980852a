import Verif.Model.Avl
import Verif.Model.Field
import Verif.Model.DensePoly

/-!
Model of `utils/sparsePolynomial.go`: polynomials as sparse arrays (exponent ↦ coefficient).

`for x := range t.ChannelNodes(b)` is modelled as iteration over the list of entries the channel delivers
(`ascendingNodes` / `allNodes`).  For the two routines that write to the very tree being traversed
(`MulSparseScalar`, `Combine`) this is the snapshot semantics; Model/Channel.lean treats the real interleavings.
`uint` exponents are `Nat` (overflow of exponent sums beyond 2^64 is not modelled).  `none` = panic.
-/
namespace APS.Sparse
open APS.Avl APS.Avl.Tree

/-- callback `fq.Add` passed to `Put` -/
def addCb (q : Nat) (o n : Int) : Option Int := some (Fq.add q o n)
/-- callback `fq.Mul` passed to `Put` -/
def mulCb (q : Nat) (o n : Int) : Option Int := some (Fq.mul q o n)

/-- utils/sparsePolynomial.go:53-61 `Clone` -/
def clone (t : Tree) : Option Tree :=
  t.allNodes.foldlM (fun r e => r.insert e.1 e.2) nil

/-- utils/sparsePolynomial.go:9-19 `MulSparse` -/
def mulSparse (q : Nat) (a b : Tree) : Option Tree :=
  a.ascendingNodes.foldlM (fun r L =>
    b.ascendingNodes.foldlM (fun r R => r.treePut (L.1 + R.1) (Fq.mul q R.2 L.2) (addCb q)) r) nil

/-- utils/sparsePolynomial.go:22-28 `MulSparseScalar` (snapshot semantics of the traversal) -/
def mulSparseScalar (q : Nat) (a : Tree) (scalar : Int) : Option Tree := do
  let a ← clone a
  a.ascendingNodes.foldlM (fun r L => r.treePut L.1 scalar (mulCb q)) a

/-- utils/sparsePolynomial.go:63-74 `AddToSparse` -/
def addToSparse (q : Nat) (a b : Tree) : Option Tree := do
  let a ← clone a
  b.allNodes.foldlM (fun r v => r.treePut v.1 v.2 (addCb q)) a

/-- utils/sparsePolynomial.go:121-128 `SubToSparse` -/
def subToSparse (q : Nat) (a b : Tree) : Option Tree := do
  let a ← clone a
  b.allNodes.foldlM (fun r v => r.treePut v.1 (Fq.neg q v.2) (addCb q)) a

/-- outcome of a loop run with bounded fuel -/
inductive Outcome (α : Type) where
  | done (a : α)
  | crash
  | running
deriving DecidableEq, Repr

/-- utils/sparsePolynomial.go:40-48: one round of the loop of `DivideSparse` (loop condition already checked). -/
def divideRound (q : Nat) (b result rem : Tree) : Option (Tree × Tree) := do
  let maxA := rem.maxNode
  let maxB := b.maxNode
  let l ← Fq.div q maxA.2 maxB.2
  let pos := maxA.1 - maxB.1
  let aux ← nil.insertNoOverwrite pos l
  let result' ← result.insertNoOverwrite pos l
  let mul ← mulSparse q b aux
  let rem' ← subToSparse q rem mul
  pure (result', rem')

/-- utils/sparsePolynomial.go:40-48: the loop.  `MaxNode` never returns nil, so the condition is the key comparison. -/
def divideLoop (q : Nat) (b : Tree) : Nat → Tree → Tree → Outcome (Tree × Tree)
  | 0, _, _ => .running
  | n+1, result, rem =>
    if rem.maxNode.1 ≥ b.maxNode.1 then
      match divideRound q b result rem with
      | none => .crash
      | some (result', rem') => divideLoop q b n result' rem'
    else .done (result, rem)

/-- utils/sparsePolynomial.go:36-50 `DivideSparse`, run for at most `fuel` loop tests. -/
def divideSparse (q : Nat) (fuel : Nat) (a b : Tree) : Outcome (Tree × Tree) :=
  match clone a with
  | none => .crash
  | some rem => divideLoop q b fuel nil rem

/-- utils/sparsePolynomial.go:101-109: the greedy ladder for one exponent.  `es` is the snapshot of the
memoised powers, `memo` the live memo tree.  Division by the key 0 panics. -/
def ladder (q : Nat) (rem : Nat) (memo : Tree) (nextPower : Int) : List (Nat × Int) → Option (Tree × Int)
  | [] => some (memo, nextPower)
  | e :: es =>
    if e.1 = 0 then none else
    let qq := rem / e.1
    let rem' := rem % e.1
    let vv := Fq.expInt q e.2 qq
    match memo.insert (qq * e.1) vv with
    | none => none
    | some memo' =>
      let np := Fq.mul q nextPower vv
      if rem' = 0 then some (memo', np) else ladder q rem' memo' np es

/-- utils/sparsePolynomial.go:93-111: the loop over the entries of the polynomial. -/
def evalLoop (q : Nat) (memo : Tree) (result : Int) : List (Nat × Int) → Option Int
  | [] => some result
  | j :: js =>
    match ladder q j.1 memo 1 memo.decendingNodes with
    | none => none
    | some (memo', np) => evalLoop q memo' (Fq.add q result (Fq.mul q j.2 np)) js

/-- utils/sparsePolynomial.go:77-113 `EvalSparsePoly` -/
def evalSparsePoly (q : Nat) (p : Tree) (at_ : Int) : Option Int :=
  if at_ = 0 then some ((p.get 0).getD 0)
  else match nil.insertNoOverwrite 1 at_ with
    | none => none
    | some memo => evalLoop q memo 0 p.ascendingNodes

/-- the cache `bases` (utils/finiteField.go:39) -/
abbrev Cache := List ((Nat × Nat) × Tree)

/-- utils/sparsePolynomial.go:151-156 -/
def rootsLoop (q : Nat) (pointPos : Nat) (r : Tree) : List Nat → Option Tree
  | [] => some r
  | i :: is =>
    if i ≠ pointPos then
      match fromArray [-(i : Int), 1] with
      | none => none
      | some f => match mulSparse q r f with
        | none => none
        | some r' => rootsLoop q pointPos r' is
    else rootsLoop q pointPos r is

/-- utils/sparsePolynomial.go:142-158: the uncached base.  `facBig` is the same loop as in the dense routine.
A nil `hf` would crash in the first multiplication (`r` is never empty). -/
def computeBase (q : Nat) (pointPos totalPoints : Nat) : Option Tree := do
  let one ← newWith 0 1
  let r ← rootsLoop q pointPos one (List.range totalPoints)
  let hf ← Fq.inverse q (Dense.facBig q pointPos totalPoints)
  mulSparseScalar q r hf

/-- utils/sparsePolynomial.go:136-161: closure `base` with its cache -/
def base (q : Nat) (c : Cache) (pointPos totalPoints : Nat) : Option (Tree × Cache) :=
  match c.lookup (pointPos, totalPoints) with
  | some v => some (v, c)
  | none => match computeBase q pointPos totalPoints with
    | none => none
    | some r => some (r, ((pointPos, totalPoints), r) :: c)

/-- utils/sparsePolynomial.go:174-178 -/
def interpLoop (q : Nat) (degree : Nat) (p : Tree) (c : Cache) : List (Nat × Int) → Option (Tree × Cache)
  | [] => some (p, c)
  | v :: vs =>
    match base q c v.1 degree with
    | none => none
    | some (b, c') =>
      match mulSparseScalar q b v.2 with
      | none => none
      | some prod => match addToSparse q p prod with
        | none => none
        | some p' => interpLoop q degree p' c' vs

/-- utils/sparsePolynomial.go:131-180 `InterpolateSparseArray` -/
def interpolate (q : Nat) (c : Cache) (data : Tree) (degree : Nat) : Option (Tree × Cache) :=
  if data.maxPower ≥ degree then none
  else interpLoop q degree nil c data.ascendingNodes

/-- utils/sparsePolynomial.go:181-187 `SparseScalarProduct`: the sum is NOT reduced; index out of range panics. -/
def sparseScalarProduct (q : Nat) (a : Tree) (b : List Int) : Option Int :=
  a.ascendingNodes.foldlM (fun res v => (b[v.1]?).map fun w => res + Fq.mul q v.2 w) 0

/-- utils/sparsePolynomial.go:189-194 `Combine` (mutates and returns its argument; snapshot semantics) -/
def combine (q : Nat) (a : Tree) (w : List Int) : Option Tree :=
  a.ascendingNodes.foldlM (fun r v => match w[v.1]? with
    | none => none
    | some x => r.treePut v.1 x (mulCb q)) a

/-- utils/sparsePolynomial.go:197-204 `LinearCombine`; `polynomials[i]` out of range panics. -/
def linearCombine (q : Nat) : List Tree → List Int → Option (List Tree)
  | _, [] => some []
  | [], _ :: _ => none
  | p :: ps, w :: ws => do
    let m ← mulSparseScalar q p w
    let r ← linearCombine q ps ws
    pure (m :: r)

/-- utils/sparsePolynomial.go:205-211 `AddPolynomials` -/
def addPolynomials (q : Nat) (ps : List Tree) : Option Tree := ps.foldlM (addToSparse q) nil

/-- utils/sparsePolynomial.go:222-227: insert row `y` into the columns. -/
def transposeRow (y : Nat) (cols : List Tree) (row : List (Nat × Int)) : Option (List Tree) :=
  row.foldlM (fun cols e => match cols[e.1]? with
    | none => none
    | some t => (t.insertNoOverwrite y e.2).map fun t' => cols.set e.1 t') cols

/-- utils/sparsePolynomial.go:218-228 -/
def transposeLoop (y : Nat) (cols : List Tree) : List Tree → Option (List Tree)
  | [] => some cols
  | t :: ts => match transposeRow y cols t.ascendingNodes with
    | none => none
    | some cols' => transposeLoop (y + 1) cols' ts

/-- utils/sparsePolynomial.go:213-230 `TransposeSparse` -/
def transposeSparse (m : List Tree) (witness : Nat) : Option (List Tree) :=
  transposeLoop 0 (List.replicate witness nil) m

end APS.Sparse
