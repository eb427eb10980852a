import Verif.Model.R1CS

/-!
Model of `CalculateWitness` and `CalculateSparseWitness` (circuitcompiler/ER1CS.go:143-455).

* `none` = an error is returned or the code panics (index out of range, nil inverse).
* `gx k` models `new(bn256.G1).ScalarBaseMult(k).X()` (ER1CS.go:242, 256, 269, 288, 391, 408, 424, 447), `rnd` the value drawn by `Rand()` (ER1CS.go:156, 308).
* The Go map `splitmap` is iterated in random order; here it is iterated in the order of the list `split`, and the theorems
  hold for every list.
-/
namespace APS.Circuit
open APS.Avl APS.Avl.Tree

/-- the variables `witness` and `set` (ER1CS.go:145-146, 302-303) -/
structure WState where
  w : List Int
  known : List Bool
deriving DecidableEq, Repr

/-- ER1CS.go:148-150 `setWitness(i, v)` together with `set[i] = true`; index out of range panics -/
def WState.put (s : WState) (i : Nat) (v : Int) : Option WState :=
  if i < s.w.length ∧ i < s.known.length then some ⟨s.w.set i v, s.known.set i true⟩ else none

/-- math/big `Int.Bit(i)` (two's complement for negative numbers) -/
def bitOf (x : Int) (i : Nat) : Int := x / 2 ^ i % 2

/-- `inverseSplitmap`: bit position ↦ (bit number, position of the number); a later write replaces an earlier one -/
abbrev InvSplit := List (Nat × Nat × Nat)

/-- ER1CS.go:164-167, 316-319: the inputs (unknown identifiers have index 0) -/
def putInputs (m : IndexMap) : List (Name × Int) → WState → Option WState
  | [], s => some s
  | (n, v) :: rest, s => match s.put (m.get n) v with
    | none => none
    | some s' => putInputs m rest s'

/-- ER1CS.go:174-177, 326-329: the bits of a number that is already set; `b` is the bit number -/
def putBits (father : Nat) : Nat → List Nat → WState → Option WState
  | _, [], s => some s
  | b, z :: zs, s => match s.put z (bitOf (s.w.getD father 0) b) with
    | none => none
    | some s' => putBits father (b + 1) zs s'

/-- ER1CS.go:179-181, 331-333: a bit position is recorded with its bit number and the position of the number -/
def invBits (father : Nat) : Nat → List Nat → InvSplit → InvSplit
  | _, [], inv => inv
  | b, z :: zs, inv => invBits father (b + 1) zs ((z, b, father) :: inv)

/-- ER1CS.go:172-183, 324-335: the loop over the split map -/
def initSplits (m : IndexMap) : SplitMap → WState × InvSplit → Option (WState × InvSplit)
  | [], r => some r
  | (k, zs) :: rest, (s, inv) => match s.known[m.get k]? with
    | none => none
    | some b => match (if b then putBits (m.get k) 0 zs s else some s) with
      | none => none
      | some s' => initSplits m rest (s', invBits (m.get k) 0 zs inv)

/-- ER1CS.go:145-183, 302-335: state before the first gate -/
def initWitness (m : IndexMap) (sp : SplitMap) (rnd : Int) (inputs : List (Name × Int)) : Option (WState × InvSplit) := do
  let s0 : WState := ⟨List.replicate m.length 0, List.replicate m.length false⟩
  let s1 ← s0.put 0 1
  let s2 ← (if m.get randIn ≠ 0 then s1.put (m.get randIn) rnd else some s1)
  let s3 ← putInputs m inputs s2
  initSplits m sp (s3, [])

/-- ER1CS.go:189-205: one iteration of `getKnownsAndUnknowns` (dense).  A bit that is set here enters `knowns` with the bit
ITSELF as coefficient (line 197), not with its coefficient `val`. -/
def scanStepD (inv : InvSplit) (acc : List Int × List Nat × WState) (e : Int × Nat) : Option (List Int × List Nat × WState) :=
  if e.1 = 0 then some acc
  else match acc.2.2.known[e.2]? with
    | none => none
    | some true => some (acc.1.set e.2 e.1, acc.2.1, acc.2.2)
    | some false => match inv.lookup e.2 with
      | some (b, father) =>
        let bit := bitOf (acc.2.2.w.getD father 0) b
        match acc.2.2.put e.2 bit with
        | none => none
        | some s => some (acc.1.set e.2 bit, acc.2.1, s)
      | none => some (acc.1, acc.2.1 ++ [e.2], acc.2.2)

/-- ER1CS.go:187-207 `getKnownsAndUnknowns` (dense) -/
def scanD (inv : InvSplit) (arr : List Int) (s : WState) : Option (List Int × List Nat × WState) :=
  arr.zipIdx.foldlM (scanStepD inv) (List.replicate arr.length 0, [], s)

/-- ER1CS.go:242-245, 256-259 (sparse 391-398, 408-415): `((out - X) / other - known) / coef` -/
def solveFactor (q : Nat) (out x other known coef : Int) : Option Int := do
  let r ← Fq.div q (Fq.sub q out x) other
  Fq.div q (Fq.sub q r known) coef

/-- ER1CS.go:268-271 (sparse 423-430): `(right * left + X - known) / coef` -/
def solveOut (q : Nat) (right left x known coef : Int) : Option Int :=
  Fq.div q (Fq.sub q (Fq.add q (Fq.mul q right left) x) known) coef

/-- Results of `getKnownsAndUnknowns` on the four sides of a gate: coefficients of the knowns (`lk` …), positions of the unknowns
(`lu` …), and the witness after it (bits may have been set). -/
structure Scanned (α : Type) where
  lk : α
  lu : List Nat
  rk : α
  ru : List Nat
  ek : α
  eu : List Nat
  ok : α
  ou : List Nat
  s : WState

/-- ER1CS.go:219-225 and 277-280, sparse 368-374 and 436-439: `getKnownsAndUnknowns` on L, R, E, O in this order.  The code
tests the unknowns of E before it looks at O; here the test comes afterwards (`none` in both cases). -/
def scanRow {α : Type} (scan : α → WState → Option (α × List Nat × WState)) (row : Row α) (s : WState) : Option (Scanned α) :=
  match scan row.L s with
  | none => none
  | some (lk, lu, s) => match scan row.R s with
    | none => none
    | some (rk, ru, s) => match scan row.E s with
      | none => none
      | some (ek, eu, s) => match scan row.O s with
        | none => none
        | some (ok, ou, s) => some ⟨lk, lu, rk, ru, ek, eu, ok, ou, s⟩

/-- ER1CS.go:222-229, sparse 371-378: too many unknowns -/
def Scanned.tooMany {α : Type} (c : Scanned α) : Bool :=
  decide (c.eu.length > 0) || decide (c.lu.length + c.ru.length + c.ou.length > 1)

/-- ER1CS.go:231-275, sparse 380-433: solve the gate for its unknown, if there is one; `some s` with the unchanged state
otherwise.  `sum` is the closure of lines 209-211 (sparse 358-360), `get a x` reads the coefficient of the unknown. -/
def solve {α : Type} (q : Nat) (gx : Int → Int) (sum : α → List Int → Option Int) (get : α → Nat → Option Int) (row : Row α)
    (c : Scanned α) : Option WState :=
  match c.lu, c.ru, c.ou with
  | x :: _, _, _ => do
    let sr ← sum c.rk c.s.w
    if sr = 0 then none
    else
      let r ← solveFactor q (← sum c.ok c.s.w) (gx (← sum c.ek c.s.w)) sr (← sum c.lk c.s.w) (← get row.L x)
      c.s.put x r
  | [], x :: _, _ => do
    let sl ← sum c.lk c.s.w
    if sl = 0 then none
    else
      let r ← solveFactor q (← sum c.ok c.s.w) (gx (← sum c.ek c.s.w)) sl (← sum c.rk c.s.w) (← get row.R x)
      c.s.put x r
  | [], [], x :: _ => do
    let r ← solveOut q (← sum c.rk c.s.w) (← sum c.lk c.s.w) (gx (← sum c.ek c.s.w)) (← sum c.ok c.s.w) (← get row.O x)
    c.s.put x r
  | [], [], [] => some c.s

/-- no `continue` of ER1CS.go:248, 262, 274 is taken -/
def Scanned.noUnknown {α : Type} (c : Scanned α) : Bool := c.lu.isEmpty && c.ru.isEmpty && c.ou.isEmpty

/-- ER1CS.go:277-291, sparse 436-450: no unknowns may be left and the gate must hold.  The left side is reduced; the right side
is whatever `sum` returns, which in the sparse version is NOT reduced. -/
def check {α : Type} (q : Nat) (gx : Int → Int) (scan : α → WState → Option (α × List Nat × WState))
    (sum : α → List Int → Option Int) (row : Row α) (s : WState) : Option WState := do
  let c ← scanRow scan row s
  if c.lu.length + c.ru.length + c.ou.length + c.eu.length ≠ 0 then none
  else
    let o ← sum c.ok c.s.w
    if Fq.add q (Fq.mul q (← sum c.rk c.s.w) (← sum c.lk c.s.w)) (gx (← sum c.ek c.s.w)) ≠ o then none else some c.s

/-- ER1CS.go:213-293: one gate of `CalculateWitness`; after solving for an unknown there is a `continue`, so the check runs only
for gates without unknowns. -/
def stepD (q : Nat) (gx : Int → Int) (inv : InvSplit) (row : Row (List Int)) (s : WState) : Option WState := do
  let c ← scanRow (scanD inv) row s
  if c.tooMany then none
  else if c.noUnknown then check q gx (scanD inv) (Fq.scalarProduct q) row c.s
  else solve q gx (Fq.scalarProduct q) (fun a x => a[x]?) row c

/-- circuitcompiler/ER1CS.go:143-296 `CalculateWitness` -/
def calculateWitness (q : Nat) (gx : Int → Int) (r : R1CS (List Int)) (rnd : Int) (inputs : List (Name × Int)) :
    Option (List Int) := do
  let (s, inv) ← initWitness r.index r.split rnd inputs
  let s ← r.rows.foldlM (fun s row => stepD q gx inv row s) s
  pure s.w

/-- ER1CS.go:341-354: one iteration of `getKnownsAndUnknowns` (sparse) -/
def scanStepS (inv : InvSplit) (acc : Tree × List Nat × WState) (e : Nat × Int) : Option (Tree × List Nat × WState) :=
  match acc.2.2.known[e.1]? with
    | none => none
    | some true => (acc.1.insert e.1 e.2).map fun t => (t, acc.2.1, acc.2.2)
    | some false => match inv.lookup e.1 with
      | some (b, father) =>
        let bit := bitOf (acc.2.2.w.getD father 0) b
        match acc.2.2.put e.1 bit with
        | none => none
        | some s => (acc.1.insert e.1 bit).map fun t => (t, acc.2.1, s)
      | none => some (acc.1, acc.2.1 ++ [e.1], acc.2.2)

/-- ER1CS.go:339-356 `getKnownsAndUnknowns` (sparse) -/
def scanS (inv : InvSplit) (t : Tree) (s : WState) : Option (Tree × List Nat × WState) :=
  t.ascendingNodes.foldlM (scanStepS inv) (nil, [], s)

/-- ER1CS.go:362-452: one gate of `CalculateSparseWitness`.  There is no `continue`: after solving for the unknown the gate is
checked again. -/
def stepS (q : Nat) (gx : Int → Int) (inv : InvSplit) (row : Row Tree) (s : WState) : Option WState := do
  let c ← scanRow (scanS inv) row s
  if c.tooMany then none
  else
    let s ← solve q gx (Sparse.sparseScalarProduct q) (fun t x => t.get x) row c
    check q gx (scanS inv) (Sparse.sparseScalarProduct q) row s

/-- circuitcompiler/ER1CS.go:300-455 `CalculateSparseWitness` -/
def calculateSparseWitness (q : Nat) (gx : Int → Int) (r : R1CS Tree) (rnd : Int) (inputs : List (Name × Int)) :
    Option (List Int) := do
  let (s, inv) ← initWitness r.index r.split rnd inputs
  let s ← r.rows.foldlM (fun s row => stepS q gx inv row s) s
  pure s.w

end APS.Circuit
