import Verif.Model.Factors
import Verif.Model.SparsePoly

/-!
Model of `GatesToR1CS` / `GatesToSparseR1CS` (circuitcompiler/Programm.go:613-1033) and of `CombineInputs`.
`none` = panic.  The Go maps `indexMap` and `splitmap` are association lists with at most one entry per key; the order of
the entries (insertion order here, random in Go) is not used by any theorem.
-/
namespace APS.Circuit
open APS.Avl APS.Avl.Tree

/-- a Go `map[string]int` -/
abbrev IndexMap := List (Name × Nat)

/-- `m[k] = v` -/
def IndexMap.set (m : IndexMap) (k : Name) (v : Nat) : IndexMap :=
  if m.any (fun e => e.1 == k) then m.map (fun e => if e.1 == k then (k, v) else e) else m ++ [(k, v)]

/-- `_, ex := m[k]` -/
def IndexMap.has (m : IndexMap) (k : Name) : Bool := m.any (fun e => e.1 == k)

/-- `m[k]` (0 when absent) -/
def IndexMap.get (m : IndexMap) (k : Name) : Nat := ((m.find? (fun e => e.1 == k)).map Prod.snd).getD 0

/-- a Go `map[string][]int` -/
abbrev SplitMap := List (Name × List Nat)

/-- Programm.go:650-655: append a bit position -/
def SplitMap.push (m : SplitMap) (k : Name) (i : Nat) : SplitMap :=
  if m.any (fun e => e.1 == k) then m.map (fun e => if e.1 == k then (e.1, e.2 ++ [i]) else e) else m ++ [(k, [i])]

/-- circuitcompiler/ER1CS.go:12 `randInput` -/
def randIn : Name := ['1', '@', 'r', 'a', 'n', 'd', 'o', 'm', 'I', 'n']
/-- circuitcompiler/ER1CS.go:12 `randOutput` -/
def randOut : Name := ['1', '@', 'r', 'a', 'n', 'd', 'o', 'm', 'O', 'u', 't']

/-- circuitcompiler/Programm.go:625-627: public inputs, in order, without an existence check -/
def indexPublics (m : IndexMap) : List Name → IndexMap
  | [] => m
  | v :: vs => indexPublics (m.set v m.length) vs

/-- circuitcompiler/Programm.go:628-633: main inputs that are not yet known -/
def indexInputs (m : IndexMap) : List Name → IndexMap
  | [] => m
  | v :: vs => indexInputs (if m.has v then m else m.set v m.length) vs

/-- circuitcompiler/Programm.go:635-657: gate outputs and the split map -/
def indexGates (m : IndexMap) (sp : SplitMap) : List Gate → Option (IndexMap × SplitMap)
  | [] => some (m, sp)
  | g :: gs =>
    if g.noNew then indexGates m sp gs
    else if m.has g.ident then none
    else
      let m' := m.set g.ident m.length
      indexGates m' (if g.typ = .zeroOrOne then sp.push g.arith.ident (m'.get g.ident) else sp) gs

/-- circuitcompiler/Programm.go:625-662 the whole index map -/
def buildIndex (publics inputs : List Name) (gates : List Gate) (randomize : Bool) : Option (IndexMap × SplitMap) :=
  match indexGates (indexInputs (indexPublics [] publics) inputs) [] gates with
  | none => none
  | some (m, sp) =>
    some (if randomize then (m.set randIn m.length).set randOut ((m.set randIn m.length).length) else m, sp)

/-- Programm.go:681-685: a row of the four matrices -/
structure Row (α : Type) where
  L : α
  R : α
  E : α
  O : α
deriving DecidableEq, Repr

/-- circuitcompiler/ER1CS.go:14-24 `ER1CS` -/
structure R1CS (α : Type) where
  index : IndexMap
  split : SplitMap
  rows : List (Row α)
deriving DecidableEq, Repr

/-- Programm.go:817-818 `WitnessLength` -/
def R1CS.witnessLength {α} (r : R1CS α) : Nat := r.index.length
/-- Programm.go:817 `NumberOfGates` -/
def R1CS.numberOfGates {α} (r : R1CS α) : Nat := r.rows.length

/-- circuitcompiler/Programm.go:676-681: the swap that keeps the longer form on the left -/
def swapLonger (g : Gate) : Gate :=
  if g.right.length > g.left.length then { g with left := g.right, right := g.left } else g

/-- circuitcompiler/Programm.go:664-673 `insertValue` (dense): numbers go to position 0, values OVERWRITE -/
def insertDense (m : IndexMap) (arr : List Int) (f : Factor) : Option (List Int) :=
  if f.tok.isNum then some (arr.set 0 f.mul)
  else if m.has f.tok.ident then some (arr.set (m.get f.tok.ident) f.mul)
  else none

/-- the loops `for _, val := range g.xIns { insertValue(val, x) }` -/
def formDense (m : IndexMap) (f : Factors) : Option (List Int) :=
  f.foldlM (insertDense m) (List.replicate m.length 0)

/-- a row with a single non-zero entry (`x[i] = v` on a fresh zero array) -/
def unitDense (m : IndexMap) (i : Nat) (v : Int) : List Int := (List.replicate m.length 0).set i v

/-- circuitcompiler/Programm.go:683-793: the row of one gate -/
def rowDense (m : IndexMap) (g0 : Gate) : Option (Row (List Int)) :=
  let g := swapLonger g0
  let z := List.replicate m.length (0 : Int)
  match g.typ with
  | .mult => do
    let a ← formDense m g.left
    let b ← formDense m g.right
    let c ← formDense m g.out
    pure ⟨a, b, z, c⟩
  | .scalarBase => do
    let e ← formDense m g.expo
    pure ⟨z, z, e, unitDense m (m.get g.ident) 1⟩
  | .equality => do
    let a ← formDense m g.left
    let c ← formDense m g.right
    pure ⟨a, unitDense m 0 1, z, c⟩
  | .zeroOrOne =>
    some ⟨(unitDense m 0 (-1)).set (m.get g.ident) 1, unitDense m (m.get g.ident) 1, z, z⟩
  | .addition => do
    let a ← formDense m g.left
    let c ← formDense m g.out
    pure ⟨a, unitDense m 0 1, z, c⟩
  | .sumCheck => do
    let a ← formDense m g.left
    pure ⟨a, unitDense m 0 1, z, unitDense m (m.get g.arith.ident) 1⟩

/-- circuitcompiler/Programm.go:796-814: the randomizer row -/
def randRowDense (m : IndexMap) : Option (Row (List Int)) := do
  let i ← formDense m [argF randIn 1]
  let o ← formDense m [argF randOut 1]
  pure ⟨i, i, i, o⟩

/-- circuitcompiler/Programm.go:613-820 `GatesToR1CS` -/
def gatesToR1CS (publics inputs : List Name) (gates : List Gate) (randomize : Bool) : Option (R1CS (List Int)) := do
  let (m, sp) ← buildIndex publics inputs gates randomize
  let rows ← gates.mapM (rowDense m)
  if randomize then
    let r ← randRowDense m
    pure ⟨m, sp, rows ++ [r]⟩
  else pure ⟨m, sp, rows⟩

/-- circuitcompiler/Programm.go:881-890 `insertValue` (sparse): the value is ADDED (mod Q) at the position of the identifier,
also for numbers, whose text is usually unknown to the map and then means position 0. -/
def insertSparse (q : Nat) (m : IndexMap) (t : Tree) (f : Factor) : Option Tree :=
  if !f.tok.isNum && !m.has f.tok.ident then none
  else t.treePut (m.get f.tok.ident) f.mul (Sparse.addCb q)

/-- the loops over the factors of one side (sparse) -/
def formSparse (q : Nat) (m : IndexMap) (f : Factors) : Option Tree := f.foldlM (insertSparse q m) nil

/-- circuitcompiler/Programm.go:892-1009: the sparse row of one gate -/
def rowSparse (q : Nat) (m : IndexMap) (g0 : Gate) : Option (Row Tree) :=
  let g := swapLonger g0
  match g.typ with
  | .mult => do
    let a ← formSparse q m g.left
    let b ← formSparse q m g.right
    let c ← formSparse q m g.out
    pure ⟨a, b, nil, c⟩
  | .scalarBase => do
    let e ← formSparse q m g.expo
    let c ← nil.insert (m.get g.ident) 1
    pure ⟨nil, nil, e, c⟩
  | .equality => do
    let a ← formSparse q m g.left
    let c ← formSparse q m g.right
    let b ← nil.insert 0 1
    pure ⟨a, b, nil, c⟩
  | .zeroOrOne => do
    let a ← nil.insert 0 (-1)
    let a ← a.insert (m.get g.ident) 1
    let b ← nil.insert (m.get g.ident) 1
    pure ⟨a, b, nil, nil⟩
  | .addition => do
    let a ← formSparse q m g.left
    let b ← nil.insert 0 1
    let c ← formSparse q m g.out
    pure ⟨a, b, nil, c⟩
  | .sumCheck => do
    let a ← formSparse q m g.left
    let b ← nil.insert 0 1
    let c ← nil.insert (m.get g.arith.ident) 1
    pure ⟨a, b, nil, c⟩

/-- circuitcompiler/Programm.go:1012-1029: the randomizer row (sparse) -/
def randRowSparse (q : Nat) (m : IndexMap) : Option (Row Tree) := do
  let i ← formSparse q m [argF randIn 1]
  let o ← formSparse q m [argF randOut 1]
  pure ⟨i, i, i, o⟩

/-- circuitcompiler/Programm.go:829-1033 `GatesToSparseR1CS` (same index map construction) -/
def gatesToSparseR1CS (q : Nat) (publics inputs : List Name) (gates : List Gate) (randomize : Bool) :
    Option (R1CS Tree) := do
  let (m, sp) ← buildIndex publics inputs gates randomize
  let rows ← gates.mapM (rowSparse q m)
  if randomize then
    let r ← randRowSparse q m
    pure ⟨m, sp, rows ++ [r]⟩
  else pure ⟨m, sp, rows⟩

/-- circuitcompiler/Programm.go:107-121 `CombineInputs`; panics on a length mismatch -/
def combineInputs (abs : List Name) (conc : List Int) : Option (List (Name × Int)) :=
  if abs.length ≠ conc.length then none else some (abs.zip conc)

end APS.Circuit
