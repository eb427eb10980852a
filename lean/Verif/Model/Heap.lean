import Verif.Model.Program

/-!
The program layer with the sharing of big.Int cells.

`factor.multiplicative` and `function.value` are pointers (`*big.Int`).  `negateFactors` (factorHandling.go:239-248)
negates the cells of its argument in place, so every other holder of such a pointer sees the change.  This file repeats
Model/Factors.lean, Model/Compile.lean and Model/Program.lean with pointers:

* `HW.cells` are the cells; cell 0 is the package variable `bigOne`, cell 1 is `bigZero` (factorHandling.go:14-15).
* The types `Factor`, `Gate`, `FObj`, … of the value model are used again, but HERE THE NUMBER IN `Factor.mul` AND IN
  `FObj.value` IS THE ADDRESS OF A CELL.  `val`, `rdFs`, `rdGate`, … read the values that are in the cells now.
* Slices are not shared: `compile` returns a slice that is fresh (a literal, `make`, `clone`, or the slice of an operand
  that is handed on), and its only holder is the caller or the gate it is put into.  So slices stay lists.
* A cell that no pointer reaches any more (the clones that `extractGCD` and `invertFactors` replace, the second call of
  `field.Add` in `combineFunctions`) is not allocated.
* `thrown`, `kept` and `dropped` are the ghosts of the value model; they record values.
* `full` is a ghost: it becomes false when an operand of `*` or `/` is the call of a function that returns nothing.
* `clean` is a ghost: it becomes false when a subtraction negates the number of a constant variable or `bigOne`.
-/
namespace APS.Alias
open APS.Lex (Token TokenType)
open APS.Parse (Constraint)
open APS.Circuit
open APS.Prog

/-- the big.Int cells -/
abbrev Cells := List Int

/-- the value of the cell with this address -/
def val (cs : Cells) (a : Int) : Int := cs.getD a.toNat 0

/-- circuitcompiler/factorHandling.go:15 `bigOne` -/
def bigOne : Int := 0
/-- circuitcompiler/factorHandling.go:14 `bigZero` -/
def bigZero : Int := 1

/-- the cells when the package is loaded -/
def cells0 : Cells := [1, 0]

/-- read a factor -/
def rdF (cs : Cells) (f : Factor) : Factor := { f with mul := val cs f.mul }
/-- read a linear form -/
def rdFs (cs : Cells) (l : Factors) : Factors := l.map (rdF cs)
/-- read a gate -/
def rdGate (cs : Cells) (g : Gate) : Gate :=
  { g with left := rdFs cs g.left, right := rdFs cs g.right, expo := rdFs cs g.expo, out := rdFs cs g.out }
/-- read a gate container -/
def rdSt (cs : Cells) (s : St) : St := { s with c := { s.c with gates := s.c.gates.map (rdGate cs) } }
/-- read a function object -/
def rdObj (cs : Cells) (f : FObj) : FObj := if f.isNumber then { f with value := val cs f.value } else f
/-- read the function objects -/
def rdMem (cs : Cells) (m : Mem) : Mem := { m with objs := m.objs.map (rdObj cs) }
/-- read the results of `compile` -/
def rdRes (cs : Cells) (r : Res) : Res := { r with facs := rdFs cs r.facs, fkt := rdObj cs r.fkt }

/-- `big.NewInt`, or any operation of math/big or of the field that returns a new number -/
def newCell (cs : Cells) (v : Int) : Int × Cells := (cs.length, cs ++ [v])

/-- fresh cells for a whole linear form with these values (`clone`, factorHandling.go:46-52) -/
def newForm : Factors → Cells → Factors × Cells
  | [], cs => ([], cs)
  | f :: fs, cs => (⟨f.tok, cs.length⟩ :: (newForm fs (cs ++ [f.mul])).1, (newForm fs (cs ++ [f.mul])).2)

/-! ### linear forms -/

/-- circuitcompiler/Programm.go:217-223: a `NumberToken` gets a new cell (finiteField.go:62-65) -/
def hCompileNum (q : Nat) (text : Name) (cs : Cells) : Option (Factors × Cells) :=
  (compileNum q text).map fun f => newForm f cs

/-- one insertion of `sort.insertionSort`; `Less` prints the values the cells have now (factorHandling.go:32-44) -/
def hInsert (cs : Cells) (x : Factor) : Factors → Factors
  | [] => [x]
  | y :: ys => if strLt (rdF cs x).str (rdF cs y).str then y :: hInsert cs x ys else x :: y :: ys

/-- `sort.Sort(facs)`: moves the pointers -/
def hSort (cs : Cells) (l : Factors) : Factors := l.foldl (fun acc x => hInsert cs x acc) []

/-- circuitcompiler/factorHandling.go:116-163 `mulFactors`: every element of the longer slice is replaced by a new product,
unless the shorter slice is empty; then the longer slice is returned as it is. -/
def hMulFactors (q : Nat) (l r : Factors) (cs : Cells) : Option (Factors × Cells) :=
  if l = [] then some (r, cs)
  else if r = [] then some (l, cs)
  else (mulFactors q (rdFs cs l) (rdFs cs r)).map fun f => newForm f cs

/-- circuitcompiler/factorHandling.go:177-195 `addFactor`: the sum is a new number -/
def hAddFactor (q : Nat) (l r : Factor) (cs : Cells) : Option (Factor × Cells) :=
  (addFactor q (rdF cs l) (rdF cs r)).map fun f => (⟨f.tok, cs.length⟩, cs ++ [f.mul])

/-- circuitcompiler/factorHandling.go:205-216: the other right factors keep their pointers -/
def hAddInto (q : Nat) (l : Factor) : Factors → Cells → Option (Factors × Cells)
  | [], _ => none
  | r :: rs, cs => match hAddFactor q l r cs with
    | some (s, cs) => some (s :: rs, cs)
    | none => (hAddInto q l rs cs).map fun (rs, cs) => (r :: rs, cs)

/-- circuitcompiler/factorHandling.go:202-220: a left factor that matches nothing keeps its pointer -/
def hAddLoop (q : Nat) : Factors → Factors → Cells → Factors × Factors × Cells
  | [], right, cs => ([], right, cs)
  | l :: ls, right, cs => match hAddInto q l right cs with
    | some (right', cs') => hAddLoop q ls right' cs'
    | none => let p := hAddLoop q ls right cs; (l :: p.1, p.2)

/-- circuitcompiler/factorHandling.go:199-238 `addFactors`; the default is the package variable `bigZero` -/
def hAddFactors (q : Nat) (l r : Factors) (cs : Cells) : Factors × Cells :=
  let p := hAddLoop q l r cs
  let cs := p.2.2
  let res := p.1 ++ p.2.1.filter (fun f => val cs f.mul ≠ val cs bigZero)
  (if res = [] then [⟨⟨true, ['0']⟩, bigZero⟩] else res, cs)

/-- circuitcompiler/factorHandling.go:239-248 `negateFactors`: `x.Neg(x)` writes into the cell -/
def hNegate : Factors → Cells → Factors × Cells
  | [], cs => ([], cs)
  | f :: fs, cs =>
    let cs := cs.modify f.mul.toNat (- ·)
    let f := if f.tok.isNum then { f with tok := ⟨true, intStr (val cs f.mul)⟩ } else f
    (f :: (hNegate fs cs).1, (hNegate fs cs).2)

/-! ### gates -/

/-- circuitcompiler/gate.go:46-59 `setAndGetID` -/
def hSetAndGetID (H : Name → Nat) (cs : Cells) (g : Gate) : Option Gate :=
  (sig16 (gateHash H (rdGate cs g))).map fun s =>
    { g with left := hSort cs g.left, right := hSort cs g.right, expo := hSort cs g.expo, out := hSort cs g.out, ident := s }

/-- circuitcompiler/gate.go:39-44 `ID` -/
def hWithID (H : Name → Nat) (cs : Cells) (g : Gate) : Option Gate :=
  if g.ident = [] then hSetAndGetID H cs g else some g

/-- circuitcompiler/Programm.go:64-74 `Add`, with the later assignment `post` and the ghost `dropped` -/
def hAdd (H : Name → Nat) (cs : Cells) (s : St) (g : Gate) (post : Gate → Gate := id) : Option (St × Gate) :=
  match hWithID H cs g with
  | none => none
  | some g' =>
    if g'.ident ∈ s.c.computed then
      some (⟨s.c, if (post g').ident ∈ s.c.computed then s.dropped ++ [rdGate cs (post g')] else s.dropped⟩, post g')
    else some (⟨⟨s.c.gates ++ [post g'], s.c.computed ++ [g'.ident]⟩,
      if (post g').ident ∈ s.c.computed then s.dropped ++ [rdGate cs (post g')] else s.dropped⟩, post g')

/-- circuitcompiler/Programm.go:553-572 `*`: the operands are cloned (factorHandling.go:101), the result is a new number,
`outIns` holds `bigOne` -/
def hMulGate (H : Name → Nat) (q : Nat) (l r : Factors) (s : St) (cs : Cells) : Option (Factors × St × Cells) := do
  if isSingleNumber l || isSingleNumber r then
    let (f, cs) ← hMulFactors q l r cs
    pure (f, s, cs)
  else
    let (k, l', r') ← extractConstant q (rdFs cs l) (rdFs cs r)
    let (l', cs) := newForm l' cs
    let (r', cs) := newForm r' cs
    let (s', g) ← hAdd H cs s { typ := .mult, left := l', right := r' } (fun g => { g with out := [argF g.ident bigOne] })
    let (k, cs) := newCell cs k
    pure ([argF g.ident k], s', cs)

/-- circuitcompiler/Programm.go:573-597 `/` -/
def hDivGate (H : Name → Nat) (q : Nat) (l r : Factors) (s : St) (cs : Cells) : Option (Factors × St × Cells) := do
  if isSingleNumber r then
    let i ← invertFactors q (rdFs cs r)
    let (i, cs) := newForm i cs
    let (f, cs) ← hMulFactors q l i cs
    pure (f, s, cs)
  else
    let (gl, l') ← factorSignature (rdFs cs l)
    let (gr, r') ← factorSignature (rdFs cs r)
    let k ← Fq.div q gl gr
    let (l', cs) := newForm l' cs
    let (r', cs) := newForm r' cs
    let (s', g) ← hAdd H cs s { typ := .mult, right := r', out := l' } (fun g => { g with left := [argF g.ident bigOne] })
    let (k, cs) := newCell cs k
    pure ([argF g.ident k], s', cs)

/-- circuitcompiler/Programm.go:456-472 `scalarBaseMultiply`: the gate keeps the operand, the result holds `bigOne` -/
def hBaseGate (H : Name → Nat) (e : Factors) (s : St) (cs : Cells) : Option (Factors × St) := do
  let (s', g) ← hAdd H cs s { typ := .scalarBase, expo := e }
  pure ([argF g.ident bigOne], s')

/-- circuitcompiler/Programm.go:427-455 `addGateConstraint` -/
def hAddGateConstraint (H : Name → Nat) (q : Nat) (l r : Factors) (s : St) (cs : Cells) :
    Option (Factors × St × Cells) := do
  let (k, l', r') ← extractConstant q (rdFs cs l) (rdFs cs r)
  let (l', cs) := newForm l' cs
  let (r', cs) := newForm r' cs
  let (f, cs) := hAddFactors q l' r' cs
  let (s', g) ← hAdd H cs s { typ := .addition, left := f } (fun g => { g with out := [argF g.ident bigOne] })
  let (k, cs) := newCell cs k
  pure ([argF g.ident k], s', cs)

/-- circuitcompiler/Programm.go:24-57 `completeFunction`: the gate keeps the operand, `outIns` holds `bigOne` -/
def hComplete (H : Name → Nat) (f : Factors) (s : St) (cs : Cells) : Option St :=
  if f = [] ∨ isSingleNumber f = true then some s
  else match f with
    | [x] => if val cs x.mul = val cs bigOne then some s else completeAdd
    | _ => completeAdd
where
  /-- Programm.go:42-55 -/
  completeAdd : Option St := do
    let sig ← signature H (rdFs cs f)
    let (s', _) ← hAdd H cs s { typ := .addition, ident := sig, left := f, out := [argF sig bigOne] }
    pure s'

/-- circuitcompiler/Programm.go:382-397: the zero-or-one gates -/
def hSplitLoop (H : Name → Nat) (cs : Cells) (z : Tok) : List Nat → St → Option St
  | [], s => some s
  | i :: is, s => do
    let (s', _) ← hAdd H cs s { typ := .zeroOrOne, ident := bitName i z.ident, arith := z }
    hSplitLoop H cs z is s'

/-- circuitcompiler/Programm.go:359-412 `SPLIT`: `Lsh(bigOne, i)` are new numbers -/
def hSplitGate (H : Name → Nat) (q : Nat) (f : Factors) (s : St) (cs : Cells) : Option (St × Cells) :=
  match f with
  | [x] => do
    let N := Fq.bitLen q
    let s' ← hSplitLoop H cs x.tok (List.range N) s
    let (bits, cs) := newForm ((List.range N).map fun (i : Nat) => argF (bitName i x.tok.ident) (val cs bigOne * 2 ^ i)) cs
    let (s2, _) ← hAdd H cs s' { typ := .sumCheck, arith := x.tok, noNew := true, left := bits }
    pure (s2, cs)
  | _ => none

/-! ### storing -/

/-- circuitcompiler/factorHandling.go:277-312 `factor.primitiveReturnfunction`: `c.value = from.multiplicative` shares the cell -/
def hStoreOne (cs : Cells) (m : Mem) (f : Factor) : Nat × Mem :=
  let (a, m) := m.newCircuit f.tok.ident none
  if f.tok.isNum then
    (a, m.update a fun g => { g with tasks := [node .ret [] [.mk (tokOf f.tok) []]], isNumber := true, value := f.mul })
  else if val cs f.mul = val cs bigOne then
    (a, m.update a fun g => { g with tasks := [node .ret [] [.mk (tokOf f.tok) []]] })
  else
    (a, m.update a fun g => { g with tasks :=
      [node .ret [] [node .arithmetic ['*'], node .number (intStr (val cs f.mul)), .mk (tokOf f.tok) []]] })

/-- circuitcompiler/factorHandling.go:315-385 `combineFunctions("+", a, b)` -/
def hCombine (q : Nat) (m : Mem) (a b : Nat) (cs : Cells) : Option (Nat × Mem × Cells) := do
  let fa ← m.objs[a]?
  let fb ← m.objs[b]?
  if fa.isNumber && fb.isNumber then
    let v := Fq.add q (val cs fa.value) (val cs fb.value)
    let (k, cs) := newCell cs v
    let (r, m) := hStoreOne cs m ⟨⟨true, intStr v⟩, k⟩
    pure (r, m, cs)
  else
    let (r, m) := m.newCircuit [] none
    let m ← m.setFunction r fa.name a
    let m ← m.setFunction r fb.name b
    pure (r, m.update r fun g => { g with tasks :=
      [node .ret [] [node .arithmetic ['+'], node .functionCall fa.name, node .functionCall fb.name]] }, cs)

/-- circuitcompiler/factorHandling.go:267-275 `factors.primitiveReturnfunction` -/
def hStore (q : Nat) : Factors → Mem → Cells → Option (Nat × Mem × Cells)
  | [], m, cs => let (a, m) := m.alloc {}; some (a, m, cs)
  | [f], m, cs => let (a, m) := hStoreOne cs m f; some (a, m, cs)
  | f :: fs, m, cs => do
    let (a, m) := hStoreOne cs m f
    let (b, m, cs) ← hStore q fs m cs
    hCombine q m a b cs

/-! ### execution -/

/-- function objects, gates, cells and the ghosts -/
structure HW where
  m : Mem
  s : St := {}
  cells : Cells := cells0
  thrown : List (Factors × St) := []
  kept : List Factors := []
  clean : Bool := true
  full : Bool := true

/-- what the state amounts to when it is read now -/
def HW.rd (w : HW) : W := ⟨rdMem w.cells w.m, rdSt w.cells w.s, w.thrown, w.kept⟩

/-- does a constant variable (or a constant argument) hold this cell? -/
def constant (w : HW) (a : Int) : Bool := w.m.objs.any fun f => f.isNumber && decide (f.value = a)

/-- Ghost: negating the cells of `l` changes neither the number of a constant variable nor the package variable `bigOne`.
(A zero stays what it is, in particular the package variable `bigZero`.) -/
def harmless (w : HW) (l : Factors) : Bool :=
  l.all fun f => val w.cells f.mul = 0 || f.mul = bigZero || (f.mul ≠ bigOne && !(f.tok.isNum && constant w f.mul))

/-- the type of `compile` -/
abbrev HComp := Nat → Constraint → HW → Option (Res × HW)

/-- circuitcompiler/Programm.go:198-208 `execute` -/
def hExecTasks (comp : HComp) (cur : Nat) : List Constraint → HW → Option (Res × HW)
  | [], w => some ({}, w)
  | t :: ts, w => do
    let (r, w) ← comp cur t w
    if r.ret then pure ({ r with ret := true }, w) else hExecTasks comp cur ts w

/-- circuitcompiler/Programm.go:198-208 `execute` -/
def hExecFunction (comp : HComp) (a : Nat) (w : HW) : Option (Res × HW) := do
  let f ← w.m.objs[a]?
  hExecTasks comp a f.tasks w

/-- circuitcompiler/circuit.go:393-444 `checkStaticCondition`: both operands are compiled before the cells are compared -/
def hCheckStatic (comp : HComp) (cur : Nat) (c : Constraint) (w : HW) : Option (Bool × HW) := do
  match c.inputs with
  | op :: l :: r :: _ =>
    let (a, w1) ← comp cur l { w with s := {} }
    let (b, w2) ← comp cur r { w1 with s := {} }
    let cs := w2.cells
    let w' : HW := { w2 with s := w.s, thrown := w2.thrown ++ [(rdFs cs a.facs, rdSt cs w1.s), (rdFs cs b.facs, rdSt cs w2.s)] }
    match rdFs cs a.facs, rdFs cs b.facs with
    | [x], [y] =>
      if x.tok.isNum && y.tok.isNum then
        if op.output.text = "==".toList then pure (decide (x.mul = y.mul), w')
        else if op.output.text = "!=".toList then pure (decide (x.mul ≠ y.mul), w')
        else if op.output.text = ">".toList then pure (decide (y.mul < x.mul), w')
        else if op.output.text = ">=".toList then pure (decide (y.mul ≤ x.mul), w')
        else if op.output.text = "<".toList then pure (decide (x.mul < y.mul), w')
        else if op.output.text = "<=".toList then pure (decide (x.mul ≤ y.mul), w')
        else none
      else none
    | _, _ => none
  | _ => none

/-- circuitcompiler/Programm.go:160-180 `resolveArrayName`: reads the text of the index, not its cell -/
def hResolveArray (comp : HComp) (cur : Nat) : List Constraint → Name → HW → Option (Name × HW)
  | [], n, w => some (n, w)
  | i :: is, n, w => do
    let (r, w1) ← comp cur i { w with s := {} }
    let w1 : HW := { w1 with s := w.s, thrown := w1.thrown ++ [(rdFs w1.cells r.facs, rdSt w1.cells w1.s)] }
    match r.facs with
    | [x] =>
      match x.tok.isNum, parseInt x.tok.ident with
      | true, some k =>
        if 0 ≤ k ∧ k < 2 ^ 63 then hResolveArray comp cur is (n ++ '[' :: (Nat.toDigits 10 k.toNat ++ [']'])) w1 else none
      | _, _ => none
    | _ => none

/-- circuitcompiler/Programm.go:500-509: the arguments of a call become function objects -/
def hCallArgs (q : Nat) (comp : HComp) (cur : Nat) : List Constraint → HW → Option (List Nat × HW)
  | [], w => some ([], w)
  | v :: vs, w => do
    let (r, w) ← comp cur v w
    if r.facs = [] then
      let (a, m) := w.m.alloc r.fkt
      let (as, w) ← hCallArgs q comp cur vs { w with m := m }
      pure (a :: as, w)
    else
      let (a, m, cs) ← hStore q r.facs w.m w.cells
      let (as, w) ← hCallArgs q comp cur vs { w with m := m, cells := cs, kept := w.kept ++ [rdFs w.cells r.facs] }
      pure (a :: as, w)

/-- circuitcompiler/Programm.go:488-520: the call of a user function -/
def hCallUser (q : Nat) (comp : HComp) (cur : Nat) (name : Name) (args : List Constraint) (w : HW) : Option (Res × HW) := do
  let f ← w.m.findFunction w.m.depth (some cur) name
  let (nxt, m) ← flatCopy w.m.depth w.m f
  let (as, w) ← hCallArgs q comp cur args { w with m := m }
  let (ready, m) ← loadArgs w.m nxt as
  let w : HW := { w with m := m }
  if ready then
    let (r, w) ← hExecFunction comp nxt w
    pure ({ r with ret := false }, w)
  else
    let o ← w.m.objs[nxt]?
    pure ({ fkt := o }, w)

/-- circuitcompiler/Programm.go:524-608: the arithmetic operators -/
def hOperate (H : Name → Nat) (q : Nat) (comp : HComp) (cur : Nat) (isRet : Bool) : List Constraint → HW → Option (Res × HW)
  | [op, l, r], w =>
    if op.output.type = .arithmetic then
      if op.output.text = ['*'] then do
        let (a, w) ← comp cur l w
        let (b, w) ← comp cur r w
        let (f, s, cs) ← hMulGate H q a.facs b.facs w.s w.cells
        pure ({ facs := f, ret := isRet }, { w with s := s, cells := cs, full := w.full && a.facs ≠ [] && b.facs ≠ [] })
      else if op.output.text = ['/'] then do
        let (a, w) ← comp cur l w
        let (b, w) ← comp cur r w
        let (f, s, cs) ← hDivGate H q a.facs b.facs w.s w.cells
        pure ({ facs := f, ret := isRet }, { w with s := s, cells := cs, full := w.full && a.facs ≠ [] && b.facs ≠ [] })
      else if op.output.text = ['+'] then do
        let (a, w) ← comp cur l w
        let (b, w) ← comp cur r w
        let (f, cs) := hAddFactors q a.facs b.facs w.cells
        pure ({ facs := f, ret := isRet }, { w with cells := cs })
      else if op.output.text = ['-'] then do
        let (a, w) ← comp cur l w
        let (b, w) ← comp cur r w
        let ok := harmless w b.facs
        let (b', cs) := hNegate b.facs w.cells
        let (f, cs) := hAddFactors q a.facs b' cs
        pure ({ facs := f, ret := isRet }, { w with cells := cs, clean := w.clean && ok })
      else none
    else none
  | _, _ => none

/-- circuitcompiler/Programm.go:352-361: `BREAK` compiles its arguments and prints them -/
def hBreakArgs (comp : HComp) (cur : Nat) : List Constraint → HW → Option HW
  | [], w => some w
  | v :: vs, w => do
    let (_, w) ← comp cur v w
    hBreakArgs comp cur vs w

/-- circuitcompiler/Programm.go:351-520: the case `FUNCTION_CALL`; the gate of `equal` keeps both operands -/
def hCallFunction (H : Name → Nat) (q : Nat) (comp : HComp) (cur : Nat) (name : Name) (is : List Constraint) (w : HW) :
    Option (Res × HW) :=
  if name = "BREAK".toList then do
    let w ← hBreakArgs comp cur is w
    pure ({}, w)
  else if name = "SPLIT".toList then
    match is with
    | [a] => do
      let (r, w) ← comp cur a w
      let (s, cs) ← hSplitGate H q r.facs w.s w.cells
      pure ({}, { w with s := s, cells := cs })
    | _ => none
  else if name = "AND".toList ∨ name = "NAND".toList ∨ name = "OR".toList ∨ name = "NOT".toList then none
  else if name = "addGateConstraint".toList then
    match is with
    | [a, b] => do
      let (x, w) ← comp cur a w
      let (y, w) ← comp cur b w
      let (f, s, cs) ← hAddGateConstraint H q x.facs y.facs w.s w.cells
      pure ({ facs := f }, { w with s := s, cells := cs })
    | _ => none
  else if name = "scalarBaseMultiply".toList then
    match is with
    | [a] => do
      let (x, w) ← comp cur a w
      let (f, s) ← hBaseGate H x.facs w.s w.cells
      pure ({ facs := f }, { w with s := s })
    | _ => none
  else if name = "equal".toList then
    match is with
    | [a, b] => do
      let (x, w) ← comp cur a w
      let (y, w) ← comp cur b w
      let (s, _) ← hAdd H w.cells w.s { typ := .equality, left := x.facs, right := y.facs, noNew := true }
      pure ({}, { w with s := s })
    | _ => none
  else hCallUser q comp cur name is w

/-- circuitcompiler/Programm.go:300-307: the name of the variable that is overloaded -/
def hTargetName (comp : HComp) (cur : Nat) (x : Constraint) (w : HW) : Option (Name × HW) :=
  if x.output.type = .arrayCall then hResolveArray comp cur x.inputs x.output.text w else some (x.output.text, w)

/-- circuitcompiler/Programm.go:309-323: the new value of the variable -/
def hAssignTo (q : Nat) (cur : Nat) (name : Name) (r : Res) (w : HW) : Option (Res × HW) := do
  let owner ← w.m.findOwner w.m.depth (some cur) name
  if r.facs = [] then do
    let (a, m) := w.m.alloc r.fkt
    let m ← m.setFunction owner name a
    pure ({}, { w with m := m })
  else do
    let (a, m, cs) ← hStore q r.facs w.m w.cells
    let m ← m.setFunction owner name a
    pure ({ facs := r.facs }, { w with m := m, cells := cs, kept := w.kept ++ [rdFs w.cells r.facs] })

/-- circuitcompiler/Programm.go:214-610 `compile`, with the recursive calls as a parameter.  Line 230: reading a number
variable returns the pointer `f.value`. -/
def hCompileStep (H : Name → Nat) (q : Nat) (comp : HComp) (cur : Nat) (k : Constraint) (w : HW) : Option (Res × HW) :=
  match k.output.type with
  | .number => (hCompileNum q k.output.text w.cells).map fun (f, cs) => ({ facs := f }, { w with cells := cs })
  | .identifier => do -- Programm.go:224-243
    let a ← w.m.findFunction w.m.depth (some cur) k.output.text
    let f ← w.m.objs[a]?
    if f.isNumber then pure ({ facs := [⟨⟨true, f.name⟩, f.value⟩] }, w)
    else if f.inputs = [] then do
      let con ← w.m.findConstraint w.m.depth (some cur) k.output.text
      comp cur con w
    else pure ({ fkt := f }, w)
  | .forT => -- Programm.go:245-262
    match k.inputs with
    | c :: step :: _ => do
      let (go, w) ← hCheckStatic comp cur c w
      if go then do
        let (r, w) ← comp cur (node .functionCall k.output.text) w
        if r.ret then pure ({ r with ret := true }, w)
        else do
          let (_, w) ← comp cur step w
          comp cur k w
      else pure ({}, w)
    | _ => none
  | .unassigned => -- Programm.go:263-275
    match k.inputs with
    | [] => do
      let f ← w.m.objs[cur]?
      let con ← f.cmap.lookup k.output.text
      comp cur con w
    | [c] => comp cur c w
    | _ => hOperate H q comp cur false k.inputs w
  | .ret => -- Programm.go:276-288
    match k.inputs with
    | [] => let (c, cs) := newCell w.cells 1; some ({ facs := [⟨⟨true, []⟩, c⟩], ret := true }, { w with cells := cs })
    | [c] => do
      let (r, w) ← comp cur c w
      pure ({ r with ret := true }, w)
    | _ => hOperate H q comp cur true k.inputs w
  | .argument => let (c, cs) := newCell w.cells 1; some ({ facs := [argF k.output.text c] }, { w with cells := cs })
  | .varOverload => -- Programm.go:295-324
    match k.inputs with
    | [x, e] => do
      let (name, w) ← hTargetName comp cur x w
      let (r, w) ← comp cur e w
      hAssignTo q cur name r w
    | _ => none
  | .arrayCall => do -- Programm.go:326-334
    let (name, w) ← hResolveArray comp cur k.inputs k.output.text w
    let con ← w.m.findConstraint w.m.depth (some cur) name
    let (r, w) ← comp cur con w
    pure ({ r with ret := false }, w)
  | .ifT => -- Programm.go:335-345
    match k.inputs with
    | [] => comp cur (node .ifFunctionCall k.output.text) w
    | c :: _ => do
      let (go, w) ← hCheckStatic comp cur c w
      if go then comp cur (node .ifFunctionCall k.output.text) w else pure ({}, w)
  | .ifFunctionCall => do -- Programm.go:346-352
    let a ← w.m.findFunction w.m.depth (some cur) k.output.text
    hExecFunction comp a w
  | .functionCall => hCallFunction H q comp cur k.output.text k.inputs w
  | _ => hOperate H q comp cur false k.inputs w

/-- circuitcompiler/Programm.go:214-610 `compile`; the fuel bounds the depth of the recursion -/
def hCompile (H : Name → Nat) (q : Nat) : Nat → HComp
  | 0, _, _, _ => none
  | n + 1, cur, c, w => hCompileStep H q (hCompile H q n) cur c w

/-- circuitcompiler/Programm.go:183-196: the loop of `Execute` -/
def hExecuteTasks (H : Name → Nat) (q : Nat) (n : Nat) (main : Nat) : List Constraint → HW → Option (Factors × HW)
  | [], w => some ([], w)
  | t :: ts, w => do
    let (r, w) ← hCompile H q n main t w
    let s ← hComplete H r.facs w.s w.cells
    let w : HW := { w with s := s }
    if r.ret then pure (r.facs, w) else hExecuteTasks H q n main ts w

/-- circuitcompiler/Programm.go:183-196 `Execute` on a heap whose package variables have the given values -/
def hExecute (H : Name → Nat) (q : Nat) (n : Nat) (m : Mem) (cs : Cells := cells0) : Option (Factors × HW) := do
  let main ← m.ownFunction 0 "main".toList
  let f ← m.objs[main]?
  hExecuteTasks H q n main f.tasks { m := m, cells := cs }

end APS.Alias
