import Verif.Model.Parser
import Verif.Model.Compile

/-!
Model of the program layer: function objects (circuitcompiler/circuit.go) and their execution
(circuitcompiler/Programm.go:123-610) — user functions, partial application, variables, arrays, static `if` and `for`.

* `none` is a panic (or, when the fuel is used up, a computation that is still running).
* A Go `*function` is an index into `Mem.objs`; the field `functions` is a Go map, hence shared by copies of the struct:
  it is an index into `Mem.maps`.  The fields `constraintMap` and `taskStack` are never changed after `preCompile`, so
  they are plain values.  `fmap = none` is the zero value `function{}` (nil map, nil task stack).
* big.Int cells are not shared (value semantics, see Model/Factors.lean).
* An empty list of factors is `nil`: no operation of factorHandling.go returns an empty non-nil slice.
-/
namespace APS.Prog
open APS.Lex (Token TokenType)
open APS.Parse (Constraint)
open APS.Circuit

/-- circuitcompiler/circuit.go:11-30 `function` (field `Outputs` is never used) -/
structure FObj where
  name : Name := []
  isNumber : Bool := false
  value : Int := 0
  inputs : List Name := []
  context : Option Nat := none
  fmap : Option Nat := none
  tasks : List Constraint := []
  cmap : List (Name × Constraint) := []
deriving Repr

/-- the heap -/
structure Mem where
  objs : List FObj := []
  maps : List (List (Name × Nat)) := []
deriving Repr

/-- Go map assignment -/
def put {α} (k : Name) (v : α) : List (Name × α) → List (Name × α)
  | [] => [(k, v)]
  | (k', v') :: rest => if k' = k then (k, v) :: rest else (k', v') :: put k v rest

/-- allocate a struct -/
def Mem.alloc (m : Mem) (f : FObj) : Nat × Mem := (m.objs.length, { m with objs := m.objs ++ [f] })

/-- circuitcompiler/circuit.go:36-41 `newCircuit` -/
def Mem.newCircuit (m : Mem) (name : Name) (context : Option Nat) : Nat × Mem :=
  (m.objs.length, ⟨m.objs ++ [{ name := name, context := context, fmap := some m.maps.length }], m.maps ++ [[]]⟩)

/-- change a struct -/
def Mem.update (m : Mem) (a : Nat) (g : FObj → FObj) : Mem := { m with objs := m.objs.modify a g }

/-- `f.functions[k] = v`; assignment to a nil map panics -/
def Mem.setFunction (m : Mem) (a : Nat) (k : Name) (v : Nat) : Option Mem := do
  let f ← m.objs[a]?
  let i ← f.fmap
  pure { m with maps := m.maps.modify i (put k v) }

/-- `f.functions[k]` -/
def Mem.ownFunction (m : Mem) (a : Nat) (k : Name) : Option Nat := do
  let f ← m.objs[a]?
  let i ← f.fmap
  let mp ← m.maps[i]?
  mp.lookup k

/-- circuitcompiler/circuit.go:313-322 `findFunctionInBloodline`; the fuel bounds the length of the chain of contexts -/
def Mem.findFunction (m : Mem) : Nat → Option Nat → Name → Option Nat
  | 0, _, _ => none
  | _, none, _ => none
  | n + 1, some a, k => match m.ownFunction a k with
    | some f => some f
    | none => m.findFunction n ((m.objs[a]?).bind FObj.context) k

/-- circuitcompiler/circuit.go:325-334 `findConstraintInBloodline` -/
def Mem.findConstraint (m : Mem) : Nat → Option Nat → Name → Option Constraint
  | 0, _, _ => none
  | _, none, _ => none
  | n + 1, some a, k => match (m.objs[a]?).bind (·.cmap.lookup k) with
    | some c => some c
    | none => m.findConstraint n ((m.objs[a]?).bind FObj.context) k

/-- circuitcompiler/circuit.go:346-355 `getCircuitContainingFunctionInBloodline` -/
def Mem.findOwner (m : Mem) : Nat → Option Nat → Name → Option Nat
  | 0, _, _ => none
  | _, none, _ => none
  | n + 1, some a, k => match m.ownFunction a k with
    | some _ => some a
    | none => m.findOwner n ((m.objs[a]?).bind FObj.context) k

/-- contexts are created before the functions in them, so a chain is no longer than the heap -/
def Mem.depth (m : Mem) : Nat := m.objs.length + 1

/-! ### from constraints to function objects -/

/-- a constraint with an empty identifier -/
def node (t : TokenType) (name : Name) (is : List Constraint := []) : Constraint := .mk ⟨t, name⟩ is

/-- circuitcompiler/circuit.go:46-67: one parameter of `RegisterFunctionFromConstraint` -/
def registerArg (a : Nat) (m : Mem) (arg : Constraint) : Option Mem := do
  let n := arg.output.text
  let m := m.update a fun f => { f with
    inputs := f.inputs ++ [n], cmap := put n (node .functionCall n arg.inputs) f.cmap }
  let (r, m) := m.newCircuit n none
  let m := m.update r fun f => { f with tasks := [node .ret [] [arg]] }
  match m.ownFunction a n with
  | some _ => none
  | none => m.setFunction a n r

/-- circuitcompiler/circuit.go:43-70 `RegisterFunctionFromConstraint` -/
def register (m : Mem) (c : Constraint) (context : Nat) : Option (Nat × Mem) := do
  let (a, m) := m.newCircuit c.output.text (some context)
  let m ← c.inputs.foldlM (registerArg a) m
  pure (a, m)

/-- circuitcompiler/circuit.go:264-311 `contextCheck`; `true`: no panic -/
def contextCheck (m : Mem) (cur : Nat) : Constraint → Bool
  | .mk t is => contextCheckAll m cur is && match t.type with
    | .argument => (((m.objs[cur]?).bind (·.cmap.lookup t.text)).isSome)
    | .varOverload | .varDeclare | .arrayDeclare => false
    | .identifier =>
      (m.findConstraint m.depth (some cur) t.text).isSome || (m.findFunction m.depth (some cur) t.text).isSome
    | _ => true
where
  /-- circuit.go:264-268 `contextCheckInputs` -/
  contextCheckAll (m : Mem) (cur : Nat) : List Constraint → Bool
    | [] => true
    | c :: cs => contextCheck m cur c && contextCheckAll m cur cs

/-- circuitcompiler/circuit.go:497-506 `splitAtIfEnd` -/
def splitAtIfEnd : List Constraint → Option (List Constraint × List Constraint)
  | [] => none
  | c :: cs => if c.output.type = .ifElseEnd then some ([], c :: cs)
    else (splitAtIfEnd cs).map fun (l, r) => (c :: l, r)

/-- circuitcompiler/circuit.go:512-517: the types that open a nested part -/
def opensNested (t : TokenType) : Bool := t == .elseT || t == .forT || t == .functionDefine || t == .ifT

/-- circuitcompiler/circuit.go:508-528: the loop of `splitAtNestedEnd` -/
def nestedScan : Int → List Constraint → Option (List Constraint × List Constraint)
  | _, [] => none
  | ctr, c :: cs =>
    let ctr := if opensNested c.output.type then ctr + 1 else ctr
    let ctr := if c.output.type = .nestedEnd then ctr - 1 else ctr
    if ctr = 0 then some ([], cs)
    else (nestedScan ctr cs).map fun (l, r) => (c :: l, r)

/-- circuitcompiler/circuit.go:508-528 `splitAtNestedEnd` -/
def splitAtNestedEnd (cs : List Constraint) : Option (List Constraint × List Constraint) := nestedScan 0 cs

/-- name of the i-th task of a kind: `fmt.Sprintf("%vif", i)` -/
def taskName (i : Nat) (kind : Name) : Name := Nat.toDigits 10 i ++ kind

/-- add a task -/
def Mem.addTask (m : Mem) (a : Nat) (c : Constraint) : Mem := m.update a fun f => { f with tasks := f.tasks ++ [c] }

/-- number of tasks -/
def Mem.taskCount (m : Mem) (a : Nat) : Nat := ((m.objs[a]?).map (·.tasks.length)).getD 0

/-- circuitcompiler/circuit.go:164-201: case `VARIABLE_DECLARE` -/
def declare (m : Mem) (cur : Nat) (o : Token) (is : List Constraint) : Option Mem := do
  let x := o.text
  match m.ownFunction cur x with
  | some _ => none
  | none =>
    let (r, m) := m.newCircuit x (some cur)
    let m := m.update r fun f => { f with tasks := [node .ret [] is] }
    let m ← m.setFunction cur x r
    let m := m.update cur fun f => { f with cmap := put x (node .functionCall x) f.cmap }
    let e ← is.head?
    pure (m.addTask cur (node .varOverload [] [.mk o [], e]))

/-- circuitcompiler/circuit.go:146-163: the elements of an `ARRAY_DECLARE`, each declared (and checked, line 259) as a
variable -/
def declareElems (cur : Nat) (a : Name) : Nat → List Constraint → Mem → Option Mem
  | _, [], m => some m
  | i, e :: es, m => do
    let m ← declare m cur ⟨.varDeclare, a ++ '[' :: (Nat.toDigits 10 i ++ [']'])⟩ [e]
    if contextCheck m cur e then declareElems cur a (i + 1) es m else none

/-- circuitcompiler/circuit.go:72-262 `preCompile`.  Every call is on a shorter list; the fuel is the length plus one. -/
def preCompile : Nat → Mem → Nat → List Constraint → Option Mem
  | 0, _, _, _ => none
  | _ + 1, m, _, [] => some m
  | n + 1, m, cur, c :: cs =>
    let next (m : Mem) : Option Mem :=
      if contextCheck.contextCheckAll m cur c.inputs then preCompile n m cur cs else none
    match c.output.type with
    | .publicT => if (m.objs[cur]?).map FObj.name = some "main".toList then next m else none
    | .ifT => do -- circuit.go:84-121
      let (entire, outside) ← splitAtIfEnd (c :: cs)
      let id1 := taskName (m.taskCount cur) "if".toList
      let (nf, m) := m.newCircuit id1 (some cur)
      let m ← m.setFunction cur id1 nf
      let m := m.addTask cur (node .ifFunctionCall id1)
      let (first, rest) ← splitAtNestedEnd entire
      let id2 := taskName (m.taskCount nf) "if".toList
      let (ic, m) := m.newCircuit "if".toList (some cur)
      let m ← m.setFunction nf id2 ic
      let f0 ← first.head?
      let m := m.addTask nf (node .ifT id2 f0.inputs)
      let m ← preCompile n m cur outside
      let m ← preCompile n m ic (first.drop 1)
      preCompile n m nf rest
    | .elseT => do -- circuit.go:122-144
      let (first, rest) ← splitAtNestedEnd (c :: cs)
      let id2 := taskName (m.taskCount cur) "if".toList
      let (ic, m) := m.newCircuit "else".toList (some cur)
      let m ← m.setFunction cur id2 ic
      let f0 ← first.head?
      let m := m.addTask cur (node .ifT id2 f0.inputs)
      let m ← preCompile n m cur rest
      preCompile n m ic (first.drop 1)
    | .arrayDeclare => -- circuit.go:146-163
      match (m.objs[cur]?).bind (·.cmap.lookup c.output.text) with
      | some _ => none
      | none => do
        let m := m.update cur fun f => { f with cmap := put c.output.text c f.cmap }
        let m ← declareElems cur c.output.text 0 c.inputs m
        next m
    | .varDeclare => do
      let m ← declare m cur c.output c.inputs
      next m
    | .functionDefine => do -- circuit.go:202-224
      let (inside, outside) ← splitAtNestedEnd (c :: cs)
      match m.ownFunction cur c.output.text, (m.objs[cur]?).bind (·.cmap.lookup c.output.text) with
      | none, none =>
        let (nf, m) ← register m c cur
        let m ← m.setFunction cur c.output.text nf
        let m ← preCompile n m cur outside
        preCompile n m nf (inside.drop 1)
      | _, _ => none
    | .forT => do -- circuit.go:225-246
      let (inside, outside) ← splitAtNestedEnd (c :: cs)
      let id2 := taskName (m.taskCount cur) "for".toList
      let (fc, m) := m.newCircuit "for".toList (some cur)
      let m ← m.setFunction cur id2 fc
      let m := m.addTask cur (node .forT id2 c.inputs)
      let m ← preCompile n m cur outside
      preCompile n m fc (inside.drop 1)
    | .varOverload | .functionCall | .ret => next (m.addTask cur c)
    | _ => next m

/-- circuitcompiler/parser.go:69-98 without the tokens: the function objects of a program -/
def program (cs : List Constraint) : Option Mem :=
  let (g, m) := ({} : Mem).newCircuit "global".toList none
  preCompile (cs.length + 1) m g cs

/-! ### copying and storing -/

/-- circuitcompiler/circuit.go:357-377 `flatCopy`.  `isNumber` and `value` are NOT copied.  A zero `function{}` has no
task stack and panics.  The fuel bounds the nesting of functions. -/
def flatCopy : Nat → Mem → Nat → Option (Nat × Mem)
  | 0, _, _ => none
  | n + 1, m, a => do
    let f ← m.objs[a]?
    let i ← f.fmap
    let entries ← m.maps[i]?
    let (c, m) := m.newCircuit f.name f.context
    let m := m.update c fun g => { g with inputs := f.inputs, cmap := f.cmap, tasks := f.tasks }
    let m ← entries.foldlM (fun m (k, v) => do
      let (w, m) ← flatCopy n m v
      let m := m.update w fun g => { g with context := some c }
      m.setFunction c k w) m
    pure (c, m)

/-- the token of a factor -/
def tokOf (t : Tok) : Token := ⟨if t.isNum then .number else .argument, t.ident⟩

/-- circuitcompiler/circuit.go:491-495 `Token.primitiveReturnfunction` and factorHandling.go:277-312
`factor.primitiveReturnfunction` -/
def storeOne (m : Mem) (f : Factor) : Nat × Mem :=
  let (a, m) := m.newCircuit f.tok.ident none
  if f.tok.isNum then
    (a, m.update a fun g => { g with tasks := [node .ret [] [.mk (tokOf f.tok) []]], isNumber := true, value := f.mul })
  else if f.mul = 1 then
    (a, m.update a fun g => { g with tasks := [node .ret [] [.mk (tokOf f.tok) []]] })
  else
    (a, m.update a fun g => { g with tasks :=
      [node .ret [] [node .arithmetic ['*'], node .number (intStr f.mul), .mk (tokOf f.tok) []]] })

/-- circuitcompiler/factorHandling.go:315-385 `combineFunctions("+", a, b)` -/
def combine (q : Nat) (m : Mem) (a b : Nat) : Option (Nat × Mem) := do
  let fa ← m.objs[a]?
  let fb ← m.objs[b]?
  if fa.isNumber && fb.isNumber then
    pure (storeOne m (numF (Fq.add q fa.value fb.value)))
  else
    let (r, m) := m.newCircuit [] none
    let m ← m.setFunction r fa.name a
    let m ← m.setFunction r fb.name b
    pure (r, m.update r fun g => { g with tasks :=
      [node .ret [] [node .arithmetic ['+'], node .functionCall fa.name, node .functionCall fb.name]] })

/-- circuitcompiler/factorHandling.go:267-275 `factors.primitiveReturnfunction` -/
def store (q : Nat) : Factors → Mem → Option (Nat × Mem)
  | [], m => some (m.alloc {})
  | [f], m => some (storeOne m f)
  | f :: fs, m => do
    let (a, m) := storeOne m f
    let (b, m) ← store q fs m
    combine q m a b

/-! ### execution -/

/-- the three results of `compile` -/
structure Res where
  facs : Factors := []
  ret : Bool := false
  fkt : FObj := {}
deriving Repr

/-- Heap and gates.  `thrown` is not in the code: it records the values of static operands (conditions and indices) and the
containers with their gates, which the code throws away.  Nor is `kept`: it records the forms that are stored as function
objects (arguments of calls, values of variables). -/
structure W where
  m : Mem
  s : St := {}
  thrown : List (Factors × St) := []
  kept : List Factors := []

/-- the type of `compile` (Programm.go:214) with the fuel fixed: current function, constraint, state -/
abbrev Comp := Nat → Constraint → W → Option (Res × W)

/-- circuitcompiler/Programm.go:198-208 `execute` -/
def execTasks (comp : Comp) (cur : Nat) : List Constraint → W → Option (Res × W)
  | [], w => some ({}, w)
  | t :: ts, w => do
    let (r, w) ← comp cur t w
    if r.ret then pure ({ r with ret := true }, w) else execTasks comp cur ts w

/-- circuitcompiler/Programm.go:198-208 `execute` -/
def execFunction (comp : Comp) (a : Nat) (w : W) : Option (Res × W) := do
  let f ← w.m.objs[a]?
  execTasks comp a f.tasks w

/-- circuitcompiler/circuit.go:393-444 `checkStaticCondition`: the gates of the operands go into throw-away containers -/
def checkStatic (comp : Comp) (cur : Nat) (c : Constraint) (w : W) : Option (Bool × W) := do
  match c.inputs with
  | op :: l :: r :: _ =>
    let (a, w1) ← comp cur l { w with s := {} }
    let (b, w2) ← comp cur r { w1 with s := {} }
    let w' : W := { w2 with s := w.s, thrown := w2.thrown ++ [(a.facs, w1.s), (b.facs, w2.s)] }
    match a.facs, b.facs with
    | [x], [y] =>
      if x.tok.isNum && y.tok.isNum then
        if op.output.text = "==".toList then pure (decide (x.mul = y.mul), w')
        else if op.output.text = "!=".toList then pure (decide (x.mul ≠ y.mul), w')
        else if op.output.text = ">".toList then pure (decide (y.mul < x.mul), w')
        else if op.output.text = ">=".toList then pure (decide (y.mul ≤ x.mul), w')
        else if op.output.text = "<".toList then pure (decide (x.mul < y.mul), w')
        else if op.output.text = "<=".toList then pure (decide (x.mul ≤ y.mul), w')
        else none
      else none
    | _, _ => none
  | _ => none

/-- circuitcompiler/Programm.go:160-180 `resolveArrayName`; `strconv.ParseInt` accepts signed 64 bit, negatives panic -/
def resolveArray (comp : Comp) (cur : Nat) : List Constraint → Name → W → Option (Name × W)
  | [], n, w => some (n, w)
  | i :: is, n, w => do
    let (r, w1) ← comp cur i { w with s := {} }
    let w1 : W := { w1 with s := w.s, thrown := w1.thrown ++ [(r.facs, w1.s)] }
    match r.facs with
    | [x] =>
      match x.tok.isNum, parseInt x.tok.ident with
      | true, some k =>
        if 0 ≤ k ∧ k < 2 ^ 63 then resolveArray comp cur is (n ++ '[' :: (Nat.toDigits 10 k.toNat ++ [']'])) w1 else none
      | _, _ => none
    | _ => none

/-- circuitcompiler/Programm.go:490-500: the arguments of a call become function objects -/
def callArgs (q : Nat) (comp : Comp) (cur : Nat) : List Constraint → W → Option (List Nat × W)
  | [], w => some ([], w)
  | v :: vs, w => do
    let (r, w) ← comp cur v w
    if r.facs = [] then
      let (a, m) := w.m.alloc r.fkt
      let (as, w) ← callArgs q comp cur vs { w with m := m }
      pure (a :: as, w)
    else
      let (a, m) ← store q r.facs w.m
      let (as, w) ← callArgs q comp cur vs { w with m := m, kept := w.kept ++ [r.facs] }
      pure (a :: as, w)

/-- circuitcompiler/Programm.go:147-157 `getsLoadedWith` -/
def loadArgs (m : Mem) (a : Nat) (args : List Nat) : Option (Bool × Mem) := do
  let f ← m.objs[a]?
  if f.inputs.length < args.length then none
  else
    let m' ← (f.inputs.zip args).foldlM (fun m (k, v) => m.setFunction a k v) m
    pure (decide (f.inputs.length = args.length),
      m'.update a fun g => { g with inputs := f.inputs.drop args.length })

/-- circuitcompiler/Programm.go:480-513: the call of a user function -/
def callUser (q : Nat) (comp : Comp) (cur : Nat) (name : Name) (args : List Constraint) (w : W) : Option (Res × W) := do
  let f ← w.m.findFunction w.m.depth (some cur) name
  let (nxt, m) ← flatCopy w.m.depth w.m f
  let (as, w) ← callArgs q comp cur args { w with m := m }
  let (ready, m) ← loadArgs w.m nxt as
  let w : W := { w with m := m }
  if ready then
    let (r, w) ← execFunction comp nxt w
    pure ({ r with ret := false }, w)
  else
    let o ← w.m.objs[nxt]?
    pure ({ fkt := o }, w)

/-- circuitcompiler/Programm.go:521-608: the arithmetic operators; every other operator panics -/
def operate (H : Name → Nat) (q : Nat) (comp : Comp) (cur : Nat) (isRet : Bool) : List Constraint → W → Option (Res × W)
  | [op, l, r], w =>
    if op.output.type = .arithmetic then
      if op.output.text = ['*'] then do
        let (a, w) ← comp cur l w
        let (b, w) ← comp cur r w
        let (f, s) ← mulGate H q a.facs b.facs w.s
        pure ({ facs := f, ret := isRet }, { w with s := s })
      else if op.output.text = ['/'] then do
        let (a, w) ← comp cur l w
        let (b, w) ← comp cur r w
        let (f, s) ← divGate H q a.facs b.facs w.s
        pure ({ facs := f, ret := isRet }, { w with s := s })
      else if op.output.text = ['+'] then do
        let (a, w) ← comp cur l w
        let (b, w) ← comp cur r w
        pure ({ facs := addFactors q a.facs b.facs, ret := isRet }, w)
      else if op.output.text = ['-'] then do
        let (a, w) ← comp cur l w
        let (b, w) ← comp cur r w
        pure ({ facs := addFactors q a.facs (negateFactors b.facs), ret := isRet }, w)
      else none
    else none
  | _, _ => none

/-- circuitcompiler/Programm.go:342-350: `BREAK` compiles its arguments and prints them -/
def breakArgs (comp : Comp) (cur : Nat) : List Constraint → W → Option W
  | [], w => some w
  | v :: vs, w => do
    let (_, w) ← comp cur v w
    breakArgs comp cur vs w

/-- circuitcompiler/Programm.go:340-513: the case `FUNCTION_CALL` -/
def callFunction (H : Name → Nat) (q : Nat) (comp : Comp) (cur : Nat) (name : Name) (is : List Constraint) (w : W) :
    Option (Res × W) :=
  if name = "BREAK".toList then do
    let w ← breakArgs comp cur is w
    pure ({}, w)
  else if name = "SPLIT".toList then
    match is with
    | [a] => do
      let (r, w) ← comp cur a w
      let s ← splitGate H q r.facs w.s
      pure ({}, { w with s := s })
    | _ => none
  else if name = "AND".toList ∨ name = "NAND".toList ∨ name = "OR".toList ∨ name = "NOT".toList then none
  else if name = "addGateConstraint".toList then
    match is with
    | [a, b] => do
      let (x, w) ← comp cur a w
      let (y, w) ← comp cur b w
      let (f, s) ← addGateConstraint H q x.facs y.facs w.s
      pure ({ facs := f }, { w with s := s })
    | _ => none
  else if name = "scalarBaseMultiply".toList then
    match is with
    | [a] => do
      let (x, w) ← comp cur a w
      let (f, s) ← baseGate H x.facs w.s
      pure ({ facs := f }, { w with s := s })
    | _ => none
  else if name = "equal".toList then
    match is with
    | [a, b] => do
      let (x, w) ← comp cur a w
      let (y, w) ← comp cur b w
      let (s, _) ← w.s.add H { typ := .equality, left := x.facs, right := y.facs, noNew := true }
      pure ({}, { w with s := s })
    | _ => none
  else callUser q comp cur name is w

/-- circuitcompiler/Programm.go:300-306: the name of the variable that is overloaded -/
def targetName (comp : Comp) (cur : Nat) (x : Constraint) (w : W) : Option (Name × W) :=
  if x.output.type = .arrayCall then resolveArray comp cur x.inputs x.output.text w else some (x.output.text, w)

/-- circuitcompiler/Programm.go:310-322: the new value of the variable; without factors it is the returned function -/
def assignTo (q : Nat) (cur : Nat) (name : Name) (r : Res) (w : W) : Option (Res × W) := do
  let owner ← w.m.findOwner w.m.depth (some cur) name
  if r.facs = [] then do
    let (a, m) := w.m.alloc r.fkt
    let m ← m.setFunction owner name a
    pure ({}, { w with m := m })
  else do
    let (a, m) ← store q r.facs w.m
    let m ← m.setFunction owner name a
    pure ({ facs := r.facs }, { w with m := m, kept := w.kept ++ [r.facs] })

/-- circuitcompiler/Programm.go:214-610 `compile`, with the recursive calls as a parameter -/
def compileStep (H : Name → Nat) (q : Nat) (comp : Comp) (cur : Nat) (k : Constraint) (w : W) : Option (Res × W) :=
  match k.output.type with
  | .number => (compileNum q k.output.text).map fun f => ({ facs := f }, w)
  | .identifier => do -- Programm.go:224-243
    let a ← w.m.findFunction w.m.depth (some cur) k.output.text
    let f ← w.m.objs[a]?
    if f.isNumber then pure ({ facs := [⟨⟨true, f.name⟩, f.value⟩] }, w)
    else if f.inputs = [] then do
      let con ← w.m.findConstraint w.m.depth (some cur) k.output.text
      comp cur con w
    else pure ({ fkt := f }, w)
  | .forT => -- Programm.go:245-262: one round, then the same constraint again
    match k.inputs with
    | c :: step :: _ => do
      let (go, w) ← checkStatic comp cur c w
      if go then do
        let (r, w) ← comp cur (node .functionCall k.output.text) w
        if r.ret then pure ({ r with ret := true }, w)
        else do
          let (_, w) ← comp cur step w
          comp cur k w
      else pure ({}, w)
    | _ => none
  | .unassigned => -- Programm.go:263-275
    match k.inputs with
    | [] => do
      let f ← w.m.objs[cur]?
      let con ← f.cmap.lookup k.output.text
      comp cur con w
    | [c] => comp cur c w
    | _ => operate H q comp cur false k.inputs w
  | .ret => -- Programm.go:276-288
    match k.inputs with
    | [] => some ({ facs := [⟨⟨true, []⟩, 1⟩], ret := true }, w)
    | [c] => do
      let (r, w) ← comp cur c w
      pure ({ r with ret := true }, w)
    | _ => operate H q comp cur true k.inputs w
  | .argument => some ({ facs := [argF k.output.text 1] }, w)
  | .varOverload => -- Programm.go:295-324
    match k.inputs with
    | [x, e] => do
      let (name, w) ← targetName comp cur x w
      let (r, w) ← comp cur e w
      assignTo q cur name r w
    | _ => none
  | .arrayCall => do -- Programm.go:326-334
    let (name, w) ← resolveArray comp cur k.inputs k.output.text w
    let con ← w.m.findConstraint w.m.depth (some cur) name
    let (r, w) ← comp cur con w
    pure ({ r with ret := false }, w)
  | .ifT => -- Programm.go:335-345
    match k.inputs with
    | [] => comp cur (node .ifFunctionCall k.output.text) w
    | c :: _ => do
      let (go, w) ← checkStatic comp cur c w
      if go then comp cur (node .ifFunctionCall k.output.text) w else pure ({}, w)
  | .ifFunctionCall => do -- Programm.go:346-352
    let a ← w.m.findFunction w.m.depth (some cur) k.output.text
    execFunction comp a w
  | .functionCall => callFunction H q comp cur k.output.text k.inputs w
  | _ => operate H q comp cur false k.inputs w

/-- circuitcompiler/Programm.go:214-610 `compile`; the fuel bounds the depth of the recursion -/
def compile (H : Name → Nat) (q : Nat) : Nat → Comp
  | 0, _, _, _ => none
  | n + 1, cur, c, w => compileStep H q (compile H q n) cur c w

/-- circuitcompiler/Programm.go:183-196: the loop of `Execute` -/
def executeTasks (H : Name → Nat) (q : Nat) (n : Nat) (main : Nat) : List Constraint → W → Option (Factors × W)
  | [], w => some ([], w)
  | t :: ts, w => do
    let (r, w) ← compile H q n main t w
    let s ← completeFunction H r.facs w.s
    let w : W := { w with s := s }
    if r.ret then pure (r.facs, w) else executeTasks H q n main ts w

/-- circuitcompiler/Programm.go:183-196 `Execute`, together with the linear form returned last -/
def execute (H : Name → Nat) (q : Nat) (n : Nat) (m : Mem) : Option (Factors × W) := do
  let main ← m.ownFunction 0 "main".toList
  let f ← m.objs[main]?
  executeTasks H q n main f.tasks { m := m }

end APS.Prog
