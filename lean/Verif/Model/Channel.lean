import Verif.Model.Avl
import Verif.Model.Field

/-!
Model of the goroutine behind `AvlTree.ChannelNodes` (utils/avl.go:228-286) running concurrently with a consumer that
writes to the same tree (`for v := range t.ChannelNodes(true) { t.Put(v.Key, ...) }`, as in
utils/sparsePolynomial.go:24-26 `MulSparseScalar` and 190-192 `Combine`).

Nodes live in a heap; the key of a node is its address (keys of one tree are distinct and never change).  The program
counter of the producer is its call stack.  The channel is unbuffered: a send and the matching receive are one joint
step.  Steps of producer and consumer interleave arbitrarily (sequential consistency).  The body of the consumer
(`Put`) is one atomic step.  `Put` does not take the tree's lock (utils/avl.go:199-210), so the read lock held by the
producer excludes nothing.
-/
namespace APS.Chan
open APS.Avl

/-- utils/avl.go:288-294: one heap node -/
structure Cell where
  left : Option Nat
  value : Int
  right : Option Nat
deriving DecidableEq, Repr

abbrev Heap := Nat → Option Cell

/-- the address of the root of a tree -/
def addr : Tree → Option Nat
  | .nil => none
  | .node _ k _ _ _ => some k

/-- the heap a tree value is stored in, on top of `H` -/
def store (H : Heap) : Tree → Heap
  | .nil => H
  | .node l k v _ r => fun a => if a = k then some ⟨addr l, v, addr r⟩ else store (store H l) r a

/-- program points of `channelNodesAscending` (utils/avl.go:251-267): entry, after the left call (the entry to send is
about to be read), blocked in the send with the entry read, after the send. -/
inductive Frame where
  | visit (a : Nat)
  | load (a : Nat)
  | send (a : Nat) (v : Int)
  | right (a : Nat)
deriving DecidableEq, Repr

/-- state of the two goroutines.  `stack = []` and `closed = false`: the producer is about to close the channel. -/
structure State where
  heap : Heap
  root : Option Nat
  stack : List Frame
  closed : Bool
  /-- entry received and not yet processed -/
  current : Option (Nat × Int)
  /-- everything received so far (ghost) -/
  received : List (Nat × Int)
  /-- the consumer left its loop -/
  finished : Bool

/-- one step of the producer that does not communicate (utils/avl.go:234-237, 251-267) -/
def producerStep (s : State) : Option State :=
  match s.stack with
  | [] => if s.closed then none else some { s with closed := true }
  | .visit a :: st => match s.heap a with
    | none => none
    | some c => match c.left with
      | some l => some { s with stack := .visit l :: .load a :: st }
      | none => some { s with stack := .load a :: st }
  | .load a :: st => match s.heap a with
    | none => none
    | some c => some { s with stack := .send a c.value :: st }
  | .send _ _ :: _ => none
  | .right a :: st => match s.heap a with
    | none => none
    | some c => match c.right with
      | some r => some { s with stack := .visit r :: st }
      | none => some { s with stack := st }

/-- the joint send/receive step -/
def commStep (s : State) : Option State :=
  match s.stack, s.current, s.finished with
  | .send a v :: st, none, false =>
    some { s with stack := .right a :: st, current := some (a, v), received := s.received ++ [(a, v)] }
  | _, _, _ => none

/-- the consumer's own steps: process the current entry with `put`, or notice that the channel is closed -/
def consumerStep (put : Nat → Heap × Option Nat → Option (Heap × Option Nat)) (s : State) : Option State :=
  match s.current with
  | some (a, _) => match put a (s.heap, s.root) with
    | none => none
    | some (h, r) => some { s with heap := h, root := r, current := none }
  | none => if s.closed ∧ ¬ s.finished then some { s with finished := true } else none

/-- one step of the system -/
inductive Step (put : Nat → Heap × Option Nat → Option (Heap × Option Nat)) : State → State → Prop
  | producer {s s'} : producerStep s = some s' → Step put s s'
  | comm {s s'} : commStep s = some s' → Step put s s'
  | consumer {s s'} : consumerStep put s = some s' → Step put s s'

/-- all executions -/
inductive Steps (put : Nat → Heap × Option Nat → Option (Heap × Option Nat)) : State → State → Prop
  | refl (s) : Steps put s s
  | tail {s t u} : Steps put s t → Step put t u → Steps put s u

/-- `ChannelNodes(true)` has just been called on the tree `t` -/
def initial (t : Tree) : State where
  heap := store (fun _ => none) t
  root := addr t
  stack := match addr t with
    | none => []
    | some a => [.visit a]
  closed := false
  current := none
  received := []
  finished := false

/-- write the value of node `a` -/
def setValue (H : Heap) (a : Nat) (v : Int) : Heap := fun b => if b = a then (H a).map fun c => { c with value := v } else H b
/-- write the left pointer of node `a` -/
def setLeft (H : Heap) (a : Nat) (p : Option Nat) : Heap :=
  fun b => if b = a then (H a).map fun c => { c with left := p } else H b
/-- write the right pointer of node `a` -/
def setRight (H : Heap) (a : Nat) (p : Option Nat) : Heap :=
  fun b => if b = a then (H a).map fun c => { c with right := p } else H b

/-- `Put(a, x, cb)` on a key that is present, with a result `f a old` that is not 0: the only write is the value
(utils/avl.go:425-428; the pointers on the path are overwritten with themselves). -/
def putValue (f : Nat → Int → Int) (a : Nat) (s : Heap × Option Nat) : Option (Heap × Option Nat) :=
  match s.1 a with
  | none => none
  | some c => some (setValue s.1 a (f a c.value), s.2)

/-- utils/avl.go:484-489 `Size` (with a bound on the depth) -/
def hsize (H : Heap) : Nat → Option Nat → Nat
  | 0, _ => 0
  | _, none => 0
  | n+1, some a => match H a with
    | none => 0
    | some c => 1 + hsize H n c.left + hsize H n c.right
/-- utils/avl.go:513-529 `lmd` -/
def hlmd (H : Heap) : Nat → Nat → Nat
  | 0, a => a
  | n+1, a => match (H a).bind Cell.left with
    | none => a
    | some l => hlmd H n l
/-- utils/avl.go:513-529 `rmd` -/
def hrmd (H : Heap) : Nat → Nat → Nat
  | 0, a => a
  | n+1, a => match (H a).bind Cell.right with
    | none => a
    | some l => hrmd H n l

/-- utils/avl.go:442-475 `AvlNode.Remove` of a present key, on the heap: new heap and new subtree pointer. -/
def hremove (H : Heap) (key : Nat) : Nat → Option Nat → Option (Heap × Option Nat)
  | 0, _ => none
  | _, none => none
  | n+1, some a => match H a with
    | none => none
    | some c =>
      if a = key then
        match c.left, c.right with
        | some l, some r =>
          if hsize H n (some l) < hsize H n (some r) then some (setLeft H (hlmd H n r) (some l), some r)
          else some (setRight H (hrmd H n l) (some r), some l)
        | none, r => some (H, r)
        | l, none => some (H, l)
      else if key < a then
        match hremove H key n c.left with
        | none => none
        | some (H', p) => some (setLeft H' a p, some a)
      else
        match hremove H key n c.right with
        | none => none
        | some (H', p) => some (setRight H' a p, some a)

/-- utils/avl.go:199-210 `AvlTree.Put` on a present key with the callback result `f a old`, on the heap (`depth` bounds
the recursion). -/
def putHeap (depth : Nat) (f : Nat → Int → Int) (a : Nat) (s : Heap × Option Nat) : Option (Heap × Option Nat) :=
  match s.1 a with
  | none => none
  | some c =>
    let v := f a c.value
    let H := setValue s.1 a v
    if v = 0 then hremove H a depth s.2 else some (H, s.2)

/-- run the system along a given schedule: 0 = producer, 1 = communication, 2 = consumer -/
def runSchedule (put : Nat → Heap × Option Nat → Option (Heap × Option Nat)) (s : State) : List Nat → Option State
  | [] => some s
  | c :: cs =>
    let s' := if c = 0 then producerStep s else if c = 1 then commStep s else consumerStep put s
    match s' with
    | none => none
    | some s' => runSchedule put s' cs

end APS.Chan
