/-!
Model of `utils/avl.go`: the balanced tree used as sparse array.

Nodes are values (`Tree`), not heap cells.  Pointer comparisons `self == node` in the Go code compare nodes of one
search tree and are modelled by comparing keys; keys of one tree are pairwise distinct (proved as part of the
invariant).  `uint` keys are `Nat` (no arithmetic on keys happens in this file).  Stored heights are `Nat`
(the code only writes 1, `max+1` and `+1`).  The RW lock is not modelled here (see Model/Channel.lean).
-/
namespace APS.Avl

/-- utils/avl.go:288-294 `AvlNode` (left, key, value, stored height, right); `nil` is the nil pointer. -/
inductive Tree where
  | nil : Tree
  | node (l : Tree) (k : Nat) (v : Int) (h : Nat) (r : Tree) : Tree
deriving DecidableEq, Repr

namespace Tree

/-- utils/avl.go:477-482 `Height`: the STORED height, 0 for nil. -/
def height : Tree → Nat
  | nil => 0
  | node _ _ _ h _ => h

/-- utils/avl.go:484-489 `Size` -/
def size : Tree → Nat
  | nil => 0
  | node l _ _ _ r => 1 + l.size + r.size

/-- utils/avl.go:296-307 `Has` -/
def has (key : Nat) : Tree → Bool
  | nil => false
  | node l k _ _ r => if k = key then true else if key < k then l.has key else r.has key

/-- utils/avl.go:309-320 `Get`; `none` is the "not found" error (the value returned with it is 0). -/
def get (key : Nat) : Tree → Option Int
  | nil => none
  | node l k v _ r => if k = key then some v else if key < k then l.get key else r.get key

/-- utils/avl.go:513-529 `rmd`: key and value of the rightmost node. -/
def rmd : Tree → Option (Nat × Int)
  | nil => none
  | node _ k v _ r => match r with
    | nil => some (k, v)
    | node .. => r.rmd

/-- utils/avl.go:513-525 `lmd`: key and value of the leftmost node. -/
def lmd : Tree → Option (Nat × Int)
  | nil => none
  | node l k v _ _ => match l with
    | nil => some (k, v)
    | node .. => l.lmd

/-- `self.height = maximum(self.left.Height(), self.right.Height()) + 1` (utils/avl.go:351, 370) -/
def mk (l : Tree) (k : Nat) (v : Int) (r : Tree) : Tree := node l k v (max l.height r.height + 1) r

/-- utils/avl.go:331-341: the only child of the unlinked node (left if present, else right). -/
def onlyChild (l r : Tree) : Tree := match l with
  | nil => r
  | node .. => l

/-- utils/avl.go:322-353 `pop_node`: unlink the node with key `key` (which has at most one child), recomputing the
heights on the way back. -/
def popNode (key : Nat) : Tree → Tree
  | nil => nil
  | node l k v _ r =>
    if k = key then onlyChild l r
    else if key < k then mk (l.popNode key) k v r else mk l k v (r.popNode key)

/-- utils/avl.go:355-372 `push_node`: insert a leaf, recomputing heights on the way back. -/
def pushNode (key : Nat) (value : Int) : Tree → Tree
  | nil => node nil key value 1 nil
  | node l k v _ r =>
    if key < k then mk (l.pushNode key value) k v r else mk l k v (r.pushNode key value)

/-- utils/avl.go:374-388 `rotate_right`.  The height of the promoted node is overwritten by `push_node`. -/
def rotateRight : Tree → Tree
  | nil => nil
  | node l k v h r =>
    match l.rmd with
    | none => node l k v h r
    | some (k0, v0) =>
      match popNode k0 (node l k v h r) with
      | nil => nil
      | node l' k' v' _ r' => pushNode k' v' (node l' k0 v0 h r')

/-- utils/avl.go:390-404 `rotate_left` -/
def rotateLeft : Tree → Tree
  | nil => nil
  | node l k v h r =>
    match r.lmd with
    | none => node l k v h r
    | some (k0, v0) =>
      match popNode k0 (node l k v h r) with
      | nil => nil
      | node l' k' v' _ r' => pushNode k' v' (node l' k0 v0 h r')

/-- utils/avl.go:406-418 `balance`: the loop, `none` when the fuel is used up. -/
def balanceLoop : Nat → Tree → Option Tree
  | _, nil => some nil
  | 0, node .. => none
  | n+1, node l k v h r =>
    if l.height > r.height + 2 then balanceLoop n (rotateRight (node l k v h r))
    else if r.height > l.height + 2 then balanceLoop n (rotateLeft (node l k v h r))
    else some (node l k v h r)

/-- utils/avl.go:406-418 `balance`.  The fuel `(size+1)^2` always suffices on search trees, whatever the stored
heights are: theorem `C16_balance_terminates`. -/
def balance (t : Tree) : Tree := (balanceLoop ((t.size + 1) ^ 2) t).getD t

/-- utils/avl.go:420-440 `AvlNode.Put`.  `ins old new` is the insert callback, `none` = it panics.
The Bool is `updated`. -/
def put (key : Nat) (value : Int) (ins : Int → Int → Option Int) : Tree → Option (Tree × Bool)
  | nil => (ins 0 value).map fun v => (node nil key v 1 nil, false)
  | node l k v h r =>
    if k = key then (ins v value).map fun v' => (node l k v' h r, true)
    else if key < k then
      (l.put key value ins).map fun (l', upd) =>
        if upd then (node l' k v h r, upd) else (balance (node l' k v (h + 1) r), upd)
    else
      (r.put key value ins).map fun (r', upd) =>
        if upd then (node l k v h r', upd) else (balance (node l k v (h + 1) r'), upd)

/-- utils/avl.go:449-452: `lmd.left = x` for the leftmost node of the tree (no height update). -/
def graftLeft (x : Tree) : Tree → Tree
  | nil => x
  | node l k v h r => match l with
    | nil => node x k v h r
    | node .. => node (graftLeft x l) k v h r

/-- utils/avl.go:453-456: `rmd.right = x` for the rightmost node of the tree (no height update). -/
def graftRight (x : Tree) : Tree → Tree
  | nil => x
  | node l k v h r => match r with
    | nil => node l k v h x
    | node .. => node l k v h (graftRight x r)

/-- utils/avl.go:442-475 `AvlNode.Remove`: new subtree and the removed value, `none` = "not found" error.
Note: `balance` is called only when there is an ERROR. -/
def remove (key : Nat) : Tree → Tree × Option Int
  | nil => (nil, none)
  | node l k v h r =>
    if k = key then
      match l, r with
      | node .., node .. => if l.size < r.size then (graftLeft l r, some v) else (graftRight r l, some v)
      | nil, r => (r, some v)
      | l, nil => (l, some v)
    else if key < k then
      match l.remove key with
      | (l', none) => (balance (node l' k v h r), none)
      | (l', some x) => (node l' k v h r, some x)
    else
      match r.remove key with
      | (r', none) => (balance (node l k v h r'), none)
      | (r', some x) => (node l k v h r', some x)

/-- the subtree whose root has key `key`: the value a retained pointer to that node denotes -/
def subAt (key : Nat) : Tree → Tree
  | nil => nil
  | node l k v h r => if k = key then node l k v h r else if key < k then l.subAt key else r.subAt key

/-- utils/avl.go:216-224 `AvlTree.Remove`.  On error `self.root` keeps pointing at the OLD root node, although
`node.Remove` has rebalanced (mutated) the tree: the array then consists of what hangs below that node. -/
def treeRemove (key : Nat) (t : Tree) : Tree × Option Int :=
  match t with
  | nil => (nil, none)
  | node _ k _ _ _ =>
    match t.remove key with
    | (t', some v) => (t', some v)
    | (t', none) => (t'.subAt k, none)

/-- utils/avl.go:199-210 `AvlTree.Put`; `none` = panic in the callback (or in the impossible failing Remove). -/
def treePut (key : Nat) (value : Int) (ins : Int → Int → Option Int) (t : Tree) : Option Tree :=
  match t.put key value ins with
  | none => none
  | some (t', _) =>
    match t'.get key with
    | none => some t'
    | some v =>
      if v = 0 then
        match t'.treeRemove key with
        | (t'', some _) => some t''
        | (_, none) => none
      else some t'

/-- utils/avl.go:92-94 `setInsert` -/
def setInsert (_old new : Int) : Option Int := some new
/-- utils/avl.go:95-100 `setInsertNoOvreride` -/
def setInsertNoOverride (old new : Int) : Option Int := if old ≠ 0 then none else some new

/-- utils/avl.go:70-75 `Insert` -/
def insert (key : Nat) (value : Int) (t : Tree) : Option Tree := t.treePut key value setInsert
/-- utils/avl.go:64-67 `InsertNoOverwriteAllowed` -/
def insertNoOverwrite (key : Nat) (value : Int) (t : Tree) : Option Tree := t.treePut key value setInsertNoOverride
/-- utils/avl.go:76-80 `NewSparseArrayWith` -/
def newWith (key : Nat) (value : Int) : Option Tree := nil.treePut key value setInsertNoOverride

/-- utils/avl.go:82-90 `NewSparseArrayFromArray`, the loop from index `k`. -/
def fromArrayLoop (k : Nat) (t : Tree) : List Int → Option Tree
  | [] => some t
  | v :: vs =>
    if v ≠ 0 then
      match t.treePut k v setInsertNoOverride with
      | none => none
      | some t' => fromArrayLoop (k + 1) t' vs
    else fromArrayLoop (k + 1) t vs
/-- utils/avl.go:82-90 `NewSparseArrayFromArray` -/
def fromArray (vs : List Int) : Option Tree := fromArrayLoop 0 nil vs

/-- utils/avl.go:115-123 `maxNode`: a dummy node (0,0) for the empty tree. -/
def maxNode : Tree → Nat × Int
  | nil => (0, 0)
  | node _ k v _ r => match r with
    | nil => (k, v)
    | node .. => r.maxNode
/-- utils/avl.go:103-109 `MaxPower` -/
def maxPower (t : Tree) : Nat := t.maxNode.1
/-- utils/avl.go:130-136 `minNode`; `none` = nil dereference on the empty tree. -/
def minNode (t : Tree) : Option (Nat × Int) := t.lmd

/-- utils/avl.go:169-186 `AllNodes` (right, node, left), also `channelNodesDescending` 270-286. -/
def allNodes : Tree → List (Nat × Int)
  | nil => []
  | node l k v _ r => r.allNodes ++ (k, v) :: l.allNodes
/-- utils/avl.go:158-166 `DecendingNodes` -/
def decendingNodes (t : Tree) : List (Nat × Int) := t.allNodes
/-- utils/avl.go:251-267 `channelNodesAscending`: the sequence sent on the channel. -/
def ascendingNodes : Tree → List (Nat × Int)
  | nil => []
  | node l k v _ r => l.ascendingNodes ++ (k, v) :: r.ascendingNodes

/-- utils/avl.go:138-154 `ToArray`; `none` = panic (length below MaxPower, or index out of range). -/
def toArray (t : Tree) (length : Nat) : Option (List Int) :=
  if length < t.maxPower then none
  else t.allNodes.foldl (fun acc e => acc.bind fun a => if e.1 < a.length then some (a.set e.1 e.2) else none)
    (some (List.replicate length 0))

end Tree
end APS.Avl
