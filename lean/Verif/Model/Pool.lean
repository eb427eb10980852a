/-! pairing/bn256.go: the pool of numbers.  Numbers are objects; an object is its identity (a natural number), and
`new(big.Int)` makes an object whose identity `next` was never used before. -/
namespace APS.Pairing

/-- bn256.go:455-460 `bnPool` -/
structure Pool where
  bns : List Nat
  count : Int
deriving DecidableEq, Repr

/-- `new(bnPool)` -/
def Pool.new : Pool := ⟨[], 0⟩

/-- bn256.go:462-475 `Get`: the object returned, the pool, and the next fresh identity.  `none` is the nil pool.  The slice
`bns` is kept in reverse: its last element is the head. -/
def Pool.get (pool : Option Pool) (next : Nat) : Nat × Option Pool × Nat :=
  match pool with
  | none => (next, none, next + 1)
  | some q =>
    let q := { q with count := q.count + 1 }
    match q.bns with
    | [] => (next, some q, next + 1)
    | bn :: rest => (bn, some { q with bns := rest }, next)

/-- bn256.go:477-483 `Put` -/
def Pool.put (pool : Option Pool) (bn : Nat) : Option Pool :=
  match pool with
  | none => none
  | some q => some { bns := bn :: q.bns, count := q.count - 1 }

/-- bn256.go:485-487 `Count` (not defined on a nil pool: it would dereference nil) -/
def Pool.countOf (q : Pool) : Int := q.count

end APS.Pairing
