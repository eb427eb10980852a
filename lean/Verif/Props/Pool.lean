import Verif.Model.Pool
import Mathlib.Data.List.Nodup
import Mathlib.Tactic.Linarith

/-! C67: the number pool.

A history is a sequence of `Get` and `Put`.  `held` lists the objects handed out by `Get` and not given back yet; a caller
keeps the discipline when it only gives back objects it holds (each once per `Get`). -/
namespace APS
open APS.Pairing

/-- one call -/
inductive PoolOp where
  | get
  | put (bn : Nat)

/-- the pool, the next fresh identity, and the objects the callers hold -/
structure PoolState where
  pool : Option Pool
  next : Nat
  held : List Nat

/-- one call, on the state of the history -/
def PoolState.step (s : PoolState) : PoolOp → PoolState
  | .get => let r := Pool.get s.pool s.next
            ⟨r.2.1, r.2.2, r.1 :: s.held⟩
  | .put bn => ⟨Pool.put s.pool bn, s.next, s.held.erase bn⟩

/-- all objects put back are held at that moment -/
def disciplined : PoolState → List PoolOp → Prop
  | _, [] => True
  | s, .get :: ops => disciplined (s.step .get) ops
  | s, .put bn :: ops => bn ∈ s.held ∧ disciplined (s.step (.put bn)) ops

/-- the state after a history -/
def runPool (s : PoolState) (ops : List PoolOp) : PoolState := ops.foldl PoolState.step s

def bnsOf : Option Pool → List Nat
  | none => []
  | some q => q.bns

structure PoolInv (s : PoolState) : Prop where
  nodup : (s.held ++ bnsOf s.pool).Nodup
  fresh : ∀ x ∈ s.held ++ bnsOf s.pool, x < s.next
  count : ∀ q, s.pool = some q → q.countOf = s.held.length

theorem poolInv_get {s : PoolState} (h : PoolInv s) : PoolInv (s.step .get) ∧ (Pool.get s.pool s.next).1 ∉ s.held := by
  obtain ⟨pool, next, held⟩ := s
  obtain ⟨h1, h2, h3⟩ := h
  match pool, h1, h2, h3 with
  | none, h1, h2, _ =>
    simp only [bnsOf, List.append_nil] at h1 h2
    have hn : next ∉ held := fun e => Nat.lt_irrefl _ (h2 _ e)
    refine ⟨⟨?_, ?_, fun q hq => by simp [PoolState.step, Pool.get] at hq⟩, hn⟩
    · simp [PoolState.step, Pool.get, bnsOf, hn, h1]
    · simp only [PoolState.step, Pool.get, bnsOf, List.append_nil, List.mem_cons]
      rintro x (rfl | hx)
      · omega
      · have := h2 x hx; omega
  | some ⟨[], c⟩, h1, h2, h3 =>
    simp only [bnsOf, List.append_nil] at h1 h2
    have hn : next ∉ held := fun e => Nat.lt_irrefl _ (h2 _ e)
    refine ⟨⟨?_, ?_, fun q hq => ?_⟩, hn⟩
    · simp [PoolState.step, Pool.get, bnsOf, hn, h1]
    · simp only [PoolState.step, Pool.get, bnsOf, List.append_nil, List.mem_cons]
      rintro x (rfl | hx)
      · omega
      · have := h2 x hx; omega
    · have h4 := h3 _ rfl
      simp only [PoolState.step, Pool.get, Option.some.injEq] at hq
      subst hq
      simp only [Pool.countOf, PoolState.step, Pool.get, List.length_cons] at *
      push_cast; omega
  | some ⟨bn :: rest, c⟩, h1, h2, h3 =>
    simp only [bnsOf] at h1 h2
    have hn : bn ∉ held := fun e => (List.disjoint_of_nodup_append h1) e (List.mem_cons_self)
    have h1' : (bn :: (held ++ rest)).Nodup := (List.perm_middle.nodup_iff).1 h1
    refine ⟨⟨?_, ?_, fun q hq => ?_⟩, hn⟩
    · simpa [PoolState.step, Pool.get, bnsOf] using h1'
    · simp only [PoolState.step, Pool.get, bnsOf, List.cons_append]
      intro x hx
      exact h2 x (List.perm_middle.mem_iff.2 hx)
    · have h4 := h3 _ rfl
      simp only [PoolState.step, Pool.get, Option.some.injEq] at hq
      subst hq
      simp only [Pool.countOf, PoolState.step, Pool.get, List.length_cons] at *
      push_cast; omega

theorem poolInv_put {s : PoolState} (h : PoolInv s) {bn : Nat} (hb : bn ∈ s.held) : PoolInv (s.step (.put bn)) := by
  obtain ⟨pool, next, held⟩ := s
  obtain ⟨h1, h2, h3⟩ := h
  simp only at hb
  have hp := List.perm_cons_erase hb
  match pool, h1, h2, h3 with
  | none, h1, h2, _ =>
    simp only [bnsOf, List.append_nil] at h1 h2
    refine ⟨?_, ?_, fun q hq => by simp [PoolState.step, Pool.put] at hq⟩
    · simp only [PoolState.step, Pool.put, bnsOf, List.append_nil]; exact h1.erase bn
    · simp only [PoolState.step, Pool.put, bnsOf, List.append_nil]
      intro x hx; exact h2 x (List.mem_of_mem_erase hx)
  | some ⟨bns, c⟩, h1, h2, h3 =>
    simp only [bnsOf] at h1 h2
    have hperm : (held ++ bns).Perm (held.erase bn ++ bn :: bns) :=
      (hp.append_right bns).trans (List.perm_middle.symm)
    refine ⟨?_, ?_, fun q hq => ?_⟩
    · simp only [PoolState.step, Pool.put, bnsOf]; exact hperm.nodup_iff.1 h1
    · simp only [PoolState.step, Pool.put, bnsOf]
      intro x hx; exact h2 x (hperm.mem_iff.2 hx)
    · have h4 := h3 _ rfl
      simp only [PoolState.step, Pool.put, Option.some.injEq] at hq
      subst hq
      have hl := hp.length_eq
      simp only [List.length_cons] at hl
      simp only [Pool.countOf, PoolState.step, Pool.put] at *
      omega

theorem poolInv_run : ∀ (ops : List PoolOp) (s : PoolState), PoolInv s → disciplined s ops → PoolInv (runPool s ops)
  | [], _, h, _ => h
  | .get :: ops, s, h, hd => poolInv_run ops _ (poolInv_get h).1 hd
  | .put _ :: ops, s, h, hd => poolInv_run ops _ (poolInv_put h hd.1) hd.2

/-- the histories of a new pool -/
def poolStart (nilPool : Bool) : PoolState := ⟨if nilPool then none else some Pool.new, 0, []⟩

theorem poolInv_start (b : Bool) : PoolInv (poolStart b) := by
  cases b
  · exact ⟨by simp [poolStart, bnsOf, Pool.new], by simp [poolStart, bnsOf, Pool.new],
      fun q hq => by simp [poolStart] at hq; subst hq; rfl⟩
  · exact ⟨by simp [poolStart, bnsOf], by simp [poolStart, bnsOf], fun q hq => by simp [poolStart] at hq⟩

/-- C67: after every disciplined history of a new or a nil pool, `Get` returns an object nobody holds, and `Count` of a
(non-nil) pool is the number of objects held. -/
theorem C67_pool (nilPool : Bool) (ops : List PoolOp) (hd : disciplined (poolStart nilPool) ops) :
    (Pool.get (runPool (poolStart nilPool) ops).pool (runPool (poolStart nilPool) ops).next).1 ∉ (runPool (poolStart nilPool) ops).held ∧
    (runPool (poolStart nilPool) ops).held.Nodup ∧
    ∀ q, (runPool (poolStart nilPool) ops).pool = some q → q.countOf = (runPool (poolStart nilPool) ops).held.length := by
  have h := poolInv_run ops _ (poolInv_start nilPool) hd
  exact ⟨(poolInv_get h).2, (List.nodup_append.1 h.nodup).1, h.count⟩

/-- a history with recycling meets the hypotheses: the third `Get` recycles an object -/
example : disciplined (poolStart false) [.get, .get, .put 0, .get] ∧
    (runPool (poolStart false) [.get, .get, .put 0, .get]).held = [0, 1] := by
  refine ⟨?_, by decide⟩
  simp [disciplined, poolStart, PoolState.step, Pool.get, Pool.new]

/-- C67: a pool does recycle: an object put back is the next one handed out, without allocation. -/
theorem C67_recycles (q : Pool) (bn next : Nat) :
    (Pool.get (Pool.put (some q) bn) next).1 = bn ∧ (Pool.get (Pool.put (some q) bn) next).2.2 = next ∧
    (Pool.get (Pool.put (some q) bn) next).2.1 = some q := by
  refine ⟨rfl, rfl, ?_⟩
  simp [Pool.get, Pool.put]

/-- C67: the discipline is needed: after giving one object back twice it is handed out twice. -/
theorem C67_double_put : ∃ ops, (runPool (poolStart false) ops).held = [0, 0] :=
  ⟨[.get, .put 0, .put 0, .get, .get], by decide⟩

end APS
