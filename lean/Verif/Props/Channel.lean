import Verif.Model.Channel
import Verif.Proofs.Avl

/-! Property C27: traversal of a tree by the channel goroutine while the consumer writes to the tree. -/
namespace APS
open APS.Avl APS.Avl.Tree APS.Chan
namespace Chan

/-- `s` is a subtree of `t` -/
inductive Sub (t : Tree) : Tree → Prop
  | self : Sub t t
  | left {l k v h r} : Sub t (node l k v h r) → Sub t l
  | right {l k v h r} : Sub t (node l k v h r) → Sub t r

theorem Sub.trans {t s u : Tree} (h : Sub t s) (h' : Sub s u) : Sub t u := by
  induction h' with
  | self => exact h
  | left _ ih => exact .left ih
  | right _ ih => exact .right ih

theorem Sub.cases_node {l k v h r s} (hs : Sub (node l k v h r) s) : s = node l k v h r ∨ Sub l s ∨ Sub r s := by
  induction hs with
  | self => exact Or.inl rfl
  | left _ ih =>
    rcases ih with e | h | h
    · cases e; exact Or.inr (Or.inl .self)
    · exact Or.inr (Or.inl (.left h))
    · exact Or.inr (Or.inr (.left h))
  | right _ ih =>
    rcases ih with e | h | h
    · cases e; exact Or.inr (Or.inr .self)
    · exact Or.inr (Or.inl (.right h))
    · exact Or.inr (Or.inr (.right h))

theorem Sub.mem {t : Tree} {l k v h r} (hs : Sub t (node l k v h r)) : (k, v) ∈ toList t := by
  induction t with
  | nil => 
    exfalso
    have : ∀ s, Sub nil s → s = nil := by
      intro s hs
      induction hs with
      | self => rfl
      | left _ ih => cases ih
      | right _ ih => cases ih
    have := this _ hs
    cases this
  | node l' k' v' h' r' ihl ihr =>
    rcases hs.cases_node with e | h | h
    · cases e; simp
    · simp [ihl h]
    · simp [ihr h]

theorem store_notin (t : Tree) : ∀ (H : Heap) (a : Nat), (∀ e ∈ toList t, e.1 ≠ a) → store H t a = H a := by
  induction t with
  | nil => intros; rfl
  | node l k v h r ihl ihr =>
    intro H a ha
    simp only [toList_node, List.mem_append, List.mem_cons] at ha
    simp only [store]
    rw [if_neg (fun e => ha (k, v) (by simp) e.symm), ihr _ _ (fun e he => ha e (by simp [he])),
      ihl _ _ (fun e he => ha e (by simp [he]))]

theorem store_sub (t : Tree) : ∀ (H : Heap), BST t → ∀ {l k v h r}, Sub t (node l k v h r) →
    store H t k = some ⟨addr l, v, addr r⟩ := by
  induction t with
  | nil =>
    intro H _ l k v h r hs
    exact absurd hs.mem (by simp)
  | node l' k' v' h' r' ihl ihr =>
    intro H hb l k v h r hs
    obtain ⟨b1, b2, b3, b4⟩ := bst_node.1 hb
    rcases hs.cases_node with e | hs | hs
    · cases e; simp [store]
    · have hk := b3 _ hs.mem
      simp only at hk
      simp only [store]
      rw [if_neg (by omega), store_notin r' _ k (fun e he => by have := b4 e he; omega)]
      exact ihl H b1 hs
    · have hk := b4 _ hs.mem
      simp only at hk
      simp only [store]
      rw [if_neg (by omega)]
      exact ihr _ b2 hs

/-- a frame together with the subtree it works on -/
inductive TFrame where
  | visit (l : Tree) (k : Nat) (v : Int) (h : Nat) (r : Tree)
  | load (l : Tree) (k : Nat) (v : Int) (h : Nat) (r : Tree)
  | send (l : Tree) (k : Nat) (v : Int) (h : Nat) (r : Tree)
  | right (l : Tree) (k : Nat) (v : Int) (h : Nat) (r : Tree)

def TFrame.erase : TFrame → Frame
  | .visit _ k _ _ _ => .visit k
  | .load _ k _ _ _ => .load k
  | .send _ k v _ _ => .send k v
  | .right _ k _ _ _ => .right k
def TFrame.tree : TFrame → Tree
  | .visit l k v h r => node l k v h r
  | .load l k v h r => node l k v h r
  | .send l k v h r => node l k v h r
  | .right l k v h r => node l k v h r
def TFrame.todo : TFrame → List (Nat × Int)
  | .visit l k v _ r => toList l ++ (k, v) :: toList r
  | .load _ k v _ r => (k, v) :: toList r
  | .send _ k v _ r => (k, v) :: toList r
  | .right _ _ _ _ r => toList r
def TFrame.weight : TFrame → Nat
  | .visit l _ _ _ r => 5 + 5 * l.size + 5 * r.size
  | .load _ _ _ _ r => 5 * r.size + 4
  | .send _ _ _ _ r => 5 * r.size + 3
  | .right _ _ _ _ r => 5 * r.size + 1

/-- the entries whose processing is complete -/
def processed (s : State) : List (Nat × Int) := match s.current with
  | none => s.received
  | some _ => s.received.dropLast

/-- system invariant -/
structure Good (t : Tree) (f : Nat → Int → Int) (s : State) (tfs : List TFrame) : Prop where
  stack : s.stack = tfs.map TFrame.erase
  sub : ∀ x ∈ tfs, Sub t x.tree
  split : toList t = s.received ++ (tfs.map TFrame.todo).flatten
  heap : ∀ l k v h r, Sub t (node l k v h r) →
    s.heap k = some ⟨addr l, if (processed s).any (fun e => e.1 == k) then f k v else v, addr r⟩
  current : ∀ e, s.current = some e → s.received.getLast? = some e
  closed : s.closed = true → tfs = []
  finished : s.finished = true → s.closed = true ∧ s.current = none

def measure (s : State) (tfs : List TFrame) : Nat :=
  (tfs.map TFrame.weight).sum + (if s.current.isSome then 1 else 0) + (if s.closed then 0 else 1)
    + (if s.finished then 0 else 1)

theorem good_initial {t : Tree} (hb : BST t) (f) : ∃ tfs, Good t f (initial t) tfs := by
  cases t with
  | nil =>
    refine ⟨[], rfl, by simp, rfl, fun l k v h r hs => ?_, by simp [initial], by simp, by simp [initial]⟩
    exact absurd hs.mem (by simp)
  | node l k v h r =>
    refine ⟨[.visit l k v h r], rfl, by simp [TFrame.tree]; exact .self, by simp [initial, TFrame.todo], ?_,
      by simp [initial], by simp [initial], by simp [initial]⟩
    intro l' k' v' h' r' hs
    simpa [initial, processed] using store_sub _ _ hb hs

theorem key_unique {t : Tree} (hb : BST t) {A B : List (Nat × Int)} {k : Nat} {v : Int}
    (h : toList t = A ++ (k, v) :: B) : ¬ ∃ w, (k, w) ∈ A := by
  rintro ⟨w, hw⟩
  rw [BST, h, List.pairwise_append] at hb
  have := hb.2.2 _ hw (k, v) (by simp)
  simp at this

theorem any_iff (l : List (Nat × Int)) (k : Nat) : l.any (fun e => e.1 == k) = true ↔ ∃ w, (k, w) ∈ l := by
  simp [List.any_eq_true]

theorem processed_sub (s : State) : ∀ e ∈ processed s, e ∈ s.received := by
  intro e he
  unfold processed at he
  split at he
  · exact he
  · exact List.dropLast_subset _ he

theorem good_step {t : Tree} (hb : BST t) {f : Nat → Int → Int} {s s' : State} {tfs : List TFrame}
    (g : Good t f s tfs) (hs : Step (putValue f) s s') :
    ∃ tfs', Good t f s' tfs' ∧ measure s' tfs' < measure s tfs := by
  obtain ⟨g1, g2, g3, g4, g5, g6, g7⟩ := g
  cases hs with
  | producer hp =>
    unfold producerStep at hp
    rw [g1] at hp
    cases tfs with
    | nil =>
      simp only [List.map_nil] at hp
      split at hp
      · exact absurd hp (by simp)
      · rename_i hc
        obtain rfl := Option.some.inj hp
        refine ⟨[], ⟨rfl, g2, g3, g4, g5, fun _ => rfl, fun h => ?_⟩, ?_⟩
        · exact absurd (g7 h).1 hc
        · simp only [measure, hc]; simp
    | cons x tfs =>
      have hclosed : s.closed = false := by
        cases hc : s.closed
        · rfl
        · exact absurd (g6 hc) (by simp)
      cases x with
      | visit l k v h r =>
        have hsub := g2 _ List.mem_cons_self
        simp only [TFrame.tree] at hsub
        simp only [List.map_cons, TFrame.erase] at hp
        rw [g4 _ _ _ _ _ hsub] at hp
        simp only at hp
        cases l with
        | nil =>
          simp only [addr] at hp
          obtain rfl := Option.some.inj hp
          refine ⟨.load nil k v h r :: tfs, ⟨by simp [TFrame.erase], ?_, ?_, g4, g5, by simp [hclosed], g7⟩, ?_⟩
          · intro x hx
            rcases List.mem_cons.1 hx with rfl | hx
            · exact hsub
            · exact g2 x (by simp [hx])
          · simpa [TFrame.todo] using g3
          · simp [measure, TFrame.weight, size]; omega
        | node l1 k1 v1 h1 r1 =>
          simp only [addr] at hp
          obtain rfl := Option.some.inj hp
          refine ⟨.visit l1 k1 v1 h1 r1 :: .load (node l1 k1 v1 h1 r1) k v h r :: tfs,
            ⟨by simp [TFrame.erase], ?_, ?_, g4, g5, by simp [hclosed], g7⟩, ?_⟩
          · intro x hx
            rcases List.mem_cons.1 hx with rfl | hx
            · exact .left hsub
            · rcases List.mem_cons.1 hx with rfl | hx
              · exact hsub
              · exact g2 x (by simp [hx])
          · simpa [TFrame.todo] using g3
          · simp [measure, TFrame.weight, size]; omega
      | load l k v h r =>
        have hsub := g2 _ List.mem_cons_self
        simp only [TFrame.tree] at hsub
        simp only [List.map_cons, TFrame.erase] at hp
        rw [g4 _ _ _ _ _ hsub] at hp
        simp only at hp
        have hnot : ¬ ∃ w, (k, w) ∈ processed s := by
          rintro ⟨w, hw⟩
          have := processed_sub s _ hw
          exact key_unique hb (A := s.received) (k := k) (v := v)
            (B := toList r ++ (tfs.map TFrame.todo).flatten) (by rw [g3]; simp [TFrame.todo]) ⟨w, this⟩
        rw [if_neg (by rwa [any_iff])] at hp
        obtain rfl := Option.some.inj hp
        refine ⟨.send l k v h r :: tfs, ⟨by simp [TFrame.erase], ?_, ?_, g4, g5, by simp [hclosed], g7⟩, ?_⟩
        · intro x hx
          rcases List.mem_cons.1 hx with rfl | hx
          · exact hsub
          · exact g2 x (by simp [hx])
        · simpa [TFrame.todo] using g3
        · simp [measure, TFrame.weight]
      | send l k v h r => simp [TFrame.erase] at hp
      | right l k v h r =>
        have hsub := g2 _ List.mem_cons_self
        simp only [TFrame.tree] at hsub
        simp only [List.map_cons, TFrame.erase] at hp
        rw [g4 _ _ _ _ _ hsub] at hp
        simp only at hp
        cases r with
        | nil =>
          simp only [addr] at hp
          obtain rfl := Option.some.inj hp
          refine ⟨tfs, ⟨rfl, fun x hx => g2 x (by simp [hx]), by simpa [TFrame.todo] using g3, g4, g5,
            by simp [hclosed], g7⟩, ?_⟩
          simp [measure, TFrame.weight, size]
        | node l1 k1 v1 h1 r1 =>
          simp only [addr] at hp
          obtain rfl := Option.some.inj hp
          refine ⟨.visit l1 k1 v1 h1 r1 :: tfs, ⟨by simp [TFrame.erase], ?_, ?_, g4, g5, by simp [hclosed], g7⟩, ?_⟩
          · intro x hx
            rcases List.mem_cons.1 hx with rfl | hx
            · exact .right hsub
            · exact g2 x (by simp [hx])
          · simpa [TFrame.todo] using g3
          · simp [measure, TFrame.weight, size]; omega
  | comm hp =>
    unfold commStep at hp
    split at hp
    · rename_i a v st hst hcur hfin
      obtain rfl := Option.some.inj hp
      rw [g1] at hst
      cases tfs with
      | nil => simp at hst
      | cons x tfs =>
        have hclosed : s.closed = false := by
          cases hc : s.closed
          · rfl
          · exact absurd (g6 hc) (by simp)
        cases x with
        | send l k w h r =>
          simp only [List.map_cons, TFrame.erase, List.cons.injEq, Frame.send.injEq] at hst
          obtain ⟨⟨rfl, rfl⟩, rfl⟩ := hst
          have hsub := g2 _ List.mem_cons_self
          refine ⟨.right l k w h r :: tfs, ⟨by simp [TFrame.erase], ?_, ?_, ?_, ?_, by simp [hclosed], ?_⟩, ?_⟩
          · intro x hx
            rcases List.mem_cons.1 hx with rfl | hx
            · exact hsub
            · exact g2 x (by simp [hx])
          · rw [g3]; simp [TFrame.todo]
          · intro l' k' v' h' r' hs'
            have := g4 l' k' v' h' r' hs'
            have e : processed s = s.received := by simp [processed, hcur]
            rw [e] at this
            simpa only [processed, List.dropLast_concat] using this
          · intro e he; simp at he; simp [he]
          · simp [hfin]
          · simp [measure, TFrame.weight, hcur, hclosed, hfin]; omega
        | visit => simp [TFrame.erase] at hst
        | load => simp [TFrame.erase] at hst
        | right => simp [TFrame.erase] at hst
    · exact absurd hp (by simp)
  | consumer hp =>
    unfold consumerStep at hp
    split at hp
    · rename_i a v hcur
      have hlast := g5 _ hcur
      obtain ⟨ys, hrec⟩ := List.getLast?_eq_some_iff.1 hlast
      split at hp
      · exact absurd hp (by simp)
      · rename_i H r hput
        obtain rfl := Option.some.inj hp
        unfold putValue at hput
        split at hput
        · exact absurd hput (by simp)
        · rename_i c hc
          simp only [Option.some.injEq, Prod.mk.injEq] at hput
          obtain ⟨rfl, rfl⟩ := hput
          have hpr : processed s = ys := by simp [processed, hcur, hrec]
          have hnot : ¬ ∃ w, (a, w) ∈ ys := key_unique hb (A := ys) (k := a) (v := v)
            (B := (tfs.map TFrame.todo).flatten) (by rw [g3, hrec]; simp)
          refine ⟨tfs, ⟨g1, g2, g3, ?_, by simp, g6, ?_⟩, ?_⟩
          · intro l k w h rr hs'
            have := g4 l k w h rr hs'
            rw [hpr] at this
            simp only [setValue, processed, hrec]
            by_cases hk : k = a
            · subst hk
              rw [if_neg (by rwa [any_iff])] at this
              have hc : s.heap k = some c := hc
              rw [hc] at this; obtain rfl := Option.some.inj this
              rw [if_pos rfl, hc, if_pos (by simp)]; rfl
            · rw [if_neg hk, this]
              rw [List.any_append]
              have : (a == k) = false := beq_eq_false_iff_ne.2 (Ne.symm hk)
              simp only [List.any_cons, List.any_nil, this, Bool.or_false]
          · intro hf; exact ⟨(g7 hf).1, rfl⟩
          · simp [measure, hcur]
    · rename_i hcur
      split at hp
      · rename_i h
        obtain rfl := Option.some.inj hp
        refine ⟨tfs, ⟨g1, g2, g3, g4, g5, g6, fun _ => ⟨h.1, hcur⟩⟩, ?_⟩
        simp only [measure]; simp [h]
      · exact absurd hp (by simp)

theorem good_steps {t : Tree} (hb : BST t) {f : Nat → Int → Int} {s : State} (h : Steps (putValue f) (initial t) s) :
    ∃ tfs, Good t f s tfs := by
  induction h with
  | refl => exact good_initial hb f
  | tail _ hs ih =>
    obtain ⟨tfs, g⟩ := ih
    obtain ⟨tfs', g', -⟩ := good_step hb g hs
    exact ⟨tfs', g'⟩

theorem good_progress {t : Tree} {f : Nat → Int → Int} {s : State} {tfs : List TFrame}
    (g : Good t f s tfs) (hf : s.finished = false) : ∃ s', Step (putValue f) s s' := by
  obtain ⟨g1, g2, g3, g4, g5, g6, g7⟩ := g
  cases hcur : s.current with
  | some e =>
    obtain ⟨a, v⟩ := e
    obtain ⟨ys, hrec⟩ := List.getLast?_eq_some_iff.1 (g5 _ hcur)
    have hmem : (a, v) ∈ toList t := by rw [g3, hrec]; simp
    have hcell : ∃ c, s.heap a = some c := by
      have : ∀ (u : Tree), Sub t u → (a, v) ∈ toList u → ∃ l h r, Sub t (node l a v h r) := by
        intro u
        induction u with
        | nil => intro _ h; simp at h
        | node l k w h r ihl ihr =>
          intro hs hm
          simp only [toList_node, List.mem_append, List.mem_cons] at hm
          rcases hm with hm | hm | hm
          · exact ihl (.left hs) hm
          · cases hm; exact ⟨l, h, r, hs⟩
          · exact ihr (.right hs) hm
      obtain ⟨l, h, r, hs⟩ := this t .self hmem
      exact ⟨_, g4 _ _ _ _ _ hs⟩
    obtain ⟨c, hc⟩ := hcell
    exact ⟨_, .consumer (by simp only [consumerStep, hcur, putValue, hc]; rfl)⟩
  | none =>
    cases tfs with
    | nil =>
      cases hc : s.closed with
      | true => exact ⟨_, .consumer (by simp only [consumerStep, hcur, hc, hf]; rfl)⟩
      | false => exact ⟨_, .producer (by simp only [producerStep, g1, hc]; rfl)⟩
    | cons x tfs =>
      have hsub := g2 x (by simp)
      cases x with
      | visit l k v h r =>
        have := g4 l k v h r hsub
        cases hl : addr l with
        | none => exact ⟨_, .producer (by simp only [producerStep, g1, List.map_cons, TFrame.erase, this, hl]; rfl)⟩
        | some a => exact ⟨_, .producer (by simp only [producerStep, g1, List.map_cons, TFrame.erase, this, hl]; rfl)⟩
      | load l k v h r =>
        have := g4 l k v h r hsub
        exact ⟨_, .producer (by simp only [producerStep, g1, List.map_cons, TFrame.erase, this]; rfl)⟩
      | send l k v h r =>
        exact ⟨_, .comm (by simp only [commStep, g1, List.map_cons, TFrame.erase, hcur, hf]; rfl)⟩
      | right l k v h r =>
        have := g4 l k v h r hsub
        cases hl : addr r with
        | none => exact ⟨_, .producer (by simp only [producerStep, g1, List.map_cons, TFrame.erase, this, hl]; rfl)⟩
        | some a => exact ⟨_, .producer (by simp only [producerStep, g1, List.map_cons, TFrame.erase, this, hl]; rfl)⟩

end Chan

/-- C27a (safety): in every state of every interleaving of the traversal with a consumer that overwrites each entry it
receives with a value that is not 0, the entries received so far are an initial segment of the sorted content the
array had at the start; each overwriting has happened exactly once. -/
theorem C27_traversal_safe {t : Tree} (ht : Inv t) (f : Nat → Int → Int) {s : State}
    (hs : Steps (putValue f) (initial t) s) :
    (∃ rest, t.ascendingNodes = s.received ++ rest) ∧
    (s.finished = true → s.received = t.ascendingNodes ∧ s.stack = [] ∧
      ∀ k v, t.get k = some v → (s.heap k).map Cell.value = some (f k v)) := by
  obtain ⟨tfs, g⟩ := good_steps ht.1 hs
  refine ⟨⟨_, g.split⟩, fun hf => ?_⟩
  obtain ⟨hc, hcur⟩ := g.finished hf
  have htf := g.closed hc
  have hrec : s.received = t.ascendingNodes := by have := g.split; rw [htf] at this; simpa using this.symm
  refine ⟨hrec, by rw [g.stack, htf]; rfl, fun k v hk => ?_⟩
  have hm : (k, v) ∈ toList t := by
    rw [mem_toList_iff ht]
    have := get_eq_val ht k
    rw [hk] at this
    split at this
    · exact absurd this (by simp)
    · rename_i h0
      obtain rfl := Option.some.inj this
      exact ⟨h0, rfl⟩
  have : ∀ (u : Tree), Sub t u → (k, v) ∈ toList u → ∃ l h r, Sub t (node l k v h r) := by
    intro u
    induction u with
    | nil => intro _ h; simp at h
    | node l k' w h r ihl ihr =>
      intro hs hm
      simp only [toList_node, List.mem_append, List.mem_cons] at hm
      rcases hm with hm | hm | hm
      · exact ihl (.left hs) hm
      · cases hm; exact ⟨l, h, r, hs⟩
      · exact ihr (.right hs) hm
  obtain ⟨l, h, r, hsub⟩ := this t .self hm
  rw [g.heap _ _ _ _ _ hsub, if_pos ((any_iff _ _).2 ⟨v, by simpa [processed, hcur, hrec] using hm⟩)]; rfl

/-- C27b (liveness): no interleaving deadlocks, and none runs for ever (a natural number decreases with every step),
so under every scheduler the loop ends with the channel closed. -/
theorem C27_traversal_live {t : Tree} (ht : Inv t) (f : Nat → Int → Int) :
    (∀ s, Steps (putValue f) (initial t) s → s.finished = false → ∃ s', Step (putValue f) s s') ∧
    ¬ ∃ run : Nat → State, run 0 = initial t ∧ ∀ n, Step (putValue f) (run n) (run (n + 1)) := by
  refine ⟨fun s hs hf => ?_, ?_⟩
  · obtain ⟨tfs, g⟩ := good_steps ht.1 hs
    exact good_progress g hf
  · rintro ⟨run, h0, hrun⟩
    have key : ∀ n, ∃ tfs, Good t f (run n) tfs ∧ ∀ m, (∃ tfs0, Good t f (run 0) tfs0 ∧ Chan.measure (run 0) tfs0 = m) →
        True := by
      intro n
      induction n with
      | zero => obtain ⟨tfs, g⟩ := good_initial ht.1 f; rw [← h0] at g; exact ⟨tfs, g, by simp⟩
      | succ n ih =>
        obtain ⟨tfs, g, -⟩ := ih
        obtain ⟨tfs', g', -⟩ := good_step ht.1 g (hrun n)
        exact ⟨tfs', g', by simp⟩
    have dec : ∀ N n tfs, Good t f (run n) tfs → Chan.measure (run n) tfs ≤ N → False := by
      intro N
      induction N with
      | zero =>
        intro n tfs g hm
        obtain ⟨tfs', -, hlt⟩ := good_step ht.1 g (hrun n)
        omega
      | succ N ih =>
        intro n tfs g hm
        obtain ⟨tfs', g', hlt⟩ := good_step ht.1 g (hrun n)
        exact ih (n + 1) tfs' g' (by omega)
    obtain ⟨tfs, g, -⟩ := key 0
    exact dec _ 0 tfs g le_rfl

/-- the tree with content 1 ↦ 1, 2 ↦ 1, 3 ↦ 1, 4 ↦ 1 that arises by inserting the keys 2, 1, 3, 4 -/
def Chan.witnessTree : Tree :=
  node (node nil 1 1 1 nil) 2 1 4 (node nil 3 1 2 (node nil 4 1 1 nil))

/-- C27c: without the restriction to non-zero values the claim is false.  `Combine` over `F_7` with the weights
`w[1] = 5, w[2] = 0, w[3] = 1, w[4] = 1` removes key 2 while the traversal is running.  Two schedules of the same call
yield different results: one the intended value 5 at key 1, the other delivers key 1 twice and leaves 25 mod 7 = 4. -/
theorem C27_combine_schedule_dependent :
    let w : Nat → Int := fun k => if k = 1 then 5 else if k = 2 then 0 else 1
    let put := putHeap 10 (fun k v => Fq.mul 7 v (w k))
    (do let t ← nil.insert 2 1; let t ← t.insert 1 1; let t ← t.insert 3 1; t.insert 4 1) = some Chan.witnessTree ∧
    (runSchedule put (initial Chan.witnessTree)
        [0, 0, 0, 1, 2, 0, 0, 1, 0, 0, 0, 2, 1, 2, 0, 0, 0, 1, 2, 0, 0, 2]).map
      (fun s => (s.finished, s.received.map Prod.fst, (s.heap 1).map Cell.value))
        = some (true, [1, 2, 3, 4], some 5) ∧
    (runSchedule put (initial Chan.witnessTree)
        [0, 0, 0, 1, 2, 0, 0, 1, 2, 0, 0, 0, 0, 1, 2, 0, 0, 1, 2, 0, 0, 0, 1, 2, 0, 0, 2]).map
      (fun s => (s.finished, s.received.map Prod.fst, (s.heap 1).map Cell.value))
        = some (true, [1, 2, 1, 3, 4], some 4) := by
  refine ⟨by decide +kernel, by decide +kernel, by decide +kernel⟩

example : Inv Chan.witnessTree ∧ (runSchedule (putValue fun _ v => 3 * v) (initial Chan.witnessTree)
    [0, 0, 0, 1, 2, 0]).map (fun s => (s.received, (s.heap 1).map Cell.value)) = some ([(1, 1)], some 3) := by
  refine ⟨⟨by unfold BST Chan.witnessTree; decide +kernel, by unfold Chan.witnessTree; decide +kernel⟩, by decide +kernel⟩

end APS
