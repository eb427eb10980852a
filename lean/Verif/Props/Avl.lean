import Verif.Proofs.Avl
import Verif.Spec.SparseMap

/-! Properties C13 - C19: the sparse array (AVL tree). -/
namespace APS
open APS.Avl APS.Avl.Tree APS.Spec

/-- one API call on the modelled tree; `none` = panic -/
def Avl.step (t : Tree) : Op → Option Tree
  | .put k v f => t.treePut k v (fun o n => some (f o n))
  | .remove k => some (t.treeRemove k).1
  | .insertNew k v => t.insertNoOverwrite k v

/-- a history of API calls starting from tree `t` -/
def Avl.run (t : Tree) : List Op → Option Tree
  | [] => some t
  | op :: ops => match Avl.step t op with
    | none => none
    | some t' => Avl.run t' ops

/-- trees reachable by any history of API calls (failing removals included) -/
def Avl.Reachable (t : Tree) : Prop := ∃ ops, Avl.run nil ops = some t

theorem Avl.step_inv {t t' : Tree} {op : Op} (h : Inv t) (hs : Avl.step t op = some t') : Inv t' := by
  cases op with
  | put k v f =>
    obtain ⟨t2, e1, e2, -⟩ := treePut_inv (ins := fun o n => some (f o n)) (value := v) h
      (key := k) (w := f (t.val k) v) rfl
    simp only [Avl.step, e1, Option.some.injEq] at hs; subst hs; exact e2
  | remove k => simp only [Avl.step, Option.some.injEq] at hs; subst hs; exact treeRemove_inv h
  | insertNew k v =>
    simp only [Avl.step, insertNoOverwrite] at hs
    cases hw : setInsertNoOverride (t.val k) v with
    | none => rw [treePut_panic h hw] at hs; exact absurd hs (by simp)
    | some w =>
      obtain ⟨t2, e1, e2, -⟩ := treePut_inv h hw
      rw [e1] at hs; obtain rfl := Option.some.inj hs; exact e2

theorem Avl.run_inv {t t' : Tree} {ops : List Op} (h : Inv t) (hs : Avl.run t ops = some t') : Inv t' := by
  induction ops generalizing t with
  | nil => simp only [Avl.run, Option.some.injEq] at hs; subst hs; exact h
  | cons op ops ih =>
    simp only [Avl.run] at hs
    split at hs
    · exact absurd hs (by simp)
    · rename_i t2 h2; exact ih (Avl.step_inv h h2) hs

theorem Avl.Reachable.inv {t : Tree} (h : Avl.Reachable t) : Inv t := by
  obtain ⟨ops, hr⟩ := h; exact Avl.run_inv inv_nil hr

/-- C13: after any allowed history the calls all returned, and `Get`/`Has` read exactly the abstract map
(`Get` reports "not found" exactly for the keys mapped to 0). -/
theorem C13_map_refinement (ops : List Op) (h : AllAllowed (fun _ => 0) ops) :
    ∃ t, Avl.run nil ops = some t ∧
      ∀ k, t.get k = (if mapRun ops k = 0 then none else some (mapRun ops k)) ∧
        (t.has k = true ↔ mapRun ops k ≠ 0) := by
  have gen : ∀ (ops : List Op) (t : Tree), Inv t → AllAllowed t.val ops →
      ∃ t', Avl.run t ops = some t' ∧ Inv t' ∧ t'.val = ops.foldl mapStep t.val := by
    intro ops
    induction ops with
    | nil => intro t ht _; exact ⟨t, rfl, ht, rfl⟩
    | cons op ops ih =>
      intro t ht hall
      obtain ⟨ha, hall⟩ := hall
      have hstep : ∃ t', Avl.step t op = some t' ∧ Inv t' ∧ t'.val = mapStep t.val op := by
        cases op with
        | put k v f =>
          obtain ⟨t2, e1, e2, e3⟩ := treePut_inv (ins := fun o n => some (f o n)) (value := v) ht
            (key := k) (w := f (t.val k) v) rfl
          exact ⟨t2, e1, e2, by funext j; rw [e3 j]; simp [mapStep, Function.update_apply]⟩
        | remove k =>
          obtain ⟨-, e3⟩ := treeRemove_val ht ha
          exact ⟨_, rfl, treeRemove_inv ht, by funext j; rw [e3 j]; simp [mapStep, Function.update_apply]⟩
        | insertNew k v =>
          have hw : setInsertNoOverride (t.val k) v = some v := by
            have : t.val k = 0 := ha
            simp [setInsertNoOverride, this]
          obtain ⟨t2, e1, e2, e3⟩ := treePut_inv ht hw
          exact ⟨t2, e1, e2, by funext j; rw [e3 j]; simp [mapStep, Function.update_apply]⟩
      obtain ⟨t', e1, e2, e3⟩ := hstep
      rw [← e3] at hall
      obtain ⟨t'', f1, f2, f3⟩ := ih t' e2 hall
      exact ⟨t'', by simp [Avl.run, e1, f1], f2, by rw [f3, e3]; rfl⟩
  obtain ⟨t, e1, e2, e3⟩ := gen ops nil inv_nil h
  have e4 : t.val = mapRun ops := by rw [e3]; unfold mapRun; congr
  refine ⟨t, e1, fun k => ?_⟩
  have := get_eq_val e2 k
  rw [e4] at this
  refine ⟨this, ?_⟩
  rw [has_eq_isSome, this]
  split <;> simp_all

/-- `Remove` of a present key also returns the stored value. -/
theorem C13_remove_returns_value {t : Tree} (h : Avl.Reachable t) (k : Nat) (v : Int) (hk : t.get k = some v) :
    (t.treeRemove k).2 = some v ∧ (t.treeRemove k).1.get k = none ∧
    ∀ j, j ≠ k → (t.treeRemove k).1.get j = t.get j := by
  have hi := h.inv
  have hv : t.val k = v := by simp [val, hk]
  have h0 : t.val k ≠ 0 := by
    have := get_eq_val hi k
    intro h0; rw [if_pos h0, hk] at this; exact absurd this (by simp)
  obtain ⟨e1, e2⟩ := treeRemove_val hi h0
  have hi' := treeRemove_inv (key := k) hi
  refine ⟨by rw [e1, hv], by rw [get_eq_val hi' k, e2 k]; simp, fun j hj => ?_⟩
  rw [get_eq_val hi' j, e2 j, if_neg hj, ← get_eq_val hi j]

example : AllAllowed (fun _ => 0) [.put 4 1 (fun _ v => v), .put 5 1 (fun o v => o + v), .insertNew 3 7,
    .put 5 (-1) (fun o v => o + v), .remove 3] ∧
    (∃ t, Avl.run nil [.put 4 1 (fun _ v => v), .insertNew 3 7] = some t ∧ t.get 3 = some 7) := by
  refine ⟨by simp [AllAllowed, Allowed, mapStep, Function.update], ⟨_, rfl, by decide +kernel⟩⟩

/-- C14: traversals.  `DecendingNodes` (= `AllNodes`, `ChannelNodes(false)`) has strictly decreasing keys,
`ChannelNodes(true)` is its reverse with strictly increasing keys; both list exactly the stored entries;
`Size` is their number. -/
theorem C14_traversals {t : Tree} (h : Avl.Reachable t) :
    t.ascendingNodes.Pairwise (fun a b => a.1 < b.1) ∧ t.decendingNodes.Pairwise (fun a b => b.1 < a.1) ∧
    t.decendingNodes = t.ascendingNodes.reverse ∧
    (∀ k v, (k, v) ∈ t.ascendingNodes ↔ t.get k = some v) ∧
    t.size = t.ascendingNodes.length ∧ t.size = t.decendingNodes.length := by
  have hi := h.inv
  have e : t.decendingNodes = t.ascendingNodes.reverse := allNodes_eq t
  refine ⟨hi.1, ?_, e, fun k v => ?_, size_eq t, ?_⟩
  · rw [e, List.pairwise_reverse]; exact hi.1
  · rw [mem_toList_iff hi, get_eq_val hi k]
    split
    · rename_i h0; simp [h0]; rintro h1 rfl; exact absurd rfl h1
    · rename_i h0; constructor
      · rintro ⟨-, rfl⟩; rfl
      · rintro ⟨⟩; exact ⟨h0, rfl⟩
  · rw [e, List.length_reverse, size_eq t]

/-- C15: no reachable array stores a zero. -/
theorem C15_no_zero_stored {t : Tree} (h : Avl.Reachable t) (k : Nat) (v : Int) (hg : t.get k = some v) : v ≠ 0 := by
  rw [get_eq_val h.inv k] at hg
  split at hg
  · exact absurd hg (by simp)
  · rename_i h0; obtain rfl := Option.some.inj hg; exact h0

example : Avl.Reachable (node (node nil 3 7 1 nil) 4 1 2 nil) :=
  ⟨[.put 4 1 (fun _ v => v), .insertNew 3 7], by decide +kernel⟩

/-- C16: the rebalancing loop terminates on every search tree whatever heights are stored in it (so every call
of `Put`/`Remove` returns, all loops in them being this one and recursions on the tree), with an explicit bound on
the number of rounds, and neither loses nor reorders entries. -/
theorem C16_balance_terminates (t : Tree) (h : t.ascendingNodes.Pairwise (fun a b => a.1 < b.1)) :
    ∃ t', balanceLoop ((t.size + 1) ^ 2) t = some t' ∧ t'.ascendingNodes = t.ascendingNodes := by
  obtain ⟨t', e⟩ := balance_fuel_ok (t := t) h
  exact ⟨t', e, balanceLoop_toList _ _ _ h e⟩

example : (node (node (node nil 1 1 7 nil) 2 1 9 nil) 4 1 2 nil).ascendingNodes.Pairwise (fun a b => a.1 < b.1) := by
  decide

/-- C16: on reachable trees every call except a no-overwrite insertion on an occupied key returns normally. -/
theorem C16_calls_return {t : Tree} (h : Avl.Reachable t) (op : Op)
    (hop : ∀ k v, op = .insertNew k v → t.get k = none) : ∃ t', Avl.step t op = some t' := by
  have hi := h.inv
  cases op with
  | put k v f =>
    obtain ⟨t2, e1, -⟩ := treePut_inv (ins := fun o n => some (f o n)) (value := v) hi
      (key := k) (w := f (t.val k) v) rfl
    exact ⟨t2, e1⟩
  | remove k => exact ⟨_, rfl⟩
  | insertNew k v =>
    have hw : setInsertNoOverride (t.val k) v = some v := by
      simp [setInsertNoOverride, val, hop k v rfl]
    obtain ⟨t2, e1, -⟩ := treePut_inv hi hw
    exact ⟨t2, e1⟩

/-- C17 (partial): removing an absent key reports an error and never invents, changes or reorders entries: what is
left is a contiguous part of the old entries; if the node at the root is still the root of the rebalanced tree,
nothing is lost.  Missing: the entries must all survive, which is false, see `C17_failed_remove_refuted`. -/
theorem C17_failed_remove_partial {t : Tree} (h : Avl.Reachable t) (k : Nat) (hk : t.get k = none) :
    (t.treeRemove k).2 = none ∧ (t.treeRemove k).1.ascendingNodes <:+: t.ascendingNodes ∧
    ((∀ l rk v hh r l' rk' v' hh' r', t = node l rk v hh r → (t.remove k).1 = node l' rk' v' hh' r' → rk' = rk) →
      (t.treeRemove k).1.ascendingNodes = t.ascendingNodes) := by
  have hi := h.inv
  obtain ⟨e1, e2⟩ := treeRemove_absent hi.1 hk
  refine ⟨e1, e2, fun hroot => ?_⟩
  cases t with
  | nil => rfl
  | node l rk v hh r =>
    obtain ⟨t', f1, f2⟩ := (remove_spec k _ hi.1).2 hk
    simp only [treeRemove, f1]
    cases t' with
    | nil => simp at f2
    | node l' rk' v' hh' r' =>
      obtain rfl := hroot l rk v hh r l' rk' v' hh' r' rfl (by rw [f1])
      simp only [subAt, if_true]
      exact f2

example : Avl.Reachable (node (node nil 3 7 1 nil) 4 1 2 nil) ∧
    (node (node nil 3 7 1 nil) 4 1 2 nil).get 9 = none := ⟨⟨[.put 4 1 (fun _ v => v), .insertNew 3 7], by decide +kernel⟩, rfl⟩

/-- C17: the full claim fails: insert 4,5,3,2,1, remove 5, then removing the absent key 100 destroys entries 1,2,3. -/
theorem C17_failed_remove_refuted :
    ¬ ∀ t, Avl.Reachable t → ∀ k, t.get k = none → ∀ j, (t.treeRemove k).1.get j = t.get j := by
  intro h
  let s : Int → Int → Int := fun _ v => v
  have hr : Avl.run nil [.put 4 1 s, .put 5 1 s, .put 3 1 s, .put 2 1 s, .put 1 1 s, .remove 5] =
      some (node (node (node (node nil 1 1 1 nil) 2 1 2 nil) 3 1 3 nil) 4 1 5 nil) := by decide +kernel
  have := h _ ⟨_, hr⟩ 100 (by decide +kernel) 3
  revert this
  decide +kernel

/-- C18: no-overwrite insertion stores the value at an absent key, panics exactly on a present key (whose value is
never 0), and changes no other key; inserting 0 stores nothing. -/
theorem C18_insertNoOverwrite {t : Tree} (h : Avl.Reachable t) (k : Nat) (v : Int) :
    (t.insertNoOverwrite k v = none ↔ t.has k = true) ∧
    (∀ t', t.insertNoOverwrite k v = some t' →
      t'.get k = (if v = 0 then none else some v) ∧ ∀ j, j ≠ k → t'.get j = t.get j) := by
  have hi := h.inv
  have hhas : t.has k = true ↔ t.val k ≠ 0 := by
    rw [has_eq_isSome, get_eq_val hi k]; split <;> simp_all
  by_cases h0 : t.val k = 0
  · have hw : setInsertNoOverride (t.val k) v = some v := by simp [setInsertNoOverride, h0]
    obtain ⟨t2, e1, e2, e3⟩ := treePut_inv hi hw
    have e1' : t.insertNoOverwrite k v = some t2 := e1
    refine ⟨by rw [e1', hhas]; simp [h0], fun t' ht' => ?_⟩
    rw [e1'] at ht'
    obtain rfl := Option.some.inj ht'
    refine ⟨by rw [get_eq_val e2 k, e3 k, if_pos rfl], fun j hj => ?_⟩
    rw [get_eq_val e2 j, e3 j, if_neg hj, ← get_eq_val hi j]
  · have hw : setInsertNoOverride (t.val k) v = none := by simp [setInsertNoOverride, h0]
    have e1 : t.insertNoOverwrite k v = none := treePut_panic hi hw
    exact ⟨by rw [e1, hhas]; simp [h0], fun t' ht' => by rw [e1] at ht'; exact absurd ht' (by simp)⟩

/-- C19: `MaxPower` is 0 on the empty array and otherwise the largest stored key; `MinNode` holds the smallest
key and crashes exactly on the empty array. -/
theorem C19_max_min {t : Tree} (h : Avl.Reachable t) :
    (t = nil → t.maxPower = 0 ∧ t.minNode = none) ∧
    (t ≠ nil → t.has t.maxPower = true ∧
      ∃ k v, t.minNode = some (k, v) ∧ t.get k = some v ∧ ∀ j, t.has j = true → k ≤ j) ∧
    ∀ k, t.has k = true → k ≤ t.maxPower := by
  have hi := h.inv
  have hhas : ∀ k, t.has k = true ↔ t.val k ≠ 0 := by
    intro k; rw [has_eq_isSome, get_eq_val hi k]; split <;> simp_all
  refine ⟨by rintro rfl; exact ⟨rfl, rfl⟩, fun hne => ⟨(hhas _).2 (maxPower_mem hi hne), ?_⟩,
    fun k hk => le_maxPower hi ((hhas k).1 hk)⟩
  obtain ⟨⟨k, v⟩, hl⟩ := Option.ne_none_iff_exists'.1 (fun h => hne (lmd_none.1 h))
  obtain ⟨A, hA⟩ := lmd_spec hl
  refine ⟨k, v, hl, ((C14_traversals h).2.2.2.1 k v).1 (by show (k, v) ∈ toList t; rw [hA]; simp), fun j hj => ?_⟩
  have hm := (mem_toList_iff hi j (t.val j)).2 ⟨(hhas j).1 hj, rfl⟩
  have hb := hi.1
  rw [BST, hA, List.pairwise_cons] at hb
  rw [hA] at hm
  rcases List.mem_cons.1 hm with e | hm
  · exact le_of_eq (congrArg Prod.fst e).symm
  · exact le_of_lt (hb.1 _ hm)

theorem toArray_fold (l : List (Nat × Int)) : ∀ (a : List Int), (∀ e ∈ l, e.1 < a.length) →
    l.Pairwise (fun a b => b.1 < a.1) →
    ∃ b, l.foldl (fun acc e => acc.bind fun a => if e.1 < a.length then some (a.set e.1 e.2) else none) (some a) = some b ∧
      b.length = a.length ∧ ∀ i, b[i]? = if i < a.length then (match l.lookup i with | some v => some v | none => a[i]?) else none := by
  induction l with
  | nil =>
    intro a _ _
    refine ⟨a, rfl, rfl, fun i => ?_⟩
    split
    · rfl
    · rw [List.getElem?_eq_none (by omega)]
  | cons e l ih =>
    intro a h1 h2
    rw [List.pairwise_cons] at h2
    obtain ⟨k, v⟩ := e
    have hk : k < a.length := h1 (k, v) (by simp)
    obtain ⟨b, e1, e2, e3⟩ := ih (a.set k v) (fun e he => by simpa using h1 e (by simp [he])) h2.2
    refine ⟨b, ?_, by simpa using e2, fun i => ?_⟩
    · simp only [List.foldl_cons, Option.bind_some, hk, if_true]; exact e1
    · rw [e3 i]
      simp only [List.length_set, List.lookup_cons]
      split
      · by_cases hik : i = k
        · subst hik
          have : l.lookup i = none := by
            rw [List.lookup_eq_none_iff]; intro p hp; have := h2.1 p hp; simp; omega
          simp [this, hk]
        · have : (i == k) = false := by simpa using hik
          simp only [this]
          rw [List.getElem?_set_ne (fun h => hik h.symm)]
      · rfl

/-- C19: `ToArray(n)` for `n > MaxPower` has length `n` and holds `Get i` (0 if absent) at every index `i < n`;
it crashes for every `n ≤ MaxPower` (on a non-empty array), also for `n = MaxPower` which passes the explicit check. -/
theorem C19_toArray {t : Tree} (h : Avl.Reachable t) (n : Nat) :
    (t.maxPower < n → ∃ a, t.toArray n = some a ∧ a.length = n ∧ ∀ i, i < n → a[i]? = some ((t.get i).getD 0)) ∧
    (t ≠ nil → n ≤ t.maxPower → t.toArray n = none) := by
  have hi := h.inv
  constructor
  · intro hn
    obtain ⟨a, e1, e2, e3⟩ := toArray_fold t.allNodes (List.replicate n 0) (by
      intro e he
      have : e.1 ≤ t.maxPower := by
        apply le_maxPower hi
        rw [allNodes_eq, List.mem_reverse] at he
        have := (mem_toList_iff hi e.1 e.2).1 he
        rw [this.2]; exact this.1
      simp; omega) (C14_traversals h).2.1
    refine ⟨a, by unfold toArray; rw [if_neg (by omega)]; exact e1, by simpa using e2, fun i hin => ?_⟩
    rw [e3 i, if_pos (by simpa using hin)]
    have : t.allNodes.lookup i = t.get i := by
      rw [get_eq_val hi i]
      split
      · rename_i h0
        rw [List.lookup_eq_none_iff]
        intro p hp
        rw [allNodes_eq, List.mem_reverse] at hp
        have := (mem_toList_iff hi p.1 p.2).1 hp
        simp only [bne_iff_ne]
        rintro rfl; exact this.1 (this.2 ▸ h0)
      · rename_i h0
        have hm : (i, t.val i) ∈ t.allNodes := by
          rw [allNodes_eq, List.mem_reverse]; exact (mem_toList_iff hi i _).2 ⟨h0, rfl⟩
        have hp := (C14_traversals h).2.1
        obtain ⟨l1, l2, hs⟩ := List.append_of_mem hm
        unfold decendingNodes at hp
        rw [hs] at hp ⊢
        rw [List.pairwise_append] at hp
        rw [lookup_append_none (fun x hx => ?_)]
        · simp
        · have := hp.2.2 x hx (i, t.val i) (by simp)
          simp at this; omega
    rw [this]
    cases t.get i <;> simp [List.getElem?_replicate, hin]
  · intro hne hn
    unfold toArray
    split
    · rfl
    · have hnn : n = t.maxPower := by omega
      have hmem : t.maxNode ∈ t.allNodes := by
        rw [allNodes_eq, List.mem_reverse, maxNode_eq]
        have hne' : toList t ≠ [] := by cases t <;> simp at hne ⊢
        rw [List.getLast?_eq_some_getLast hne']; exact List.getLast_mem hne'
      have key : ∀ (l : List (Nat × Int)) (acc : Option (List Int)), (∃ e ∈ l, e.1 = n) → (∀ a, acc = some a → a.length = n) →
          l.foldl (fun acc e => acc.bind fun a => if e.1 < a.length then some (a.set e.1 e.2) else none) acc = none := by
        intro l
        induction l with
        | nil => rintro acc ⟨e, he, -⟩; simp at he
        | cons e l ih =>
          intro acc hex hacc
          simp only [List.foldl_cons]
          have hnone : ∀ l : List (Nat × Int), l.foldl (fun (acc : Option (List Int)) e => acc.bind fun a => if e.1 < a.length then some (a.set e.1 e.2) else none) none = none := by
            intro l; induction l with
            | nil => rfl
            | cons a l ih => simpa using ih
          cases acc with
          | none => exact hnone l
          | some a =>
            have ha := hacc a rfl
            simp only [Option.bind_some]
            split
            · rename_i hlt
              apply ih
              · obtain ⟨e', he', hk⟩ := hex
                rcases List.mem_cons.1 he' with rfl | he'
                · omega
                · exact ⟨e', he', hk⟩
              · rintro b ⟨⟩; simpa using ha
            · exact hnone l
      exact key _ _ ⟨_, hmem, hnn.symm⟩ (by rintro a ⟨⟩; simp)

/-- C19: `NewSparseArrayFromArray v` never crashes and stores exactly the non-zero entries of `v` at their index;
hence converting back with any sufficient length restores `v` (padded with zeros). -/
theorem C19_fromArray (vs : List Int) :
    ∃ t, fromArray vs = some t ∧ Avl.Reachable t ∧ (∀ k, (t.get k).getD 0 = vs.getD k 0) ∧
      (vs ≠ [] → t.toArray vs.length = some vs) := by
  have gen : ∀ (vs : List Int) (k : Nat) (t : Tree) (ops : List Op), Avl.run nil ops = some t → (∀ j, k ≤ j → t.val j = 0) →
      ∃ t' ops', fromArrayLoop k t vs = some t' ∧ Avl.run nil (ops ++ ops') = some t' ∧
        ∀ j, t'.val j = if k ≤ j ∧ j < k + vs.length then vs.getD (j - k) 0 else t.val j := by
    intro vs
    induction vs with
    | nil => intro k t ops hr _; exact ⟨t, [], rfl, by simpa using hr, fun j => by rw [if_neg (by simp; try omega)]⟩
    | cons v vs ih =>
      intro k t ops hr h0
      have hi : Inv t := Avl.run_inv inv_nil hr
      have key : ∀ j, (if k + 1 ≤ j ∧ j < k + 1 + vs.length then vs.getD (j - (k+1)) 0 else if j = k then v else t.val j)
          = if k ≤ j ∧ j < k + (v :: vs).length then (v :: vs).getD (j - k) 0 else t.val j := by
        intro j
        simp only [List.length_cons]
        rcases lt_trichotomy j k with hj | hj | hj
        · rw [if_neg (by omega), if_neg (by omega), if_neg (by omega)]
        · subst hj; rw [if_neg (by omega), if_pos rfl, if_pos (by omega)]; simp
        · rw [if_neg (show j ≠ k by omega), show j - k = (j - (k+1)) + 1 by omega, List.getD_cons_succ]
          by_cases hlt : j < k + 1 + vs.length
          · rw [if_pos (by omega), if_pos (by omega)]
          · rw [if_neg (by omega), if_neg (by omega)]
      simp only [fromArrayLoop]
      split
      · rename_i hv
        have hw : setInsertNoOverride (t.val k) v = some v := by simp [setInsertNoOverride, h0 k le_rfl]
        obtain ⟨t2, e1, e2, e3⟩ := treePut_inv hi hw
        have hrun : Avl.run nil (ops ++ [.insertNew k v]) = some t2 := by
          have happ : ∀ (ops ops' : List Op) (t t' : Tree), Avl.run t ops = some t' →
              Avl.run t (ops ++ ops') = Avl.run t' ops' := by
            intro ops ops'
            induction ops with
            | nil => rintro t t' ⟨⟩; rfl
            | cons op ops ih =>
              intro t t' h
              simp only [Avl.run, List.cons_append] at h ⊢
              cases hs : Avl.step t op with
              | none => simp [hs] at h
              | some t3 => simp only [hs] at h ⊢; exact ih _ _ h
          rw [happ _ _ _ _ hr]
          simp only [Avl.run, Avl.step, insertNoOverwrite, e1]
        obtain ⟨t', ops', f1, f2, f3⟩ := ih (k+1) t2 (ops ++ [.insertNew k v]) hrun (fun j hj => by
          rw [e3 j, if_neg (by omega)]; exact h0 j (by omega))
        refine ⟨t', .insertNew k v :: ops', by simp [e1, f1], by simpa using f2, fun j => ?_⟩
        rw [f3 j, e3 j, key j]
      · rename_i hv
        have hv : v = 0 := by simpa using hv
        obtain ⟨t', ops', f1, f2, f3⟩ := ih (k+1) t ops hr (fun j hj => h0 j (by omega))
        refine ⟨t', ops', f1, f2, fun j => ?_⟩
        rw [f3 j, ← key j]
        by_cases hj : j = k
        · subst hj; rw [if_neg (by omega), if_neg (by omega), if_pos rfl, h0 j le_rfl, hv]
        · rw [if_neg hj]
  obtain ⟨t, ops, e1, e2, e3⟩ := gen vs 0 nil [] rfl (by intro j _; rfl)
  have hreach : Avl.Reachable t := ⟨_, e2⟩
  have hval : ∀ k, (t.get k).getD 0 = vs.getD k 0 := by
    intro k
    have := e3 k
    unfold val at this; rw [this]
    split
    · simp
    · rename_i h; rw [List.getD_eq_getElem?_getD, List.getElem?_eq_none (by omega)]; rfl
  refine ⟨t, e1, hreach, hval, fun hne => ?_⟩
  have hpos := List.length_pos_iff.2 hne
  have hmax : t.maxPower < vs.length := by
    by_cases hn : t = nil
    · subst hn; exact hpos
    · by_contra hge
      have h1 := maxPower_mem hreach.inv hn
      unfold val at h1
      rw [hval, List.getD_eq_getElem?_getD, List.getElem?_eq_none (by omega)] at h1
      exact h1 rfl
  obtain ⟨a, f1, f2, f3⟩ := (C19_toArray hreach vs.length).1 hmax
  rw [f1]; congr 1
  apply List.ext_getElem?
  intro i
  by_cases hi : i < vs.length
  · rw [f3 i hi, hval, List.getD_eq_getElem?_getD, List.getElem?_eq_getElem hi]; rfl
  · rw [List.getElem?_eq_none (by omega), List.getElem?_eq_none (by omega)]

example : ((fromArray [0, 5, 0, -7]).map fun t => (t.allNodes, t.toArray 6)) =
    some ([(3, -7), (1, 5)], some [0, 5, 0, -7, 0, 0]) := by decide +kernel

end APS
