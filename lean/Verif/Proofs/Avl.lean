import Verif.Model.Avl
import Mathlib.Tactic.Ring
import Mathlib.Tactic.Linarith
import Mathlib.Tactic.NthRewrite

/-! Helper lemmas about the AVL model. -/
namespace APS.Avl
namespace Tree

/-- entries in ascending (in-order) sequence -/
abbrev toList := ascendingNodes

@[simp] theorem toList_nil : toList nil = [] := rfl
@[simp] theorem toList_node (l : Tree) (k v h r) : toList (node l k v h r) = toList l ++ (k, v) :: toList r := rfl

/-- search tree: the in-order keys are strictly increasing -/
def BST (t : Tree) : Prop := (toList t).Pairwise (fun a b => a.1 < b.1)

theorem bst_node {l r : Tree} {k : Nat} {v : Int} {h : Nat} : BST (node l k v h r) ↔
    BST l ∧ BST r ∧ (∀ e ∈ toList l, e.1 < k) ∧ (∀ e ∈ toList r, k < e.1) := by
  unfold BST
  rw [toList_node, List.pairwise_append, List.pairwise_cons]
  constructor
  · rintro ⟨h1, ⟨h2, h3⟩, h4⟩
    exact ⟨h1, h3, fun e he => h4 e he (k, v) (by simp), h2⟩
  · rintro ⟨h1, h2, h3, h4⟩
    refine ⟨h1, ⟨h4, h2⟩, fun a ha b hb => ?_⟩
    rcases List.mem_cons.1 hb with rfl | hb
    · exact h3 a ha
    · exact lt_trans (h3 a ha) (h4 b hb)

@[simp] theorem toList_mk (l : Tree) (k v r) : toList (mk l k v r) = toList l ++ (k, v) :: toList r := rfl

/-! #### list-level specification of updates -/

/-- sorted association list update -/
def insL (k : Nat) (f : Int → Int) : List (Nat × Int) → List (Nat × Int)
  | [] => [(k, f 0)]
  | (k', v) :: l => if k < k' then (k, f 0) :: (k', v) :: l else if k = k' then (k, f v) :: l
      else (k', v) :: insL k f l

theorem insL_lt {k k' : Nat} {v : Int} {f : Int → Int} {A B : List (Nat × Int)} (hk : k < k')
    : insL k f (A ++ (k', v) :: B) = insL k f A ++ (k', v) :: B := by
  induction A with
  | nil => simp [insL, hk]
  | cons a A ih =>
    obtain ⟨a, w⟩ := a
    simp only [List.cons_append, insL, ih]
    split
    · simp
    · split <;> simp

theorem insL_append_gt {k : Nat} {f : Int → Int} {A B : List (Nat × Int)} (hA : ∀ e ∈ A, e.1 < k) :
    insL k f (A ++ B) = A ++ insL k f B := by
  induction A with
  | nil => simp
  | cons a A ih =>
    obtain ⟨a, w⟩ := a
    have h1 : a < k := hA (a, w) (by simp)
    simp only [List.cons_append, insL]
    rw [if_neg (by omega), if_neg (by omega), ih (fun e he => hA e (by simp [he]))]

theorem insL_gt {k k' : Nat} {v : Int} {f : Int → Int} {A B : List (Nat × Int)} (hA : ∀ e ∈ A, e.1 < k')
    (hk : k' < k) : insL k f (A ++ (k', v) :: B) = A ++ (k', v) :: insL k f B := by
  rw [insL_append_gt (fun e he => lt_trans (hA e he) hk)]
  simp [insL, show ¬ k < k' by omega, show k ≠ k' by omega]

theorem insL_eq {k : Nat} {v : Int} {f : Int → Int} {A B : List (Nat × Int)} (hA : ∀ e ∈ A, e.1 < k) :
    insL k f (A ++ (k, v) :: B) = A ++ (k, f v) :: B := by
  rw [insL_append_gt hA]; simp [insL]

theorem mem_insL_key {k : Nat} {f : Int → Int} {l : List (Nat × Int)} {e : Nat × Int} (h : e ∈ insL k f l) :
    e.1 = k ∨ e ∈ l := by
  induction l with
  | nil => simp [insL] at h; simp [h]
  | cons a l ih =>
    obtain ⟨a, w⟩ := a
    simp only [insL] at h
    split at h
    · simp only [List.mem_cons] at h ⊢
      rcases h with rfl | h
      · simp
      · right; exact h
    · split at h
      · rename_i hk
        simp only [List.mem_cons] at h ⊢
        rcases h with rfl | h
        · simp
        · right; right; exact h
      · simp only [List.mem_cons] at h ⊢
        rcases h with rfl | h
        · right; left; rfl
        · rcases ih h with h | h
          · left; exact h
          · right; right; exact h

theorem insL_sorted {k : Nat} {f : Int → Int} {l : List (Nat × Int)} (h : l.Pairwise (fun a b => a.1 < b.1)) :
    (insL k f l).Pairwise (fun a b => a.1 < b.1) := by
  induction l with
  | nil => simp [insL]
  | cons a l ih =>
    obtain ⟨a, w⟩ := a
    rw [List.pairwise_cons] at h
    simp only [insL]
    split
    · rename_i hk
      rw [List.pairwise_cons]
      refine ⟨fun e he => ?_, List.pairwise_cons.2 h⟩
      rcases List.mem_cons.1 he with rfl | he
      · exact hk
      · exact lt_trans hk (h.1 e he)
    · split
      · rename_i hk; subst hk; exact List.pairwise_cons.2 h
      · rename_i h1 h2
        rw [List.pairwise_cons]
        refine ⟨fun e he => ?_, ih h.2⟩
        rcases mem_insL_key he with he | he
        · show a < e.1; rw [he]; omega
        · exact h.1 e he

theorem insL_lookup {k : Nat} {f : Int → Int} {l : List (Nat × Int)} (h : l.Pairwise (fun a b => a.1 < b.1)) (j : Nat) :
    (insL k f l).lookup j = if j = k then some (f ((l.lookup k).getD 0)) else l.lookup j := by
  induction l with
  | nil =>
    simp only [insL, List.lookup_cons, List.lookup_nil]
    by_cases hj : j = k
    · simp [hj]
    · have : (j == k) = false := by simpa using hj
      simp [this, hj]
  | cons a l ih =>
    obtain ⟨a, w⟩ := a
    rw [List.pairwise_cons] at h
    have hnone : ∀ k, k < a → l.lookup k = none := by
      intro k hk
      rw [List.lookup_eq_none_iff]
      intro p hp
      have := h.1 p hp
      have : a < p.1 := this
      simp; omega
    simp only [insL]
    split
    · rename_i hk
      rw [List.lookup_cons]
      by_cases hj : j = k
      · subst hj
        have : (j == a) = false := by simp; omega
        simp [List.lookup_cons, this, hnone j hk]
      · have : (j == k) = false := by simpa using hj
        simp [this, hj]
    · split
      · rename_i h1 hk
        subst hk
        by_cases hj : j = k
        · subst hj; simp
        · have : (j == k) = false := by simpa using hj
          simp [hj, List.lookup_cons, this]
      · rename_i h1 h2
        rw [List.lookup_cons, ih h.2]
        have hka : (k == a) = false := by simpa using h2
        by_cases hja : j = a
        · subst hja
          have : j ≠ k := fun h => h2 h.symm
          simp [this]
        · have : (j == a) = false := by simpa using hja
          simp [List.lookup_cons, this, hka]

/-! #### lookups -/

theorem lookup_append_lt {A B : List (Nat × Int)} {k : Nat} (hB : ∀ e ∈ B, k < e.1) :
    (A ++ B).lookup k = A.lookup k := by
  rw [List.lookup_append]
  have : B.lookup k = none := by
    rw [List.lookup_eq_none_iff]; intro p hp; have := hB p hp; simp; omega
  simp [this]

theorem lookup_append_gt {A B : List (Nat × Int)} {k : Nat} (hA : ∀ e ∈ A, e.1 < k) :
    (A ++ B).lookup k = B.lookup k := by
  rw [List.lookup_append]
  have : A.lookup k = none := by
    rw [List.lookup_eq_none_iff]; intro p hp; have := hA p hp; simp; omega
  simp [this]

theorem lookup_append_none {A B : List (Nat × Int)} {k : Nat} (hA : ∀ e ∈ A, e.1 ≠ k) :
    (A ++ B).lookup k = B.lookup k := by
  rw [List.lookup_append]
  have : A.lookup k = none := by
    rw [List.lookup_eq_none_iff]; intro p hp; have := hA p hp; simp; omega
  simp [this]

theorem get_eq_lookup {t : Tree} (h : BST t) (k : Nat) : t.get k = (toList t).lookup k := by
  induction t with
  | nil => rfl
  | node l k' v hh r ihl ihr =>
    rw [bst_node] at h
    obtain ⟨h1, h2, h3, h4⟩ := h
    simp only [get, toList_node]
    split
    · rename_i hk; subst hk
      rw [lookup_append_gt h3]; simp
    · split
      · rename_i hk
        rw [ihl h1, lookup_append_lt]
        intro e he
        rcases List.mem_cons.1 he with rfl | he
        · exact hk
        · exact lt_trans hk (h4 e he)
      · rename_i hne hk
        have hk' : k' < k := by omega
        rw [ihr h2, lookup_append_gt (fun e he => lt_trans (h3 e he) hk'), List.lookup_cons]
        have : (k == k') = false := by simp; omega
        simp [this]

theorem has_eq_isSome (t : Tree) (k : Nat) : t.has k = (t.get k).isSome := by
  induction t with
  | nil => rfl
  | node l k' v hh r ihl ihr =>
    simp only [has, get]
    split
    · rfl
    · split
      · exact ihl
      · exact ihr

/-! #### rotations preserve the in-order list -/

theorem rmd_spec {t : Tree} {k : Nat} {v : Int} (h : t.rmd = some (k, v)) :
    ∃ A, toList t = A ++ [(k, v)] := by
  induction t with
  | nil => simp [rmd] at h
  | node l k' v' hh r _ ihr =>
    cases r with
    | nil => simp [rmd] at h; exact ⟨toList l, by simp [h]⟩
    | node a b c d e =>
      obtain ⟨A, hA⟩ := ihr (by simpa [rmd] using h)
      exact ⟨toList l ++ (k', v') :: A, by rw [toList_node, hA]; simp⟩

theorem lmd_spec {t : Tree} {k : Nat} {v : Int} (h : t.lmd = some (k, v)) :
    ∃ A, toList t = (k, v) :: A := by
  induction t with
  | nil => simp [lmd] at h
  | node l k' v' hh r ihl _ =>
    cases l with
    | nil => simp [lmd] at h; exact ⟨toList r, by simp [h]⟩
    | node a b c d e =>
      obtain ⟨A, hA⟩ := ihl (by simpa [lmd] using h)
      exact ⟨A ++ (k', v') :: toList r, by rw [toList_node, hA]; simp⟩

theorem rmd_none {t : Tree} : t.rmd = none ↔ t = nil := by
  induction t with
  | nil => simp [rmd]
  | node l k' v' hh r _ ihr =>
    cases r with
    | nil => simp [rmd]
    | node a b c d e => simp only [rmd] at ihr ⊢; simp [ihr]

theorem lmd_none {t : Tree} : t.lmd = none ↔ t = nil := by
  induction t with
  | nil => simp [lmd]
  | node l k' v' hh r ihl _ =>
    cases l with
    | nil => simp [lmd]
    | node a b c d e => simp only [lmd] at ihl ⊢; simp [ihl]

/-- structural removal of the rightmost node, with height recomputation on the right spine -/
def popMax : Tree → Tree
  | nil => nil
  | node l k v _ r => match r with
    | nil => l
    | node .. => mk l k v r.popMax

def popMin : Tree → Tree
  | nil => nil
  | node l k v _ r => match l with
    | nil => r
    | node .. => mk l.popMin k v r

theorem popNode_rmd {t : Tree} (hb : BST t) {k : Nat} {v : Int} (h : t.rmd = some (k, v)) :
    t.popNode k = popMax t := by
  induction t with
  | nil => rfl
  | node l k' v' hh r _ ihr =>
    rw [bst_node] at hb
    cases r with
    | nil =>
      simp [rmd] at h
      simp only [popNode, popMax, h.1, if_true]
      cases l <;> simp [onlyChild]
    | node a b c d e =>
      have h' : (node a b c d e).rmd = some (k, v) := by simpa [rmd] using h
      obtain ⟨A, hA⟩ := rmd_spec h'
      have hk : k' < k := hb.2.2.2 (k, v) (by rw [hA]; simp)
      rw [popNode, if_neg (by omega), if_neg (by omega), ihr hb.2.1 h', popMax]

theorem popNode_lmd {t : Tree} (hb : BST t) {k : Nat} {v : Int} (h : t.lmd = some (k, v)) :
    t.popNode k = popMin t := by
  induction t with
  | nil => rfl
  | node l k' v' hh r ihl _ =>
    rw [bst_node] at hb
    cases l with
    | nil =>
      simp [lmd] at h
      simp only [popNode, popMin, h.1, if_true, onlyChild]
    | node a b c d e =>
      have h' : (node a b c d e).lmd = some (k, v) := by simpa [lmd] using h
      obtain ⟨A, hA⟩ := lmd_spec h'
      have hk : k < k' := hb.2.2.1 (k, v) (by rw [hA]; simp)
      rw [popNode, if_neg (by omega), if_pos hk, ihl hb.1 h', popMin]

theorem popMax_toList {t : Tree} {k : Nat} {v : Int} (h : t.rmd = some (k, v)) :
    toList t = toList (popMax t) ++ [(k, v)] := by
  induction t with
  | nil => simp [rmd] at h
  | node l k' v' hh r _ ihr =>
    cases r with
    | nil => simp [rmd] at h; simp [popMax, h]
    | node a b c d e =>
      have h' : (node a b c d e).rmd = some (k, v) := by simpa [rmd] using h
      rw [toList_node, ihr h', popMax, toList_mk]; simp

theorem popMin_toList {t : Tree} {k : Nat} {v : Int} (h : t.lmd = some (k, v)) :
    toList t = (k, v) :: toList (popMin t) := by
  induction t with
  | nil => simp [lmd] at h
  | node l k' v' hh r ihl _ =>
    cases l with
    | nil => simp [lmd] at h; simp [popMin, h]
    | node a b c d e =>
      have h' : (node a b c d e).lmd = some (k, v) := by simpa [lmd] using h
      rw [toList_node, ihl h', popMin, toList_mk]; simp

/-- push at the leftmost position, heights recomputed on the left spine -/
def pushMin (k : Nat) (v : Int) : Tree → Tree
  | nil => node nil k v 1 nil
  | node l k' v' _ r => mk (pushMin k v l) k' v' r

def pushMax (k : Nat) (v : Int) : Tree → Tree
  | nil => node nil k v 1 nil
  | node l k' v' _ r => mk l k' v' (pushMax k v r)

theorem pushNode_min {t : Tree} {k : Nat} {v : Int} (h : ∀ e ∈ toList t, k < e.1) :
    t.pushNode k v = pushMin k v t := by
  induction t with
  | nil => rfl
  | node l k' v' hh r ihl _ =>
    have : k < k' := h (k', v') (by simp)
    rw [pushNode, if_pos this, pushMin, ihl (fun e he => h e (by simp [he]))]

theorem pushNode_max {t : Tree} {k : Nat} {v : Int} (h : ∀ e ∈ toList t, e.1 < k) :
    t.pushNode k v = pushMax k v t := by
  induction t with
  | nil => rfl
  | node l k' v' hh r _ ihr =>
    have : k' < k := h (k', v') (by simp)
    rw [pushNode, if_neg (by omega), pushMax, ihr (fun e he => h e (by simp [he]))]

theorem pushMin_toList (k : Nat) (v : Int) (t : Tree) : toList (pushMin k v t) = (k, v) :: toList t := by
  induction t with
  | nil => rfl
  | node l k' v' hh r ihl _ => rw [pushMin, toList_mk, ihl]; simp

theorem pushMax_toList (k : Nat) (v : Int) (t : Tree) : toList (pushMax k v t) = toList t ++ [(k, v)] := by
  induction t with
  | nil => rfl
  | node l k' v' hh r _ ihr => rw [pushMax, toList_mk, ihr]; simp

theorem rotateRight_eq {l r : Tree} {k : Nat} {v : Int} {h : Nat} (hb : BST (node l k v h r)) {k0 : Nat} {v0 : Int}
    (hl : l.rmd = some (k0, v0)) :
    rotateRight (node l k v h r) = mk (popMax l) k0 v0 (pushMin k v r) := by
  have hb' := bst_node.1 hb
  obtain ⟨A, hA⟩ := rmd_spec hl
  have hk : k0 < k := hb'.2.2.1 (k0, v0) (by rw [hA]; simp)
  simp only [rotateRight, hl]
  rw [popNode, if_neg (by omega), if_pos hk, popNode_rmd hb'.1 hl, mk]
  simp only
  rw [pushNode, if_neg (by omega), pushNode_min hb'.2.2.2]

theorem rotateLeft_eq {l r : Tree} {k : Nat} {v : Int} {h : Nat} (hb : BST (node l k v h r)) {k0 : Nat} {v0 : Int}
    (hr : r.lmd = some (k0, v0)) :
    rotateLeft (node l k v h r) = mk (pushMax k v l) k0 v0 (popMin r) := by
  have hb' := bst_node.1 hb
  obtain ⟨A, hA⟩ := lmd_spec hr
  have hk : k < k0 := hb'.2.2.2 (k0, v0) (by rw [hA]; simp)
  simp only [rotateLeft, hr]
  rw [popNode, if_neg (by omega), if_neg (by omega), popNode_lmd hb'.2.1 hr, mk]
  simp only
  rw [pushNode, if_pos hk, pushNode_max hb'.2.2.1]

theorem rotateRight_toList {t : Tree} (hb : BST t) : toList (rotateRight t) = toList t := by
  cases t with
  | nil => rfl
  | node l k v h r =>
    cases hl : l.rmd with
    | none => simp [rotateRight, hl]
    | some p =>
      obtain ⟨k0, v0⟩ := p
      rw [rotateRight_eq hb hl, toList_mk, pushMin_toList, toList_node, popMax_toList hl]; simp

theorem rotateLeft_toList {t : Tree} (hb : BST t) : toList (rotateLeft t) = toList t := by
  cases t with
  | nil => rfl
  | node l k v h r =>
    cases hr : r.lmd with
    | none => simp [rotateLeft, hr]
    | some p =>
      obtain ⟨k0, v0⟩ := p
      rw [rotateLeft_eq hb hr, toList_mk, pushMax_toList, toList_node, popMin_toList hr]; simp

theorem BST.congr {t t' : Tree} (h : toList t' = toList t) (hb : BST t) : BST t' := by
  unfold BST at *; rwa [h]

theorem balanceLoop_toList (n : Nat) : ∀ (t t' : Tree), BST t → balanceLoop n t = some t' → toList t' = toList t := by
  induction n with
  | zero => intro t t' hb h; cases t <;> simp [balanceLoop] at h; subst h; rfl
  | succ n ih =>
    intro t t' hb h
    cases t with
    | nil => simp [balanceLoop] at h; subst h; rfl
    | node l k v hh r =>
      simp only [balanceLoop] at h
      split at h
      · rw [ih _ _ (hb.congr (rotateRight_toList hb)) h, rotateRight_toList hb]
      · split at h
        · rw [ih _ _ (hb.congr (rotateLeft_toList hb)) h, rotateLeft_toList hb]
        · obtain rfl := Option.some.inj h; rfl

theorem balance_toList {t : Tree} (hb : BST t) : toList (balance t) = toList t := by
  unfold balance
  cases h : balanceLoop ((t.size + 1) ^ 2) t with
  | none => rfl
  | some t' => exact balanceLoop_toList _ _ _ hb h

/-! #### termination of the balance loop -/

@[simp] theorem height_nil : height nil = 0 := rfl
@[simp] theorem height_node (l k v h r) : height (node l k v h r) = h := rfl


/-- 1 if the stored height `h` is not one more than the larger of `a`, `b` -/
def stale (a b h : Nat) : Nat := if h = max a b + 1 then 0 else 1

theorem stale_cases (a b h : Nat) : (stale a b h = 0 ∧ h = max a b + 1) ∨ stale a b h = 1 := by
  unfold stale; by_cases hc : h = max a b + 1
  · left; exact ⟨if_pos hc, hc⟩
  · right; exact if_neg hc

/-- number of nodes whose stored height is not one more than the larger stored child height -/
def incons : Tree → Nat
  | nil => 0
  | node l _ _ h r => stale l.height r.height h + l.incons + r.incons

theorem incons_le_size (t : Tree) : t.incons ≤ t.size := by
  induction t with
  | nil => simp [incons, size]
  | node l k v h r ihl ihr => simp only [incons, size]; rcases stale_cases l.height r.height h with h | h <;> omega

theorem incons_mk (l : Tree) (k v r) : (mk l k v r).incons = l.incons + r.incons := by
  have := stale_cases l.height r.height (max l.height r.height + 1)
  simp only [mk, incons]
  unfold stale; simp

theorem size_mk (l : Tree) (k v r) : (mk l k v r).size = 1 + l.size + r.size := rfl

theorem popMax_size {t : Tree} (h : t ≠ nil) : (popMax t).size + 1 = t.size := by
  induction t with
  | nil => exact absurd rfl h
  | node l k v hh r _ ihr =>
    cases r with
    | nil => simp [popMax, size]; omega
    | node a b c d e =>
      have := ihr (by simp)
      rw [popMax, size_mk, size]; omega

theorem popMin_size {t : Tree} (h : t ≠ nil) : (popMin t).size + 1 = t.size := by
  induction t with
  | nil => exact absurd rfl h
  | node l k v hh r ihl _ =>
    cases l with
    | nil => simp [popMin, size]; omega
    | node a b c d e =>
      have := ihl (by simp)
      rw [popMin, size_mk, size]; omega

theorem pushMin_size (k v) (t : Tree) : (pushMin k v t).size = t.size + 1 := by
  induction t with
  | nil => rfl
  | node l k' v' hh r ihl _ => rw [pushMin, size_mk, ihl, size]; omega

theorem pushMax_size (k v) (t : Tree) : (pushMax k v t).size = t.size + 1 := by
  induction t with
  | nil => rfl
  | node l k' v' hh r _ ihr => rw [pushMax, size_mk, ihr, size]; omega

/-- popping: either a stale height got repaired, or the height dropped by at most one -/
theorem popMax_incons {t : Tree} (h : t ≠ nil) :
    (popMax t).incons ≤ t.incons ∧
    ((popMax t).incons < t.incons ∨ ((popMax t).height ≤ t.height ∧ t.height ≤ (popMax t).height + 1)) := by
  induction t with
  | nil => exact absurd rfl h
  | node l k v hh r _ ihr =>
    cases r with
    | nil => simp only [popMax, incons, height_nil, height_node]; rcases stale_cases l.height 0 hh with h | h <;> omega
    | node a b c d e =>
      have := ihr (by simp)
      rw [popMax, incons_mk]
      simp only [mk, height_node] at this ⊢
      rw [incons]
      simp only [height_node]
      rcases stale_cases l.height d hh with h | h <;> omega

theorem popMin_incons {t : Tree} (h : t ≠ nil) :
    (popMin t).incons ≤ t.incons ∧
    ((popMin t).incons < t.incons ∨ ((popMin t).height ≤ t.height ∧ t.height ≤ (popMin t).height + 1)) := by
  induction t with
  | nil => exact absurd rfl h
  | node l k v hh r ihl _ =>
    cases l with
    | nil => simp only [popMin, incons, height_nil, height_node]; rcases stale_cases 0 r.height hh with h | h <;> omega
    | node a b c d e =>
      have := ihl (by simp)
      rw [popMin, incons_mk]
      simp only [mk, height_node] at this ⊢
      rw [incons]
      simp only [height_node]
      rcases stale_cases d r.height hh with h | h <;> omega

theorem pushMin_incons (k v) (t : Tree) :
    (pushMin k v t).incons ≤ t.incons ∧
    ((pushMin k v t).incons < t.incons ∨ (t.height ≤ (pushMin k v t).height ∧ (pushMin k v t).height ≤ t.height + 1)) := by
  induction t with
  | nil => simp [pushMin, incons, stale]
  | node l k' v' hh r ihl _ =>
    rw [pushMin, incons_mk]
    simp only [mk, height_node] at ihl ⊢
    rw [incons]
    rcases stale_cases l.height r.height hh with h | h <;> omega

theorem pushMax_incons (k v) (t : Tree) :
    (pushMax k v t).incons ≤ t.incons ∧
    ((pushMax k v t).incons < t.incons ∨ (t.height ≤ (pushMax k v t).height ∧ (pushMax k v t).height ≤ t.height + 1)) := by
  induction t with
  | nil => simp [pushMax, incons, stale]
  | node l k' v' hh r _ ihr =>
    rw [pushMax, incons_mk]
    simp only [mk, height_node] at ihr ⊢
    rw [incons]
    rcases stale_cases l.height r.height hh with h | h <;> omega

/-- termination measure: stale heights below the root, then the size of the higher side -/
def bmeasure (N : Nat) : Tree → Nat
  | nil => 0
  | node l _ _ _ r => (l.incons + r.incons) * (N + 1) + (if l.height > r.height then l.size else r.size)

theorem balanceLoop_terminates (N : Nat) (n : Nat) : ∀ (t : Tree), BST t → t.size ≤ N + 1 → bmeasure N t < n →
    ∃ t', balanceLoop n t = some t' := by
  induction n with
  | zero => intro t _ _ h; omega
  | succ n ih =>
    intro t hb hs hm
    cases t with
    | nil => exact ⟨nil, by simp [balanceLoop]⟩
    | node l k v hh r =>
      simp only [balanceLoop]
      simp only [size] at hs
      simp only [bmeasure] at hm
      split
      · rename_i hgt
        have hlne : l ≠ nil := by rintro rfl; simp [height] at hgt
        obtain ⟨⟨k0, v0⟩, hl⟩ := Option.ne_none_iff_exists'.1 (fun h => hlne (rmd_none.1 h))
        have h1 := popMax_incons hlne
        have h2 := pushMin_incons k v r
        have h3 := popMax_size hlne
        have h4 := pushMin_size k v r
        apply ih
        · exact hb.congr (rotateRight_toList hb)
        · rw [rotateRight_eq hb hl, size_mk]; omega
        · rw [rotateRight_eq hb hl]
          simp only [mk, bmeasure]
          rw [if_pos (by omega : l.height > r.height)] at hm
          rcases Nat.lt_or_ge ((popMax l).incons + (pushMin k v r).incons) (l.incons + r.incons) with hlt | hge
          · have : ((popMax l).incons + (pushMin k v r).incons + 1) * (N + 1) ≤ (l.incons + r.incons) * (N + 1) :=
              Nat.mul_le_mul_right _ hlt
            rw [Nat.add_mul, Nat.one_mul] at this
            split <;> omega
          · have : (popMax l).incons + (pushMin k v r).incons = l.incons + r.incons := by omega
            rw [this, if_pos (by omega)]
            omega
      · split
        · rename_i hngt hgt
          have hrne : r ≠ nil := by rintro rfl; simp [height] at hgt
          obtain ⟨⟨k0, v0⟩, hr⟩ := Option.ne_none_iff_exists'.1 (fun h => hrne (lmd_none.1 h))
          have h1 := popMin_incons hrne
          have h2 := pushMax_incons k v l
          have h3 := popMin_size hrne
          have h4 := pushMax_size k v l
          apply ih
          · exact hb.congr (rotateLeft_toList hb)
          · rw [rotateLeft_eq hb hr, size_mk]; omega
          · rw [rotateLeft_eq hb hr]
            simp only [mk, bmeasure]
            rw [if_neg (by omega)] at hm
            rcases Nat.lt_or_ge ((pushMax k v l).incons + (popMin r).incons) (l.incons + r.incons) with hlt | hge
            · have : ((pushMax k v l).incons + (popMin r).incons + 1) * (N + 1) ≤ (l.incons + r.incons) * (N + 1) :=
                Nat.mul_le_mul_right _ hlt
              rw [Nat.add_mul, Nat.one_mul] at this
              split <;> omega
            · have : (pushMax k v l).incons + (popMin r).incons = l.incons + r.incons := by omega
              rw [this, if_neg (by omega)]
              omega
        · exact ⟨_, rfl⟩

theorem balance_fuel_ok {t : Tree} (hb : BST t) : ∃ t', balanceLoop ((t.size + 1) ^ 2) t = some t' := by
  apply balanceLoop_terminates t.size _ t hb (by omega)
  cases t with
  | nil => simp [bmeasure, size]
  | node l k v h r =>
    have h1 := incons_le_size l
    have h2 := incons_le_size r
    simp only [bmeasure]
    have hS : size (node l k v h r) = 1 + l.size + r.size := rfl
    generalize hN : size (node l k v h r) = N at *
    have : (l.incons + r.incons) * (N + 1) ≤ (N - 1) * (N + 1) := Nat.mul_le_mul_right _ (by omega)
    have h3 : (N - 1) * (N + 1) + (N + 1) ≤ N * (N + 1) := by
      obtain ⟨M, rfl⟩ : ∃ M, N = M + 1 := ⟨N - 1, by omega⟩
      simp only [Nat.add_sub_cancel]; nlinarith
    have h4 : (N + 1) ^ 2 = N * (N + 1) + (N + 1) := by ring
    split <;> omega

/-! #### Put -/

theorem put_spec (key : Nat) (value : Int) (ins : Int → Int → Option Int) (t : Tree) (hb : BST t) :
    (ins ((t.get key).getD 0) value = none → t.put key value ins = none) ∧
    (∀ w, ins ((t.get key).getD 0) value = some w →
      ∃ t' u, t.put key value ins = some (t', u) ∧ toList t' = insL key (fun _ => w) (toList t)) := by
  induction t with
  | nil =>
    constructor
    · intro h; simp [get] at h; simp [put, h]
    · intro w h; simp [get] at h
      exact ⟨node nil key w 1 nil, false, by simp [put, h], by simp [insL]⟩
  | node l k v h r ihl ihr =>
    have hb0 := hb
    obtain ⟨h1, h2, h3, h4⟩ := bst_node.1 hb
    by_cases hk : k = key
    · subst hk
      simp only [get, if_true, Option.getD_some, put]
      constructor
      · intro h; simp [h]
      · intro w h
        exact ⟨node l k w _ r, true, by simp [h]; rfl, by rw [toList_node, toList_node, insL_eq h3]⟩
    · by_cases hlt : key < k
      · simp only [get, hk, if_false, hlt, if_true, put]
        constructor
        · intro h; rw [(ihl h1).1 h]; rfl
        · intro w hw
          obtain ⟨l', u, e1, e2⟩ := (ihl h1).2 w hw
          have hlist : ∀ h' : Nat, toList (node l' k v h' r) = insL key (fun _ => w) (toList (node l k v h r)) := by
            intro h'; rw [toList_node, toList_node, e2, insL_lt hlt]
          have hbst : ∀ h' : Nat, BST (node l' k v h' r) := by
            intro h'; unfold BST; rw [hlist]; exact insL_sorted hb0
          rw [e1]
          cases u with
          | true => exact ⟨_, true, rfl, hlist h⟩
          | false => exact ⟨_, false, rfl, by rw [balance_toList (hbst _), hlist]⟩
      · simp only [get, hk, if_false, hlt, put]
        constructor
        · intro h; rw [(ihr h2).1 h]; rfl
        · intro w hw
          obtain ⟨r', u, e1, e2⟩ := (ihr h2).2 w hw
          have hlist : ∀ h' : Nat, toList (node l k v h' r') = insL key (fun _ => w) (toList (node l k v h r)) := by
            intro h'; rw [toList_node, toList_node, e2, insL_gt h3 (by omega)]
          have hbst : ∀ h' : Nat, BST (node l k v h' r') := by
            intro h'; unfold BST; rw [hlist]; exact insL_sorted hb0
          rw [e1]
          cases u with
          | true => exact ⟨_, true, rfl, hlist h⟩
          | false => exact ⟨_, false, rfl, by rw [balance_toList (hbst _), hlist]⟩

/-! #### Remove -/

theorem graftLeft_toList (x t : Tree) : toList (graftLeft x t) = toList x ++ toList t := by
  induction t with
  | nil => simp [graftLeft]
  | node l k v h r ihl _ =>
    cases l with
    | nil => simp [graftLeft]
    | node a b c d e => rw [graftLeft, toList_node, ihl]; simp

theorem graftRight_toList (x t : Tree) : toList (graftRight x t) = toList t ++ toList x := by
  induction t with
  | nil => simp [graftRight]
  | node l k v h r _ ihr =>
    cases r with
    | nil => simp [graftRight]
    | node a b c d e => rw [graftRight, toList_node, ihr]; simp

theorem filter_ne_of_lt {A : List (Nat × Int)} {k : Nat} (h : ∀ e ∈ A, e.1 < k) : A.filter (·.1 ≠ k) = A := by
  rw [List.filter_eq_self]; intro a ha; have := h a ha; simp; omega

theorem filter_ne_of_gt {A : List (Nat × Int)} {k : Nat} (h : ∀ e ∈ A, k < e.1) : A.filter (·.1 ≠ k) = A := by
  rw [List.filter_eq_self]; intro a ha; have := h a ha; simp; omega

theorem filter_lookup (l : List (Nat × Int)) (k j : Nat) :
    (l.filter (·.1 ≠ k)).lookup j = if j = k then none else l.lookup j := by
  induction l with
  | nil => simp
  | cons a l ih =>
    obtain ⟨a, w⟩ := a
    by_cases ha : a = k
    · subst ha
      rw [List.filter_cons_of_neg (by simp), ih, List.lookup_cons]
      by_cases hj : j = a
      · simp [hj]
      · have : (j == a) = false := by simpa using hj
        simp [hj, this]
    · rw [List.filter_cons_of_pos (by simpa using ha), List.lookup_cons, ih, List.lookup_cons]
      by_cases hj : j = k
      · subst hj
        have : (j == a) = false := by simpa using fun h => ha h.symm
        simp [this]
      · simp [hj]

theorem remove_spec (key : Nat) (t : Tree) (hb : BST t) :
    (∀ v, t.get key = some v → ∃ t', t.remove key = (t', some v) ∧ toList t' = (toList t).filter (·.1 ≠ key)) ∧
    (t.get key = none → ∃ t', t.remove key = (t', none) ∧ toList t' = toList t) := by
  induction t with
  | nil => simp [get, remove]
  | node l k v h r ihl ihr =>
    have hb0 := hb
    obtain ⟨h1, h2, h3, h4⟩ := bst_node.1 hb
    by_cases hk : k = key
    · subst hk
      simp only [get, if_true]
      refine ⟨?_, by simp⟩
      rintro w ⟨⟩
      have hf : (toList (node l k v h r)).filter (·.1 ≠ k) = toList l ++ toList r := by
        rw [toList_node, List.filter_append, List.filter_cons_of_neg (by simp), filter_ne_of_lt h3, filter_ne_of_gt h4]
      rw [hf]
      unfold remove
      simp only [if_true]
      cases l with
      | nil => exact ⟨r, rfl, by simp⟩
      | node a b c d e =>
        cases r with
        | nil => exact ⟨_, rfl, by simp⟩
        | node a' b' c' d' e' =>
          simp only
          split
          · exact ⟨_, rfl, graftLeft_toList _ _⟩
          · exact ⟨_, rfl, graftRight_toList _ _⟩
    · by_cases hlt : key < k
      · simp only [get, hk, if_false, hlt, if_true]
        have hf : (toList (node l k v h r)).filter (·.1 ≠ key)
            = (toList l).filter (·.1 ≠ key) ++ (k, v) :: toList r := by
          rw [toList_node, List.filter_append, List.filter_cons_of_pos (by simpa using hk),
            filter_ne_of_gt (fun e he => lt_trans hlt (h4 e he))]
        refine ⟨fun w hw => ?_, fun hn => ?_⟩
        · obtain ⟨l', e1, e2⟩ := (ihl h1).1 w hw
          exact ⟨node l' k v h r, by simp [remove, hk, hlt, e1], by rw [hf, toList_node, e2]⟩
        · obtain ⟨l', e1, e2⟩ := (ihl h1).2 hn
          have hl : toList (node l' k v h r) = toList (node l k v h r) := by simp [e2]
          exact ⟨balance (node l' k v h r), by simp [remove, hk, hlt, e1],
            by rw [balance_toList (hb0.congr hl), hl]⟩
      · simp only [get, hk, if_false, hlt]
        have hf : (toList (node l k v h r)).filter (·.1 ≠ key)
            = toList l ++ (k, v) :: (toList r).filter (·.1 ≠ key) := by
          rw [toList_node, List.filter_append, List.filter_cons_of_pos (by simpa using hk),
            filter_ne_of_lt (fun e he => lt_trans (h3 e he) (by omega))]
        refine ⟨fun w hw => ?_, fun hn => ?_⟩
        · obtain ⟨r', e1, e2⟩ := (ihr h2).1 w hw
          exact ⟨node l k v h r', by simp [remove, hk, hlt, e1], by rw [hf, toList_node, e2]⟩
        · obtain ⟨r', e1, e2⟩ := (ihr h2).2 hn
          have hl : toList (node l k v h r') = toList (node l k v h r) := by simp [e2]
          exact ⟨balance (node l k v h r'), by simp [remove, hk, hlt, e1],
            by rw [balance_toList (hb0.congr hl), hl]⟩

theorem subAt_infix (key : Nat) (t : Tree) : toList (subAt key t) <:+: toList t := by
  induction t with
  | nil => exact List.infix_rfl
  | node l k v h r ihl ihr =>
    simp only [subAt]
    split
    · exact List.infix_rfl
    · split
      · rw [toList_node]
        exact ihl.trans (List.prefix_append _ _).isInfix
      · rw [toList_node]
        exact ihr.trans ((List.suffix_cons _ _).trans (List.suffix_append _ _)).isInfix

theorem treeRemove_present {key : Nat} {t : Tree} {v : Int} (hb : BST t) (h : t.get key = some v) :
    ∃ t', t.treeRemove key = (t', some v) ∧ toList t' = (toList t).filter (·.1 ≠ key) := by
  obtain ⟨t', e1, e2⟩ := (remove_spec key t hb).1 v h
  refine ⟨t', ?_, e2⟩
  cases t with
  | nil => simp [get] at h
  | node l k w hh r => simp only [treeRemove, e1]

theorem treeRemove_absent {key : Nat} {t : Tree} (hb : BST t) (h : t.get key = none) :
    (t.treeRemove key).2 = none ∧ toList (t.treeRemove key).1 <:+: toList t := by
  cases t with
  | nil => exact ⟨rfl, List.infix_rfl⟩
  | node l k w hh r =>
    obtain ⟨t', e1, e2⟩ := (remove_spec key _ hb).2 h
    simp only [treeRemove, e1, true_and]
    rw [← e2]; exact subAt_infix _ _

theorem treePut_spec (key : Nat) (value : Int) (ins : Int → Int → Option Int) (t : Tree) (hb : BST t) :
    (ins ((t.get key).getD 0) value = none → t.treePut key value ins = none) ∧
    (∀ w, ins ((t.get key).getD 0) value = some w → ∃ t', t.treePut key value ins = some t' ∧
      toList t' = if w = 0 then (toList t).filter (·.1 ≠ key) else insL key (fun _ => w) (toList t)) := by
  obtain ⟨h1, h2⟩ := put_spec key value ins t hb
  constructor
  · intro h; simp [treePut, h1 h]
  · intro w hw
    obtain ⟨t', u, e1, e2⟩ := h2 w hw
    have hb' : BST t' := by unfold BST; rw [e2]; exact insL_sorted hb
    have hg : t'.get key = some w := by
      rw [get_eq_lookup hb', e2, insL_lookup hb]; simp
    simp only [treePut, e1, hg]
    split
    · obtain ⟨t'', e3, e4⟩ := treeRemove_present hb' hg
      simp only [e3]
      refine ⟨t'', rfl, ?_⟩
      rw [e4, e2]
      have hb2 : (toList t).Pairwise (fun a b => a.1 < b.1) := hb
      generalize toList t = l at hb2
      induction l with
      | nil => simp [insL]
      | cons a l ih =>
        obtain ⟨a, x⟩ := a
        rw [List.pairwise_cons] at hb2
        simp only [insL]
        split
        · rw [List.filter_cons_of_neg (by simp)]
        · split
          · rename_i hka; subst hka
            rw [List.filter_cons_of_neg (by simp), List.filter_cons_of_neg (by simp)]
          · rename_i hka
            rw [List.filter_cons_of_pos (by simpa using fun h => hka h.symm),
              List.filter_cons_of_pos (by simpa using fun h => hka h.symm), ih hb2.2]
    · exact ⟨t', rfl, e2⟩

/-- invariant of all sparse arrays: search tree, no stored zero -/
def Inv (t : Tree) : Prop := BST t ∧ ∀ e ∈ toList t, e.2 ≠ 0

theorem inv_nil : Inv nil := ⟨List.Pairwise.nil, by simp⟩

/-- the abstract map denoted by a tree: missing keys read as 0 -/
def val (t : Tree) (k : Nat) : Int := (t.get k).getD 0

theorem get_eq_val {t : Tree} (h : Inv t) (k : Nat) : t.get k = if t.val k = 0 then none else some (t.val k) := by
  unfold val
  cases hg : t.get k with
  | none => simp
  | some v =>
    have hm : (k, v) ∈ toList t := by
      rw [get_eq_lookup h.1] at hg
      have := List.lookup_eq_some_iff.1 hg
      obtain ⟨l1, l2, e, -⟩ := this
      rw [e]; simp
    have : v ≠ 0 := h.2 _ hm
    simp [this]

theorem treePut_inv {key : Nat} {value : Int} {ins : Int → Int → Option Int} {t : Tree} (h : Inv t) {w : Int}
    (hw : ins (t.val key) value = some w) :
    ∃ t', t.treePut key value ins = some t' ∧ Inv t' ∧ ∀ j, t'.val j = if j = key then w else t.val j := by
  obtain ⟨t', e1, e2⟩ := (treePut_spec key value ins t h.1).2 w hw
  refine ⟨t', e1, ?_⟩
  split at e2
  · rename_i h0
    have hb' : BST t' := by unfold BST; rw [e2]; exact List.Pairwise.filter _ h.1
    refine ⟨⟨hb', fun e he => ?_⟩, fun j => ?_⟩
    · rw [e2] at he; exact h.2 e ((List.mem_filter.1 he).1)
    · unfold val; rw [get_eq_lookup hb', e2, filter_lookup, get_eq_lookup h.1]
      split <;> simp [h0]
  · rename_i h0
    have hb' : BST t' := by unfold BST; rw [e2]; exact insL_sorted h.1
    refine ⟨⟨hb', fun e he => ?_⟩, fun j => ?_⟩
    · have hm := he
      rw [e2] at hm
      rcases mem_insL_key hm with hk | hm
      · -- the entry at `key`
        have hl : (toList t').lookup e.1 = some e.2 := by
          have := hb'
          obtain ⟨l1, l2, hsplit⟩ := List.append_of_mem he
          rw [hsplit]
          rw [BST, hsplit, List.pairwise_append] at this
          rw [lookup_append_gt (fun x hx => this.2.2 x hx e (by simp))]
          obtain ⟨e1, e2⟩ := e; simp
        rw [e2, insL_lookup h.1, if_pos hk] at hl
        rw [← Option.some.inj hl]; exact h0
      · exact h.2 e hm
    · unfold val; rw [get_eq_lookup hb', e2, insL_lookup h.1, get_eq_lookup h.1]
      split <;> simp

theorem treePut_panic {key : Nat} {value : Int} {ins : Int → Int → Option Int} {t : Tree} (h : Inv t)
    (hw : ins (t.val key) value = none) : t.treePut key value ins = none :=
  (treePut_spec key value ins t h.1).1 hw

theorem treeRemove_inv {key : Nat} {t : Tree} (h : Inv t) : Inv (t.treeRemove key).1 := by
  cases hg : t.get key with
  | some v =>
    obtain ⟨t', e1, e2⟩ := treeRemove_present h.1 hg
    rw [e1]
    exact ⟨by unfold BST; rw [e2]; exact List.Pairwise.filter _ h.1,
      fun e he => by rw [e2] at he; exact h.2 e ((List.mem_filter.1 he).1)⟩
  | none =>
    obtain ⟨-, hi⟩ := treeRemove_absent h.1 hg
    exact ⟨List.Pairwise.sublist hi.sublist h.1, fun e he => h.2 e (hi.subset he)⟩

theorem treeRemove_val {key : Nat} {t : Tree} (h : Inv t) (hk : t.val key ≠ 0) :
    (t.treeRemove key).2 = some (t.val key) ∧ ∀ j, (t.treeRemove key).1.val j = if j = key then 0 else t.val j := by
  have hg := get_eq_val h key
  rw [if_neg hk] at hg
  obtain ⟨t', e1, e2⟩ := treeRemove_present h.1 hg
  rw [e1]
  refine ⟨rfl, fun j => ?_⟩
  have hb' : BST t' := by unfold BST; rw [e2]; exact List.Pairwise.filter _ h.1
  unfold val
  rw [get_eq_lookup hb', e2, filter_lookup, get_eq_lookup h.1]
  split <;> simp

theorem allNodes_eq (t : Tree) : t.allNodes = (toList t).reverse := by
  induction t with
  | nil => rfl
  | node l k v h r ihl ihr => simp [allNodes, ihl, ihr]

theorem size_eq (t : Tree) : t.size = (toList t).length := by
  induction t with
  | nil => rfl
  | node l k v h r ihl ihr => simp [size, ihl, ihr]; omega

theorem maxNode_eq (t : Tree) : t.maxNode = ((toList t).getLast?).getD (0, 0) := by
  induction t with
  | nil => rfl
  | node l k v h r _ ihr =>
    cases r with
    | nil => simp [maxNode]
    | node a b c d e => 
      rw [maxNode, ihr, toList_node, List.getLast?_append, toList_node, List.getLast?_append]
      simp [List.getLast?_cons]

theorem mem_toList_iff {t : Tree} (h : Inv t) (k : Nat) (v : Int) : (k, v) ∈ toList t ↔ v ≠ 0 ∧ t.val k = v := by
  constructor
  · intro hm
    have h0 : v ≠ 0 := h.2 _ hm
    refine ⟨h0, ?_⟩
    obtain ⟨l1, l2, hsplit⟩ := List.append_of_mem hm
    have hb := h.1
    unfold val; rw [get_eq_lookup h.1, hsplit]
    rw [BST, hsplit, List.pairwise_append] at hb
    rw [lookup_append_gt (fun x hx => hb.2.2 x hx (k, v) (by simp))]
    simp [List.lookup_cons]
  · rintro ⟨h0, hv⟩
    have hg := get_eq_val h k
    rw [hv, if_neg h0, get_eq_lookup h.1] at hg
    obtain ⟨l1, l2, e, -⟩ := List.lookup_eq_some_iff.1 hg
    rw [e]; simp

theorem le_maxPower {t : Tree} (h : Inv t) {k : Nat} (hk : t.val k ≠ 0) : k ≤ t.maxPower := by
  have hm := (mem_toList_iff h k (t.val k)).2 ⟨hk, rfl⟩
  unfold maxPower; rw [maxNode_eq]
  have hne : toList t ≠ [] := List.ne_nil_of_mem hm
  obtain ⟨A, x, hA⟩ : ∃ A x, toList t = A ++ [x] :=
    ⟨_, _, (List.dropLast_concat_getLast hne).symm⟩
  have hb := h.1
  rw [BST, hA, List.pairwise_append] at hb
  rw [hA, List.mem_append] at hm
  rw [hA]
  simp only [List.getLast?_append, List.getLast?_singleton, Option.some_or, Option.getD_some]
  rcases hm with hm | hm
  · exact le_of_lt (hb.2.2 _ hm x (by simp))
  · simp only [List.mem_singleton] at hm; rw [← hm]

theorem maxPower_mem {t : Tree} (h : Inv t) (hne : t ≠ nil) : t.val t.maxPower ≠ 0 := by
  have hne' : toList t ≠ [] := by cases t <;> simp at hne ⊢
  have hm := List.getLast_mem hne'
  have : t.maxPower = ((toList t).getLast hne').1 := by
    unfold maxPower; rw [maxNode_eq, List.getLast?_eq_some_getLast hne']; rfl
  have := ((mem_toList_iff h _ _).1 (show (((toList t).getLast hne').1, ((toList t).getLast hne').2) ∈ toList t from hm))
  rw [‹t.maxPower = _›, this.2]; exact this.1

end Tree
end APS.Avl
