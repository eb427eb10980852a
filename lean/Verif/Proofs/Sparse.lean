import Verif.Model.SparsePoly
import Verif.Spec.Sparse
import Verif.Proofs.Avl
import Verif.Proofs.Dense

/-! Helper lemmas about the sparse polynomial model. -/
namespace APS.Sparse
open Polynomial APS.Spec APS.Avl APS.Avl.Tree

variable {q : Nat}

/-- polynomial of an entry list -/
noncomputable def lpoly (q : Nat) (l : List (Nat × Int)) : (ZMod q)[X] :=
  (l.map fun e => C (e.2 : ZMod q) * X ^ e.1).sum

@[simp] theorem lpoly_nil : lpoly q [] = 0 := rfl
@[simp] theorem lpoly_cons (e : Nat × Int) (l : List (Nat × Int)) :
    lpoly q (e :: l) = C (e.2 : ZMod q) * X ^ e.1 + lpoly q l := by simp [lpoly]
theorem lpoly_reverse (l : List (Nat × Int)) : lpoly q l.reverse = lpoly q l := by
  simp [lpoly, List.map_reverse, List.sum_reverse]

theorem lpoly_coeff {l : List (Nat × Int)} (h : l.Pairwise (fun a b => a.1 < b.1)) (k : Nat) :
    (lpoly q l).coeff k = (((l.lookup k).getD 0 : Int) : ZMod q) := by
  induction l with
  | nil => simp
  | cons e l ih =>
    obtain ⟨a, v⟩ := e
    rw [List.pairwise_cons] at h
    rw [lpoly_cons, coeff_add, ih h.2, coeff_C_mul, coeff_X_pow, List.lookup_cons]
    by_cases hk : k = a
    · subst hk
      have : l.lookup k = none := by
        rw [List.lookup_eq_none_iff]
        intro p hp
        have := h.1 p hp
        simp; omega
      simp [this]
    · simp [hk, beq_eq_false_iff_ne.2 hk]

theorem denotes_lpoly {t : Tree} (h : Inv t) : Denotes q t.val (lpoly q t.ascendingNodes) := by
  intro k
  rw [lpoly_coeff h.1, val, get_eq_lookup h.1]

theorem denotes_unique {m : Nat → Int} {P Q : (ZMod q)[X]} (hP : Denotes q m P) (hQ : Denotes q m Q) : P = Q := by
  ext k; rw [hP k, hQ k]

theorem lpoly_eq {t : Tree} (h : Inv t) {P : (ZMod q)[X]} (hP : Denotes q t.val P) :
    lpoly q t.ascendingNodes = P := denotes_unique (denotes_lpoly h) hP

theorem lpoly_all_eq {t : Tree} (h : Inv t) {P : (ZMod q)[X]} (hP : Denotes q t.val P) :
    lpoly q t.allNodes = P := by
  rw [allNodes_eq, lpoly_reverse]; exact lpoly_eq h hP

theorem denotes_nil : Denotes q nil.val 0 := by intro k; simp [val, Tree.get]

theorem reduced_nil : Reduced q nil.val := by intro k h; exact absurd (by simp [val, Tree.get]) h

theorem emod_reduced (hq : 0 < q) (a : Int) (h : a % (q : Int) ≠ 0) : ¬ (q : Int) ∣ a % q := by
  intro hd
  exact h (Int.eq_zero_of_dvd_of_nonneg_of_lt (Int.emod_nonneg _ (by omega)) (Int.emod_lt_of_pos _ (by omega)) hd)

/-- repeated `Put(key, value, fq.Add)` -/
theorem foldPut {α : Type} (hq : 0 < q) (f : α → Nat) (g : α → Int) (l : List α) :
    ∀ (t : Tree) (P : (ZMod q)[X]), Inv t → Denotes q t.val P →
    ∃ r, l.foldlM (fun r e => r.treePut (f e) (g e) (addCb q)) t = some r ∧ Inv r ∧
      Denotes q r.val (P + (l.map fun e => C (g e : ZMod q) * X ^ f e).sum) ∧
      (Reduced q t.val → Reduced q r.val) ∧
      (∀ k, r.val k ≠ 0 → t.val k ≠ 0 ∨ ∃ e ∈ l, f e = k) := by
  induction l with
  | nil => intro t P ht hP; exact ⟨t, rfl, ht, by simpa using hP, id, fun k hk => Or.inl hk⟩
  | cons e l ih =>
    intro t P ht hP
    obtain ⟨t', e1, e2, e3⟩ := treePut_inv (key := f e) (value := g e) (ins := addCb q) ht rfl
    have hP' : Denotes q t'.val (P + C (g e : ZMod q) * X ^ f e) := by
      intro k
      rw [e3 k, coeff_add, coeff_C_mul, coeff_X_pow, hP k]
      by_cases hk : k = f e
      · subst hk; simp
      · simp [hk]
    obtain ⟨r, f1, f2, f3, f4, f5⟩ := ih t' _ e2 hP'
    refine ⟨r, by simp [List.foldlM_cons, e1, f1], f2, ?_, fun hr => f4 ?_, fun k hk => ?_⟩
    · rw [List.map_cons, List.sum_cons, ← add_assoc]; exact f3
    · intro k hk
      rw [e3 k] at hk ⊢
      split
      · rename_i h; rw [if_pos h] at hk; exact emod_reduced hq _ hk
      · rename_i h; rw [if_neg h] at hk; exact hr k hk
    · rcases f5 k hk with h | ⟨e', he', h⟩
      · rw [e3 k] at h
        by_cases hk' : k = f e
        · exact Or.inr ⟨e, by simp, hk'.symm⟩
        · rw [if_neg hk'] at h; exact Or.inl h
      · exact Or.inr ⟨e', by simp [he'], h⟩

/-- `Put`s on pairwise distinct keys act independently -/
theorem foldDistinct (ins : (Nat × Int) → Int → Int → Option Int) (g : (Nat × Int) → Int) (h : (Nat × Int) → Int → Int)
    (l : List (Nat × Int)) (hins : ∀ e ∈ l, ∀ o, ins e o (g e) = some (h e o)) :
    l.Pairwise (fun a b => a.1 ≠ b.1) → ∀ (t : Tree), Inv t →
    ∃ r, l.foldlM (fun r e => r.treePut e.1 (g e) (ins e)) t = some r ∧ Inv r ∧
      (∀ e ∈ l, r.val e.1 = h e (t.val e.1)) ∧ (∀ k, (∀ e ∈ l, e.1 ≠ k) → r.val k = t.val k) := by
  induction l with
  | nil => intro _ t ht; exact ⟨t, rfl, ht, by simp, by simp⟩
  | cons e l ih =>
    intro hd t ht
    rw [List.pairwise_cons] at hd
    obtain ⟨t', e1, e2, e3⟩ := treePut_inv (key := e.1) (value := g e) (ins := ins e) ht (hins e (by simp) _)
    obtain ⟨r, f1, f2, f3, f4⟩ := ih (fun e he => hins e (by simp [he])) hd.2 t' e2
    refine ⟨r, by simp [List.foldlM_cons, e1, f1], f2, fun e' he' => ?_, fun k hk => ?_⟩
    · rcases List.mem_cons.1 he' with rfl | he'
      · rw [f4 _ (fun x hx => (hd.1 x hx).symm), e3, if_pos rfl]
      · rw [f3 e' he', e3, if_neg (hd.1 e' he').symm]
    · rw [f4 k (fun x hx => hk x (by simp [hx])), e3, if_neg (hk e (by simp)).symm]

theorem distinct_asc {t : Tree} (h : Inv t) : t.ascendingNodes.Pairwise (fun a b => a.1 ≠ b.1) :=
  h.1.imp (fun h => by omega)
theorem distinct_desc {t : Tree} (h : Inv t) : t.allNodes.Pairwise (fun a b => a.1 ≠ b.1) := by
  rw [allNodes_eq, List.pairwise_reverse]; exact h.1.imp (fun h => by omega)

theorem mem_all_iff {t : Tree} (h : Inv t) (k : Nat) (v : Int) : (k, v) ∈ t.allNodes ↔ v ≠ 0 ∧ t.val k = v := by
  rw [allNodes_eq, List.mem_reverse]; exact mem_toList_iff h k v

theorem clone_spec {t : Tree} (h : Inv t) : ∃ r, clone t = some r ∧ Inv r ∧ r.val = t.val := by
  obtain ⟨r, e1, e2, e3, e4⟩ := foldDistinct (fun _ => setInsert) (fun e => e.2) (fun e _ => e.2) t.allNodes
    (by simp [setInsert]) (distinct_desc h) nil inv_nil
  refine ⟨r, e1, e2, funext fun k => ?_⟩
  by_cases hk : t.val k = 0
  · rw [e4 k ?_, hk]; · simp [val, Tree.get]
    rintro ⟨a, v⟩ he rfl
    have := (mem_all_iff h _ _).1 he
    rw [hk] at this; exact this.1 this.2.symm
  · exact e3 (k, t.val k) ((mem_all_iff h _ _).2 ⟨hk, rfl⟩)

theorem mulSparseScalar_spec {t : Tree} (h : Inv t) (s : Int) :
    ∃ r, mulSparseScalar q t s = some r ∧ Inv r ∧ ∀ k, r.val k = if t.val k = 0 then 0 else Fq.mul q (t.val k) s := by
  obtain ⟨c, c1, c2, c3⟩ := clone_spec h
  obtain ⟨r, e1, e2, e3, e4⟩ := foldDistinct (fun _ => mulCb q) (fun _ => s) (fun _ o => Fq.mul q o s) c.ascendingNodes
    (by simp [mulCb]) (distinct_asc c2) c c2
  refine ⟨r, by simp [mulSparseScalar, c1, e1], e2, fun k => ?_⟩
  rw [← c3]
  split
  · rename_i hk
    rw [e4 k ?_, hk]
    rintro ⟨a, v⟩ he rfl
    have := (mem_toList_iff c2 _ _).1 he
    rw [hk] at this; exact this.1 this.2.symm
  · rename_i hk
    exact e3 (k, c.val k) ((mem_toList_iff c2 _ _).2 ⟨hk, rfl⟩)

theorem mulSparseScalar_denotes {t : Tree} (h : Inv t) {P : (ZMod q)[X]} (hP : Denotes q t.val P) (s : Int) :
    ∃ r, mulSparseScalar q t s = some r ∧ Inv r ∧ Denotes q r.val (C (s : ZMod q) * P) := by
  obtain ⟨r, e1, e2, e3⟩ := mulSparseScalar_spec (q := q) h s
  refine ⟨r, e1, e2, fun k => ?_⟩
  rw [e3, coeff_C_mul, hP k]
  split
  · rename_i hk; simp [hk]
  · rw [cast_mul']; ring

theorem mulSparseScalar_reduced (hq : 0 < q) {t r : Tree} (h : Inv t) {s : Int} (hr : mulSparseScalar q t s = some r) :
    Reduced q r.val := by
  obtain ⟨r', e1, e2, e3⟩ := mulSparseScalar_spec (q := q) h s
  obtain rfl : r' = r := by rw [e1] at hr; exact Option.some.inj hr
  intro k hk
  rw [e3] at hk ⊢
  split
  · rename_i h0; rw [if_pos h0] at hk; exact absurd rfl hk
  · rename_i h0; rw [if_neg h0] at hk; exact emod_reduced hq _ hk

theorem addToSparse_spec (hq : 0 < q) {a b : Tree} (ha : Inv a) (hb : Inv b) {A B : (ZMod q)[X]}
    (hA : Denotes q a.val A) (hB : Denotes q b.val B) :
    ∃ r, addToSparse q a b = some r ∧ Inv r ∧ Denotes q r.val (A + B) ∧ (Reduced q a.val → Reduced q r.val) := by
  obtain ⟨c, c1, c2, c3⟩ := clone_spec ha
  obtain ⟨r, e1, e2, e3, e4, -⟩ := foldPut hq (fun e : Nat × Int => e.1) (fun e => e.2) b.allNodes c A c2 (by rwa [c3])
  refine ⟨r, by simp [addToSparse, c1, e1], e2, ?_, by rwa [c3] at e4⟩
  have := lpoly_all_eq hb hB
  rw [lpoly] at this; rwa [this] at e3

theorem subToSparse_spec (hq : 0 < q) {a b : Tree} (ha : Inv a) (hb : Inv b) {A B : (ZMod q)[X]}
    (hA : Denotes q a.val A) (hB : Denotes q b.val B) :
    ∃ r, subToSparse q a b = some r ∧ Inv r ∧ Denotes q r.val (A - B) ∧ (Reduced q a.val → Reduced q r.val) ∧
      (∀ k, r.val k ≠ 0 → a.val k ≠ 0 ∨ b.val k ≠ 0) := by
  obtain ⟨c, c1, c2, c3⟩ := clone_spec ha
  obtain ⟨r, e1, e2, e3, e4, e5⟩ := foldPut hq (fun e : Nat × Int => e.1) (fun e => Fq.neg q e.2) b.allNodes c A c2
    (by rwa [c3])
  refine ⟨r, by simp [subToSparse, c1, e1], e2, ?_, by rwa [c3] at e4, fun k hk => ?_⟩
  · have := lpoly_all_eq hb hB
    rw [lpoly] at this
    have e : (b.allNodes.map fun e => C ((Fq.neg q e.2 : Int) : ZMod q) * X ^ e.1).sum = - B := by
      rw [← this]
      induction b.allNodes with
      | nil => simp
      | cons x l ih => 
        rw [List.map_cons, List.sum_cons, ih, List.map_cons, List.sum_cons, cast_neg', C_neg]; ring
    rw [e, ← sub_eq_add_neg] at e3; exact e3
  · rcases e5 k hk with h | ⟨⟨x, v⟩, he, rfl⟩
    · rw [c3] at h; exact Or.inl h
    · have := (mem_all_iff hb _ _).1 he
      right; rw [this.2]; exact this.1

theorem mulSparse_spec (hq : 0 < q) {a b : Tree} (ha : Inv a) (hb : Inv b) {A B : (ZMod q)[X]}
    (hA : Denotes q a.val A) (hB : Denotes q b.val B) :
    ∃ r, mulSparse q a b = some r ∧ Inv r ∧ Denotes q r.val (A * B) ∧ Reduced q r.val ∧
      (∀ k, r.val k ≠ 0 → ∃ i j, a.val i ≠ 0 ∧ b.val j ≠ 0 ∧ k = i + j) := by
  have gen : ∀ (l : List (Nat × Int)) (t : Tree) (P : (ZMod q)[X]), Inv t → Denotes q t.val P → Reduced q t.val →
      ∃ r, l.foldlM (fun r L => b.ascendingNodes.foldlM
          (fun r R => r.treePut (L.1 + R.1) (Fq.mul q R.2 L.2) (addCb q)) r) t = some r ∧ Inv r ∧
        Denotes q r.val (P + lpoly q l * B) ∧ Reduced q r.val ∧
        (∀ k, r.val k ≠ 0 → t.val k ≠ 0 ∨ ∃ e ∈ l, ∃ j, b.val j ≠ 0 ∧ k = e.1 + j) := by
    intro l
    induction l with
    | nil => intro t P h1 h2 h3; exact ⟨t, rfl, h1, by simpa using h2, h3, fun k hk => Or.inl hk⟩
    | cons L l ih =>
      intro t P h1 h2 h3
      obtain ⟨t', e1, e2, e3, e4, e5⟩ := foldPut hq (fun R : Nat × Int => L.1 + R.1) (fun R => Fq.mul q R.2 L.2)
        b.ascendingNodes t P h1 h2
      obtain ⟨r, f1, f2, f3, f4, f5⟩ := ih t' _ e2 e3 (e4 h3)
      refine ⟨r, by rw [List.foldlM_cons, e1]; exact f1, f2, ?_, f4, fun k hk => ?_⟩
      · have e : (b.ascendingNodes.map fun R => C ((Fq.mul q R.2 L.2 : Int) : ZMod q) * X ^ (L.1 + R.1)).sum
            = C (L.2 : ZMod q) * X ^ L.1 * B := by
          rw [← lpoly_eq hb hB]
          induction b.ascendingNodes with
          | nil => simp
          | cons x l ih => 
            rw [List.map_cons, List.sum_cons, ih, lpoly_cons, cast_mul', C_mul, pow_add]; ring
        rw [e] at f3
        rw [lpoly_cons, add_mul, ← add_assoc]; exact f3
      · rcases f5 k hk with h | ⟨e, he, j, hj, hk⟩
        · rcases e5 k h with h | ⟨⟨x, v⟩, he, rfl⟩
          · exact Or.inl h
          · have := (mem_toList_iff hb _ _).1 he
            exact Or.inr ⟨L, by simp, x, by rw [this.2]; exact this.1, rfl⟩
        · exact Or.inr ⟨e, by simp [he], j, hj, hk⟩
  obtain ⟨r, e1, e2, e3, e4, e5⟩ := gen a.ascendingNodes nil 0 inv_nil denotes_nil reduced_nil
  refine ⟨r, e1, e2, by rwa [zero_add, lpoly_eq ha hA] at e3, e4, fun k hk => ?_⟩
  rcases e5 k hk with h | ⟨⟨x, v⟩, he, j, hj, hk⟩
  · exact absurd (by simp [val, Tree.get]) h
  · have := (mem_toList_iff ha _ _).1 he
    exact ⟨x, j, by rw [this.2]; exact this.1, hj, hk⟩

theorem addPolynomials_spec (hq : 0 < q) (ps : List Tree) (Ps : List ((ZMod q)[X]))
    (h : List.Forall₂ (fun p P => Inv p ∧ Denotes q p.val P) ps Ps) :
    ∃ r, addPolynomials q ps = some r ∧ Inv r ∧ Denotes q r.val Ps.sum ∧ Reduced q r.val := by
  have gen : ∀ (ps : List Tree) (Ps : List ((ZMod q)[X])), List.Forall₂ (fun p P => Inv p ∧ Denotes q p.val P) ps Ps →
      ∀ (t : Tree) (P : (ZMod q)[X]), Inv t → Denotes q t.val P → Reduced q t.val →
      ∃ r, ps.foldlM (addToSparse q) t = some r ∧ Inv r ∧ Denotes q r.val (P + Ps.sum) ∧ Reduced q r.val := by
    intro ps Ps h
    induction h with
    | nil => intro t P h1 h2 h3; exact ⟨t, rfl, h1, by simpa using h2, h3⟩
    | cons hp _ ih =>
      intro t P h1 h2 h3
      obtain ⟨t', e1, e2, e3, e4⟩ := addToSparse_spec hq h1 hp.1 h2 hp.2
      obtain ⟨r, f1, f2, f3, f4⟩ := ih t' _ e2 e3 (e4 h3)
      exact ⟨r, by rw [List.foldlM_cons, e1]; exact f1, f2, by rw [List.sum_cons, ← add_assoc]; exact f3, f4⟩
  obtain ⟨r, e1, e2, e3, e4⟩ := gen ps Ps h nil 0 inv_nil denotes_nil reduced_nil
  exact ⟨r, e1, e2, by rwa [zero_add] at e3, e4⟩


/-! ### division -/

theorem maxNode_val {t : Tree} (h : Inv t) : t.maxNode = (t.maxPower, t.val t.maxPower) := by
  cases ht : t with
  | nil => simp [maxNode, maxPower, val, Tree.get]
  | node l k v hh r =>
    rw [← ht]
    have hne : toList t ≠ [] := by rw [ht]; simp
    have hm := List.getLast_mem hne
    have e : t.maxNode = (toList t).getLast hne := by
      rw [maxNode_eq, List.getLast?_eq_some_getLast hne]; rfl
    have := (mem_toList_iff h ((toList t).getLast hne).1 ((toList t).getLast hne).2).1 hm
    rw [maxPower, e, this.2]

theorem maxPower_lt {t : Tree} (h : Inv t) {m : Nat} (hm : 0 < m) (hv : ∀ k, t.val k ≠ 0 → k < m) : t.maxPower < m := by
  cases ht : t with
  | nil => simpa [maxPower, maxNode] using hm
  | node l k v hh r =>
    have := maxPower_mem h (by rw [ht]; simp)
    rw [← ht]; exact hv _ this

theorem newWith_spec (k : Nat) (v : Int) : ∃ t, nil.insertNoOverwrite k v = some t ∧ Inv t ∧
    ∀ j, t.val j = if j = k then v else 0 := by
  obtain ⟨t, e1, e2, e3⟩ := treePut_inv (key := k) (value := v) (ins := setInsertNoOverride) (w := v) inv_nil
    (by simp [setInsertNoOverride, val, Tree.get])
  exact ⟨t, e1, e2, fun j => by rw [e3 j]; simp [val, Tree.get]⟩

theorem denotes_monomial {t : Tree} {k : Nat} {v : Int} (h : ∀ j, t.val j = if j = k then v else 0) :
    Denotes q t.val (C (v : ZMod q) * X ^ k) := by
  intro j; rw [h j, coeff_C_mul, coeff_X_pow]; split <;> simp

theorem divideRound_spec [Fact q.Prime] {b res rem : Tree} (hb : Inv b) (hres : Inv res) (hrem : Inv rem)
    (hlead : (b.val b.maxPower : ZMod q) ≠ 0) (hb1 : 0 < b.maxPower) (hred : Reduced q rem.val)
    (hge : b.maxPower ≤ rem.maxPower)
    (hkeys : ∀ k, res.val k ≠ 0 → rem.maxPower < k + b.maxPower) {B D R : (ZMod q)[X]}
    (hB : Denotes q b.val B) (hD : Denotes q res.val D) (hR : Denotes q rem.val R) :
    ∃ res' rem' D' R', divideRound q b res rem = some (res', rem') ∧ Inv res' ∧ Inv rem' ∧ Reduced q rem'.val ∧
      Denotes q res'.val D' ∧ Denotes q rem'.val R' ∧ D' * B + R' = D * B + R ∧ rem'.maxPower < rem.maxPower ∧
      (∀ k, res'.val k ≠ 0 → rem'.maxPower < k + b.maxPower) := by
  have hqp : 0 < q := (Fact.out : q.Prime).pos
  have hrne : rem ≠ nil := by
    rintro rfl; simp only [maxPower, maxNode] at hge hb1; omega
  have hr0 := maxPower_mem hrem hrne
  have hrc : (rem.val rem.maxPower : ZMod q) ≠ 0 := by
    rw [Ne, ZMod.intCast_zmod_eq_zero_iff_dvd]; exact hred _ hr0
  obtain ⟨l, hl⟩ := div_of_cast_ne (a := rem.val rem.maxPower) hlead
  have hlc := div_cast hl
  have hl0 : l ≠ 0 := by
    rintro rfl
    rw [Int.cast_zero] at hlc
    exact div_ne_zero hrc hlead hlc.symm
  set pos := rem.maxPower - b.maxPower with hpos
  obtain ⟨aux, a1, a2, a3⟩ := newWith_spec pos l
  have hr : res.val pos = 0 := by
    by_contra h; have := hkeys _ h; omega
  obtain ⟨res', b1, b2, b3⟩ := treePut_inv (key := pos) (value := l) (ins := setInsertNoOverride) (w := l) hres
    (by simp [setInsertNoOverride, hr])
  obtain ⟨m, m1, m2, m3, m4, m5⟩ := mulSparse_spec hqp hb a2 hB (denotes_monomial (q := q) a3)
  obtain ⟨rem', s1, s2, s3, s4, s5⟩ := subToSparse_spec hqp hrem m2 hR m3
  have htop : rem'.val rem.maxPower = 0 := by
    by_contra h
    have h1 := s4 hred _ h
    rw [← ZMod.intCast_zmod_eq_zero_iff_dvd, ← s3, coeff_sub, ← mul_assoc, coeff_mul_X_pow', if_pos (by omega),
      coeff_mul_C, hR, hB, show rem.maxPower - pos = b.maxPower by omega, hlc] at h1
    exact h1 (by field_simp; ring)
  have hlt : rem'.maxPower < rem.maxPower := by
    apply maxPower_lt s2 (by omega)
    intro k hk
    have hle : k ≤ rem.maxPower := by
      rcases s5 k hk with h | h
      · exact le_maxPower hrem h
      · obtain ⟨i, j, hi, hj, rfl⟩ := m5 k h
        have := le_maxPower hb hi
        rw [a3] at hj
        have : j = pos := by by_contra hh; rw [if_neg hh] at hj; exact hj rfl
        omega
    rcases Nat.lt_or_ge k rem.maxPower with h | h
    · exact h
    · obtain rfl : k = rem.maxPower := by omega
      exact absurd htop hk
  refine ⟨res', rem', D + C (l : ZMod q) * X ^ pos, _, ?_, b2, s2, s4 hred, ?_, s3, by ring, hlt, fun k hk => ?_⟩
  · have b1' : res.insertNoOverwrite pos l = some res' := b1
    simp only [divideRound, maxNode_val hrem, maxNode_val hb, hl, ← hpos, a1, b1', m1, s1, Option.bind_eq_bind,
      Option.bind_some, Option.pure_def]
  · intro k
    rw [b3 k, coeff_add, coeff_C_mul, coeff_X_pow, hD k]
    by_cases hk : k = pos
    · subst hk; simp [hr]
    · simp [hk]
  · rw [b3 k] at hk
    by_cases h : k = pos
    · omega
    · rw [if_neg h] at hk; have := hkeys k hk; omega

theorem divideLoop_spec [Fact q.Prime] {b : Tree} (hb : Inv b) (hlead : (b.val b.maxPower : ZMod q) ≠ 0)
    (hb1 : 0 < b.maxPower) {B : (ZMod q)[X]} (hB : Denotes q b.val B) (n : Nat) :
    ∀ (res rem : Tree) (D R : (ZMod q)[X]), Inv res → Inv rem → Reduced q rem.val → 
    (∀ k, res.val k ≠ 0 → rem.maxPower < k + b.maxPower) → Denotes q res.val D → Denotes q rem.val R →
    rem.maxPower < n →
    ∃ res' rem' D' R', divideLoop q b n res rem = .done (res', rem') ∧ Inv res' ∧ Inv rem' ∧
      Denotes q res'.val D' ∧ Denotes q rem'.val R' ∧ D' * B + R' = D * B + R ∧ rem'.maxPower < b.maxPower := by
  induction n with
  | zero => intro _ _ _ _ _ _ _ _ _ _ h; omega
  | succ n ih =>
    intro res rem D R h1 h2 h3 h4 h5 h6 h7
    unfold divideLoop
    by_cases hge : rem.maxNode.1 ≥ b.maxNode.1
    · rw [if_pos hge]
      obtain ⟨res', rem', D', R', e1, e2, e3, e4, e5, e6, e7, e8, e9⟩ :=
        divideRound_spec hb h1 h2 hlead hb1 h3 hge h4 hB h5 h6
      rw [e1]
      obtain ⟨res2, rem2, D2, R2, f1, f2, f3, f4, f5, f6, f7⟩ := ih res' rem' D' R' e2 e3 e4 e9 e5 e6 (by omega)
      exact ⟨res2, rem2, D2, R2, f1, f2, f3, f4, f5, by rw [f6, e7], f7⟩
    · rw [if_neg hge]
      exact ⟨res, rem, D, R, rfl, h1, h2, h5, h6, rfl, by unfold maxPower; omega⟩

/-- with a divisor whose maximal key is 0 the loop condition is always true -/
theorem divideLoop_never {b : Tree} (hb0 : b.maxPower = 0) (n : Nat) : ∀ (res rem : Tree) (x : Tree × Tree),
    divideLoop q b n res rem ≠ .done x := by
  induction n with
  | zero => intro _ _ _; simp [divideLoop]
  | succ n ih =>
    intro res rem x
    unfold divideLoop
    rw [if_pos (by have : b.maxNode.1 = 0 := hb0; omega)]
    split
    · simp
    · exact ih _ _ _

/-! ### interpolation -/

theorem fromArray_linear (i : Nat) : ∃ f, fromArray [-(i : Int), 1] = some f ∧ Inv f ∧
    Denotes q f.val (X - C (i : ZMod q)) := by
  have key : ∃ f, fromArray [-(i : Int), 1] = some f ∧ Inv f ∧
      ∀ k, f.val k = if k = 0 then -(i : Int) else if k = 1 then 1 else 0 := by
    by_cases hi : i = 0
    · subst hi
      refine ⟨node nil 1 1 1 nil, by decide +kernel, ⟨by simp [BST], by simp⟩, fun k => ?_⟩
      simp only [val, Tree.get]
      by_cases h1 : k = 1
      · simp [h1]
      · simp [h1, Ne.symm h1]
    · obtain ⟨t, e1, e2, e3⟩ := newWith_spec 0 (-(i : Int))
      have e1 : nil.treePut 0 (-(i : Int)) setInsertNoOverride = some t := e1
      obtain ⟨t2, f1, f2, f3⟩ := treePut_inv (key := 1) (value := 1) (ins := setInsertNoOverride) (w := 1) e2
        (by simp [setInsertNoOverride, e3])
      refine ⟨t2, by simp [fromArray, fromArrayLoop, hi, e1, f1], f2, fun k => ?_⟩
      rw [f3, e3]
      rcases k with _ | _ | k <;> simp
  obtain ⟨f, h1, h2, h3⟩ := key
  refine ⟨f, h1, h2, fun k => ?_⟩
  rw [h3, coeff_sub, coeff_X, coeff_C]
  rcases k with _ | _ | k <;> simp

theorem rootsLoop_spec (hq : 0 < q) (pos : Nat) (is : List Nat) : ∀ (r : Tree) (R : (ZMod q)[X]), Inv r →
    Denotes q r.val R →
    ∃ d, rootsLoop q pos r is = some d ∧ Inv d ∧
    Denotes q d.val (R * ((is.filter (· ≠ pos)).map fun i : Nat => (X - C (i : ZMod q))).prod) := by
  induction is with
  | nil => intro r R hr hR; exact ⟨r, rfl, hr, by simpa using hR⟩
  | cons i is ih =>
    intro r R hr hR
    unfold rootsLoop
    by_cases hi : i = pos
    · simp only [hi, ne_eq, not_true_eq_false, if_false]
      obtain ⟨d, h1, h2, h3⟩ := ih r R hr hR
      exact ⟨d, h1, h2, by rw [List.filter_cons_of_neg (by simp)]; exact h3⟩
    · rw [if_pos hi]
      obtain ⟨f, f1, f2, f3⟩ := fromArray_linear (q := q) i
      obtain ⟨m, m1, m2, m3, -⟩ := mulSparse_spec hq hr f2 hR f3
      obtain ⟨d, h1, h2, h3⟩ := ih m _ m2 m3
      refine ⟨d, by simp [f1, m1, h1], h2, ?_⟩
      rw [List.filter_cons_of_pos (by simpa using hi), List.map_cons, List.prod_cons, ← mul_assoc]; exact h3

theorem computeBase_spec [Fact q.Prime] {pos n : Nat} (h : pos < n) (hn : n ≤ q) :
    ∃ r P, computeBase q pos n = some r ∧ Inv r ∧ Denotes q r.val P ∧ P.degree < n ∧
      ∀ j, j < n → P.eval (j : ZMod q) = if j = pos then 1 else 0 := by
  have hqp : 0 < q := (Fact.out : q.Prime).pos
  obtain ⟨hf, hinv⟩ := inverse_of_cast_ne (Dense.facBig_ne h hn)
  obtain ⟨one, o1, o2, o3⟩ := newWith_spec 0 1
  have o1 : newWith 0 1 = some one := o1
  obtain ⟨d, h1, h2, h3⟩ := rootsLoop_spec hqp pos (List.range n) one _ o2 (denotes_monomial (q := q) o3)
  obtain ⟨r, r1, r2, r3⟩ := mulSparseScalar_denotes h2 h3 hf
  refine ⟨r, _, by simp [computeBase, o1, h1, hinv, r1], r2, r3, ?_, fun j hj => ?_⟩
  · refine lt_of_le_of_lt (degree_mul_le _ _) ?_
    rw [Dense.filter_range_prod]
    have hc := inverse_cast hinv
    have : (C (hf : ZMod q)).degree ≤ 0 := degree_C_le
    refine lt_of_le_of_lt (add_le_add this (degree_mul_le _ _)) ?_
    simp only [Int.cast_one, C_1, pow_zero, mul_one, degree_one, zero_add]
    rw [degree_prod]
    simp only [degree_X_sub_C, Finset.sum_const, Finset.card_erase_of_mem (Finset.mem_range.2 h), Finset.card_range]
    simp only [nsmul_eq_mul, mul_one]
    exact_mod_cast (by omega : n - 1 < n)
  · rw [Dense.filter_range_prod]
    simp only [Int.cast_one, C_1, pow_zero, mul_one, one_mul, eval_mul, eval_C, eval_prod, eval_sub, eval_X]
    rw [inverse_cast hinv, Dense.facBig_cast pos n h]
    split
    · rename_i hj; subst hj
      refine inv_mul_cancel₀ ?_
      rw [← Dense.facBig_cast j n h]; exact Dense.facBig_ne h hn
    · rename_i hjp
      have : ∏ x ∈ (Finset.range n).erase pos, ((j : ZMod q) - (x : ZMod q)) = 0 :=
        Finset.prod_eq_zero (i := j) (by simp [hjp, hj]) (by simp)
      rw [this, mul_zero]

/-- every cached base is what the uncached computation would return -/
def CacheOK (q : Nat) (c : Cache) : Prop := ∀ k v, c.lookup k = some v → computeBase q k.1 k.2 = some v

theorem base_ok {c : Cache} (hc : CacheOK q c) (pos n : Nat) :
    (base q c pos n).map Prod.fst = computeBase q pos n ∧
    ∀ r c', base q c pos n = some (r, c') → CacheOK q c' := by
  unfold base
  cases hl : c.lookup (pos, n) with
  | some v =>
    simp only [Option.map_some, Option.some.injEq, Prod.mk.injEq]
    exact ⟨(hc _ _ hl).symm, by rintro r c' ⟨-, rfl⟩; exact hc⟩
  | none =>
    cases hb : computeBase q pos n with
    | none => exact ⟨by simp, by simp⟩
    | some r =>
      simp only [Option.map_some, Option.some.injEq, Prod.mk.injEq, true_and]
      rintro r' c' ⟨rfl, rfl⟩ k v hk
      rw [List.lookup_cons] at hk
      by_cases h : k = (pos, n)
      · subst h; simp at hk; rw [hb, hk]
      · rw [beq_eq_false_iff_ne.2 h] at hk; exact hc k v hk

theorem interpLoop_spec [Fact q.Prime] (n : Nat) (hn : n ≤ q) (vs : List (Nat × Int)) :
    ∀ (p : Tree) (P : (ZMod q)[X]) (c : Cache), CacheOK q c → (∀ v ∈ vs, v.1 < n) →
    Inv p → Denotes q p.val P → P.degree < n →
    ∃ r c' R, interpLoop q n p c vs = some (r, c') ∧ CacheOK q c' ∧ Inv r ∧ Denotes q r.val R ∧ R.degree < n ∧
      ∀ j, j < n → R.eval (j : ZMod q) = P.eval (j : ZMod q)
        + (vs.map fun v => if j = v.1 then (v.2 : ZMod q) else 0).sum := by
  have hqp : 0 < q := (Fact.out : q.Prime).pos
  induction vs with
  | nil => intro p P c hc _ h1 h2 h3; exact ⟨p, c, P, rfl, hc, h1, h2, h3, by simp⟩
  | cons v vs ih =>
    intro p P c hc hk h1 h2 h3
    obtain ⟨b, Bp, b1, b2, b3, b4, b5⟩ := computeBase_spec (q := q) (hk v (by simp)) hn
    obtain ⟨k1, k2⟩ := base_ok hc v.1 n
    rw [b1] at k1
    obtain ⟨⟨b', c'⟩, e1, e2⟩ := Option.map_eq_some_iff.1 k1
    simp only at e2; subst e2
    obtain ⟨m, m1, m2, m3⟩ := mulSparseScalar_denotes b2 b3 v.2
    obtain ⟨p', p1, p2, p3, -⟩ := addToSparse_spec hqp h1 m2 h2 m3
    have hdeg : (P + C (v.2 : ZMod q) * Bp).degree < n := by
      refine lt_of_le_of_lt (degree_add_le _ _) (max_lt h3 ?_)
      refine lt_of_le_of_lt (degree_mul_le _ _) (lt_of_le_of_lt (add_le_add degree_C_le le_rfl) ?_)
      rwa [zero_add]
    obtain ⟨r, c2, R, f1, f2, f3, f4, f5, f6⟩ := ih p' _ c' (k2 _ _ e1) (fun v hv => hk v (by simp [hv])) p2 p3 hdeg
    refine ⟨r, c2, R, by simp only [interpLoop, e1, m1, p1, f1], f2, f3, f4, f5, fun j hj => ?_⟩
    rw [f6 j hj, eval_add, eval_mul, eval_C, b5 j hj, List.map_cons, List.sum_cons]
    split <;> simp [add_assoc]

theorem sum_single {l : List (Nat × Int)} (h : l.Pairwise (fun a b => a.1 ≠ b.1)) (j : Nat) :
    (l.map fun v => if j = v.1 then (v.2 : ZMod q) else 0).sum = (((l.lookup j).getD 0 : Int) : ZMod q) := by
  induction l with
  | nil => simp
  | cons e l ih =>
    obtain ⟨a, v⟩ := e
    rw [List.pairwise_cons] at h
    rw [List.map_cons, List.sum_cons, ih h.2, List.lookup_cons]
    by_cases hj : j = a
    · subst hj
      have : l.lookup j = none := by
        rw [List.lookup_eq_none_iff]
        intro p hp
        have := h.1 p hp
        simpa using this
      simp [this]
    · simp [hj, beq_eq_false_iff_ne.2 hj]

/-! ### evaluation -/

/-- memo invariant: the entries are powers of the point, key 1 is present and key 0 is absent or there -/
def MemoOK (q : Nat) (x : Int) (m : Tree) : Prop :=
  Inv m ∧ m.val 1 ≠ 0 ∧ ∀ k, m.val k ≠ 0 → ((m.val k : Int) : ZMod q) = (x : ZMod q) ^ k

theorem expInt_cast (hq : 1 < q) (b : Int) (e : Nat) : ((Fq.expInt q b e : Int) : ZMod q) = (b : ZMod q) ^ e := by
  have := (C03_expInt q hq b e).2.2
  rw [← cast_eq_iff_modEq] at this; rw [this]; push_cast; rfl

/-- the ladder, run on a descending list of correct powers that contains exponent 1 (before any 0) -/
theorem ladder_spec [Fact q.Prime] {x : Int} (hx : (x : ZMod q) ≠ 0) (es : List (Nat × Int)) :
    ∀ (rem : Nat) (memo : Tree) (np : Int), MemoOK q x memo →
    es.Pairwise (fun a b => b.1 < a.1) → (∃ v, (1, v) ∈ es) →
    (∀ e ∈ es, (e.2 : ZMod q) = (x : ZMod q) ^ e.1) →
    ∃ memo' np', ladder q rem memo np es = some (memo', np') ∧ MemoOK q x memo' ∧
      (np' : ZMod q) = np * (x : ZMod q) ^ rem := by
  induction es with
  | nil => rintro _ _ _ _ _ ⟨v, hv⟩; simp at hv
  | cons e es ih =>
    intro rem memo np hm hp h1 hv
    rw [List.pairwise_cons] at hp
    have he0 : e.1 ≠ 0 := by
      obtain ⟨v, hv⟩ := h1
      rcases List.mem_cons.1 hv with h | h
      · rw [← h]; simp
      · have := hp.1 _ h; simp at this; omega
    have hvv : ((Fq.expInt q e.2 (rem / e.1) : Int) : ZMod q) = (x : ZMod q) ^ (rem / e.1 * e.1) := by
      rw [expInt_cast (Fact.out : q.Prime).one_lt, hv e (by simp), ← pow_mul, Nat.mul_comm]
    have hvn : Fq.expInt q e.2 (rem / e.1) ≠ 0 := by
      intro h; rw [h, Int.cast_zero] at hvv; exact pow_ne_zero _ hx hvv.symm
    obtain ⟨memo', e1, e2, e3⟩ := treePut_inv (key := rem / e.1 * e.1) (value := Fq.expInt q e.2 (rem / e.1))
      (ins := setInsert) hm.1 rfl
    have e1 : memo.insert (rem / e.1 * e.1) (Fq.expInt q e.2 (rem / e.1)) = some memo' := e1
    have hm' : MemoOK q x memo' := by
      refine ⟨e2, ?_, fun k hk => ?_⟩
      · rw [e3]; split
        · exact hvn
        · exact hm.2.1
      · rw [e3] at hk ⊢
        by_cases h : k = rem / e.1 * e.1
        · rw [if_pos h, h]; exact hvv
        · rw [if_neg h] at hk ⊢; exact hm.2.2 k hk
    have hdm : rem / e.1 * e.1 + rem % e.1 = rem := by rw [Nat.mul_comm]; exact Nat.div_add_mod rem e.1
    unfold ladder
    simp only [he0, if_false, e1]
    by_cases hr : rem % e.1 = 0
    · simp only [hr, if_true]
      refine ⟨_, _, rfl, hm', ?_⟩
      rw [cast_mul', hvv, show rem / e.1 * e.1 = rem by omega]
    · simp only [hr, if_false]
      have hne1 : e.1 ≠ 1 := by intro h; rw [h, Nat.mod_one] at hr; exact hr rfl
      have h1' : ∃ v, (1, v) ∈ es := by
        obtain ⟨v, hv⟩ := h1
        rcases List.mem_cons.1 hv with h | h
        · exact absurd (by rw [← h]) hne1
        · exact ⟨v, h⟩
      obtain ⟨m2, np2, f1, f2, f3⟩ := ih (rem % e.1) memo' (Fq.mul q np (Fq.expInt q e.2 (rem / e.1))) hm' hp.2 h1'
        (fun e he => hv e (by simp [he]))
      refine ⟨m2, np2, f1, f2, ?_⟩
      rw [f3, cast_mul', hvv, mul_assoc, ← pow_add, hdm]

theorem evalLoop_spec [Fact q.Prime] {x : Int} (hx : (x : ZMod q) ≠ 0) (js : List (Nat × Int)) :
    ∀ (memo : Tree) (acc : Int), MemoOK q x memo → 0 ≤ acc → acc < q →
    ∃ r, evalLoop q memo acc js = some r ∧ (r : ZMod q) = acc + (lpoly q js).eval (x : ZMod q) ∧ 0 ≤ r ∧ r < q := by
  have hqp : 0 < q := (Fact.out : q.Prime).pos
  induction js with
  | nil => intro memo acc _ h1 h2; exact ⟨acc, rfl, by simp, h1, h2⟩
  | cons j js ih =>
    intro memo acc hm h1 h2
    obtain ⟨m', np, e1, e2, e3⟩ := ladder_spec hx memo.decendingNodes j.1 memo 1 hm
      (by unfold decendingNodes; rw [allNodes_eq, List.pairwise_reverse]; exact hm.1.1)
      ⟨memo.val 1, (mem_all_iff hm.1 _ _).2 ⟨hm.2.1, rfl⟩⟩
      (by
        rintro ⟨k, v⟩ he
        have := (mem_all_iff hm.1 _ _).1 he
        have h2 := hm.2.2 k (by rw [this.2]; exact this.1)
        rwa [this.2] at h2)
    have hr := Dense.fqadd_range hqp acc (Fq.mul q j.2 np)
    obtain ⟨r, f1, f2, f3, f4⟩ := ih m' (Fq.add q acc (Fq.mul q j.2 np)) e2 hr.1 hr.2
    refine ⟨r, by simp only [evalLoop, e1, f1], ?_, f3, f4⟩
    rw [f2, lpoly_cons, cast_add', cast_mul', e3, eval_add, eval_mul, eval_C, eval_pow, eval_X]
    push_cast; ring

theorem evalSparsePoly_spec [Fact q.Prime] {p : Tree} (hp : Inv p) {x : Int} (hx : (x : ZMod q) ≠ 0)
    {P : (ZMod q)[X]} (hP : Denotes q p.val P) :
    ∃ r, evalSparsePoly q p x = some r ∧ (r : ZMod q) = P.eval (x : ZMod q) ∧ 0 ≤ r ∧ r < q := by
  have hqp : 0 < q := (Fact.out : q.Prime).pos
  have hx0 : x ≠ 0 := by rintro rfl; simp at hx
  obtain ⟨m, m1, m2, m3⟩ := newWith_spec 1 x
  have hm : MemoOK q x m := ⟨m2, by rw [m3]; simpa using hx0, fun k hk => by
    rw [m3] at hk ⊢
    by_cases h : k = 1
    · simp [h]
    · simp [h] at hk⟩
  obtain ⟨r, e1, e2, e3⟩ := evalLoop_spec hx p.ascendingNodes m 0 hm (by omega) (by omega)
  refine ⟨r, by simp only [evalSparsePoly, hx0, if_false, m1, e1], ?_, e3⟩
  rw [e2, lpoly_eq hp hP]; simp

/-! ### scalar product -/

theorem ssp_spec (b : List Int) (l : List (Nat × Int)) : ∀ (acc : Int),
    ((∀ e ∈ l, e.1 < b.length) →
      l.foldlM (fun res v => (b[v.1]?).map fun w => res + Fq.mul q v.2 w) acc
        = some (acc + (l.map fun e => Fq.mul q e.2 (b.getD e.1 0)).sum)) ∧
    ((∃ e ∈ l, b.length ≤ e.1) →
      l.foldlM (fun res v => (b[v.1]?).map fun w => res + Fq.mul q v.2 w) acc = none) := by
  induction l with
  | nil => intro acc; exact ⟨fun _ => by simp, by simp⟩
  | cons e l ih =>
    intro acc
    refine ⟨fun h => ?_, fun h => ?_⟩
    · have he := h e (by simp)
      rw [List.foldlM_cons, List.getElem?_eq_getElem he]
      simp only [Option.map_some, Option.bind_eq_bind, Option.bind_some]
      rw [(ih _).1 (fun x hx => h x (by simp [hx])), List.map_cons, List.sum_cons, List.getD_eq_getElem _ _ he,
        add_assoc]
    · rw [List.foldlM_cons]
      by_cases he : e.1 < b.length
      · rw [List.getElem?_eq_getElem he]
        simp only [Option.map_some, Option.bind_eq_bind, Option.bind_some]
        refine (ih _).2 ?_
        obtain ⟨x, hx, hh⟩ := h
        rcases List.mem_cons.1 hx with rfl | hx
        · omega
        · exact ⟨x, hx, hh⟩
      · rw [List.getElem?_eq_none (by omega)]; rfl

/-! ### transposition -/

theorem transposeRow_spec (y : Nat) (row : List (Nat × Int)) : ∀ (cols : List Tree),
    row.Pairwise (fun a b => a.1 ≠ b.1) → (∀ e ∈ row, e.1 < cols.length) →
    (∀ c ∈ cols, Inv c) → (∀ e ∈ row, ∀ c, cols[e.1]? = some c → c.val y = 0) →
    ∃ cols', transposeRow y cols row = some cols' ∧ cols'.length = cols.length ∧ (∀ c ∈ cols', Inv c) ∧
      ∀ j c c', cols[j]? = some c → cols'[j]? = some c' → ∀ i, c'.val i
        = if i = y then (row.lookup j).getD (c.val y) else c.val i := by
  induction row with
  | nil =>
    intro cols _ _ h _
    refine ⟨cols, rfl, rfl, h, fun j c c' h1 h2 i => ?_⟩
    rw [h1] at h2; obtain rfl := Option.some.inj h2
    simp; rintro rfl; rfl
  | cons e row ih =>
    intro cols hp hk hinv h0
    obtain ⟨a, v⟩ := e
    rw [List.pairwise_cons] at hp
    have ha := hk (a, v) (by simp)
    simp only at ha
    have hca := List.getElem?_eq_getElem ha
    have hz := h0 (a, v) (by simp) _ hca
    obtain ⟨t', e1, e2, e3⟩ := treePut_inv (key := y) (value := v) (ins := setInsertNoOverride) (w := v)
      (hinv _ (List.getElem_mem ha)) (by simp [setInsertNoOverride, hz])
    have e1 : (cols[a]).insertNoOverwrite y v = some t' := e1
    obtain ⟨cols', f1, f2, f3, f4⟩ := ih (cols.set a t') hp.2 (by simpa using fun x v hx => hk (x, v) (by simp [hx]))
      (by
        intro c hc
        rcases List.mem_or_eq_of_mem_set hc with hc | rfl
        · exact hinv c hc
        · exact e2)
      (by
        intro e he c hc
        have hne : a ≠ e.1 := hp.1 e he
        rw [List.getElem?_set_ne hne] at hc
        exact h0 e (by simp [he]) c hc)
    refine ⟨cols', ?_, by simpa using f2, f3, fun j c c' h1 h2 i => ?_⟩
    · unfold transposeRow at f1 ⊢
      rw [List.foldlM_cons]
      simp only [hca, e1, Option.map_some, Option.bind_eq_bind, Option.bind_some]
      exact f1
    · by_cases hj : j = a
      · subst hj
        have hc : cols[j] = c := by rw [hca] at h1; exact Option.some.inj h1
        have := f4 j t' c' (by rw [List.getElem?_set_self ha]) h2 i
        rw [this]
        have hn : row.lookup j = none := by
          rw [List.lookup_eq_none_iff]; intro p hpp; have := hp.1 p hpp; simpa using this
        rw [hn, e3, e3, hc]
        by_cases hiy : i = y <;> simp [hiy]
      · have := f4 j c c' (by rw [List.getElem?_set_ne (Ne.symm hj)]; exact h1) h2 i
        rw [this, List.lookup_cons, beq_eq_false_iff_ne.2 hj]

theorem transposeLoop_spec (rows : List Tree) : ∀ (y : Nat) (cols : List Tree), (∀ t ∈ rows, Inv t) →
    (∀ t ∈ rows, ∀ k, t.val k ≠ 0 → k < cols.length) → (∀ c ∈ cols, Inv c) →
    (∀ c ∈ cols, ∀ i, y ≤ i → c.val i = 0) →
    ∃ cols', transposeLoop y cols rows = some cols' ∧ cols'.length = cols.length ∧ (∀ c ∈ cols', Inv c) ∧
      ∀ j c c', cols[j]? = some c → cols'[j]? = some c' → ∀ i, c'.val i
        = if i < y then c.val i else (rows[i - y]?.getD nil).val j := by
  induction rows with
  | nil =>
    intro y cols _ _ h2 h3
    refine ⟨cols, rfl, rfl, h2, fun j c c' h1 h2 i => ?_⟩
    rw [h1] at h2; obtain rfl := Option.some.inj h2
    split
    · rfl
    · rename_i hi
      rw [h3 c (List.mem_of_getElem? h1) i (by omega)]; simp [val, Tree.get]
  | cons t rows ih =>
    intro y cols h1 hk h2 h3
    have ht := h1 t (by simp)
    obtain ⟨cols1, e1, e2, e3, e4⟩ := transposeRow_spec y t.ascendingNodes cols (distinct_asc ht)
      (by
        rintro ⟨k, v⟩ he
        have := (mem_toList_iff ht k v).1 he
        exact hk t (by simp) k (by rw [this.2]; exact this.1))
      h2 (fun e he c hc => h3 c (List.mem_of_getElem? hc) y le_rfl)
    have hval : ∀ j c c', cols[j]? = some c → cols1[j]? = some c' → ∀ i, c'.val i
        = if i = y then t.val j else c.val i := by
      intro j c c' hc hc' i
      have : t.val j = (t.ascendingNodes.lookup j).getD 0 := by rw [val, get_eq_lookup ht.1]
      rw [e4 j c c' hc hc' i, h3 c (List.mem_of_getElem? hc) y le_rfl, this]
    have hlen : ∀ (j : Nat) (c' : Tree), cols1[j]? = some c' → ∃ c, cols[j]? = some c := by
      intro j c' h
      have : j < cols.length := by rw [← e2]; exact (List.getElem?_eq_some_iff.1 h).1
      exact ⟨_, List.getElem?_eq_getElem this⟩
    obtain ⟨cols', f1, f2, f3, f4⟩ := ih (y + 1) cols1 (fun t ht => h1 t (by simp [ht]))
      (fun t ht k hk' => by rw [e2]; exact hk t (by simp [ht]) k hk') e3
      (by
        intro c hc i hi
        obtain ⟨j, hj⟩ := List.getElem?_of_mem hc
        obtain ⟨c0, hc0⟩ := hlen j c hj
        rw [hval j c0 c hc0 hj i, if_neg (by omega)]
        exact h3 c0 (List.mem_of_getElem? hc0) i (by omega))
    refine ⟨cols', by simp only [transposeLoop, e1, f1], by rw [f2, e2], f3, fun j c c' hc hc' i => ?_⟩
    obtain ⟨c1, hc1⟩ : ∃ c1, cols1[j]? = some c1 := by
      have : j < cols1.length := by rw [e2]; exact (List.getElem?_eq_some_iff.1 hc).1
      exact ⟨_, List.getElem?_eq_getElem this⟩
    rw [f4 j c1 c' hc1 hc' i, hval j c c1 hc hc1 i]
    rcases lt_trichotomy i y with h | h | h
    · rw [if_pos (by omega), if_neg (by omega), if_pos h]
    · subst h; simp
    · rw [if_neg (by omega), if_neg (by omega), show i - y = (i - (y + 1)) + 1 by omega, List.getElem?_cons_succ]

end APS.Sparse
