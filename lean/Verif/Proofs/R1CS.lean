import Verif.Proofs.Factors
import Verif.Proofs.Sparse
import Verif.Spec.Circuit
import Mathlib.Algebra.Field.ZMod

/-! Constraint rows: what the dense and sparse generators write, and what the rows mean. -/
namespace APS.Circuit
open APS.Spec APS.Avl APS.Avl.Tree

variable {q : Nat}

/-! ### index map -/

/-- internal invariant: keys distinct, values `0,1,2,…` in insertion order -/
structure IdxInv (m : IndexMap) : Prop where
  vals : m.map Prod.snd = List.range m.length
  keys : (m.map Prod.fst).Nodup

theorem has_iff {m : IndexMap} {n : Name} : m.has n = true ↔ n ∈ m.map Prod.fst := by
  simp [IndexMap.has]

theorem set_fresh {m : IndexMap} {n : Name} {v : Nat} (h : m.has n = false) : m.set n v = m ++ [(n, v)] := by
  unfold IndexMap.set
  unfold IndexMap.has at h
  rw [h]; rfl

theorem get_of_mem {m : IndexMap} (h : (m.map Prod.fst).Nodup) {n : Name} {i : Nat} (hm : (n, i) ∈ m) : m.get n = i := by
  unfold IndexMap.get
  induction m with
  | nil => cases hm
  | cons x xs ih =>
    simp only [List.map_cons, List.nodup_cons] at h
    rw [List.find?_cons]
    rcases List.mem_cons.mp hm with rfl | hm'
    · simp
    · have : x.1 ≠ n := by rintro rfl; exact h.1 (List.mem_map.mpr ⟨_, hm', rfl⟩)
      rw [show (x.1 == n) = false by simpa using this]
      exact ih h.2 hm'

theorem IdxInv.nil : IdxInv [] := ⟨by simp, by simp⟩

theorem IdxInv.set {m : IndexMap} (h : IdxInv m) {n : Name} (hn : m.has n = false) : IdxInv (m.set n m.length) := by
  rw [set_fresh hn]
  refine ⟨by simp [h.vals, List.range_succ], ?_⟩
  rw [List.map_append, List.nodup_append]
  refine ⟨h.keys, by simp, fun a ha b hb => ?_⟩
  simp at hb; subst hb
  rintro rfl
  rw [has_iff.mpr ha] at hn; cases hn

theorem IdxInv.good {m : IndexMap} (h : IdxInv m) : GoodIndex m := by
  have mem_of : ∀ i, (hi : i < m.length) → (m[i].1, i) ∈ m := by
    intro i hi
    have : m[i].2 = i := by
      have := congrArg (fun l => l[i]?) h.vals
      simp [hi] at this
      exact this
    have h2 : m[i] = (m[i].1, i) := by rw [Prod.ext_iff]; exact ⟨rfl, this⟩
    rw [← h2]; exact List.getElem_mem hi
  have of_has : ∀ a, m.has a = true → ∃ i, ∃ hi : i < m.length, m[i].1 = a ∧ m.get a = i := by
    intro a ha
    rw [has_iff, List.mem_map] at ha
    obtain ⟨x, hx, rfl⟩ := ha
    obtain ⟨i, hi, rfl⟩ := List.getElem_of_mem hx
    exact ⟨i, hi, rfl, get_of_mem h.keys (mem_of i hi)⟩
  refine ⟨fun a b ha hb hab => ?_, fun a ha => ?_, fun i hi => ?_⟩
  · obtain ⟨i, hi, rfl, h1⟩ := of_has a ha
    obtain ⟨j, hj, rfl, h2⟩ := of_has b hb
    rw [h1, h2] at hab
    subst hab; rfl
  · obtain ⟨i, hi, rfl, h1⟩ := of_has a ha
    omega
  · exact ⟨m[i].1, has_iff.mpr (List.mem_map.mpr ⟨_, List.getElem_mem hi, rfl⟩), get_of_mem h.keys (mem_of i hi)⟩

theorem indexPublics_eq : ∀ (vs : List Name) (m : IndexMap), IdxInv m → vs.Nodup → (∀ v ∈ vs, m.has v = false) →
    IdxInv (indexPublics m vs) ∧ (indexPublics m vs).map Prod.fst = m.map Prod.fst ++ vs := by
  intro vs
  induction vs with
  | nil => intro m h _ _; exact ⟨h, by simp [indexPublics]⟩
  | cons v vs ih =>
    intro m h hn hf
    have hv := hf v List.mem_cons_self
    simp only [List.nodup_cons] at hn
    unfold indexPublics
    obtain ⟨h1, h2⟩ := ih (m.set v m.length) (h.set hv) hn.2 (fun x hx => by
      rw [Bool.eq_false_iff]
      intro hc
      rw [has_iff, set_fresh hv, List.map_append, List.mem_append] at hc
      rcases hc with hc | hc
      · have := hf x (List.mem_cons_of_mem _ hx)
        rw [has_iff.mpr hc] at this; cases this
      · simp at hc; subst hc; exact hn.1 hx)
    refine ⟨h1, ?_⟩
    rw [h2, set_fresh hv]; simp

theorem indexInputs_eq : ∀ (vs : List Name) (m : IndexMap), IdxInv m →
    IdxInv (indexInputs m vs) ∧ m <+: indexInputs m vs ∧
      ∀ n, n ∈ (indexInputs m vs).map Prod.fst ↔ n ∈ m.map Prod.fst ∨ n ∈ vs := by
  intro vs
  induction vs with
  | nil => intro m h; exact ⟨h, List.prefix_refl _, by simp [indexInputs]⟩
  | cons v vs ih =>
    intro m h
    unfold indexInputs
    by_cases hv : m.has v = true
    · rw [if_pos hv]
      obtain ⟨h1, h2, h3⟩ := ih m h
      refine ⟨h1, h2, fun n => ?_⟩
      rw [h3, List.mem_cons]
      constructor
      · rintro (h | h); exacts [Or.inl h, Or.inr (Or.inr h)]
      · rintro (h | rfl | h); exacts [Or.inl h, Or.inl (has_iff.mp hv), Or.inr h]
    · rw [if_neg hv]
      have hv' : m.has v = false := by simpa using hv
      obtain ⟨h1, h2, h3⟩ := ih _ (h.set hv')
      refine ⟨h1, (by rw [set_fresh hv']; exact List.prefix_append _ _ : m <+: m.set v m.length).trans h2, fun n => ?_⟩
      rw [h3, set_fresh hv', List.map_append, List.mem_append, List.mem_cons]
      simp [or_assoc]

theorem indexGates_eq : ∀ (gs : List Gate) (m : IndexMap) (sp : SplitMap) (m' : IndexMap) (sp' : SplitMap), IdxInv m →
    indexGates m sp gs = some (m', sp') → IdxInv m' ∧ m <+: m' ∧
      (m'.map Prod.fst = m.map Prod.fst ++ (gs.filter (fun g => !g.noNew)).map (·.ident)) := by
  intro gs
  induction gs with
  | nil => intro m sp m' sp' h he; simp [indexGates] at he; obtain ⟨rfl, rfl⟩ := he; exact ⟨h, List.prefix_refl _, by simp⟩
  | cons g gs ih =>
    intro m sp m' sp' h he
    unfold indexGates at he
    by_cases hn : g.noNew = true
    · rw [if_pos hn] at he
      obtain ⟨h1, h2, h3⟩ := ih _ _ _ _ h he
      exact ⟨h1, h2, by rw [h3]; simp [hn]⟩
    · rw [if_neg hn] at he
      by_cases hh : m.has g.ident = true
      · rw [if_pos hh] at he; cases he
      · rw [if_neg hh] at he
        have hh' : m.has g.ident = false := by simpa using hh
        obtain ⟨h1, h2, h3⟩ := ih _ _ _ _ (h.set hh') he
        refine ⟨h1, (by rw [set_fresh hh']; exact List.prefix_append _ _ : m <+: m.set g.ident m.length).trans h2, ?_⟩
        rw [h3, set_fresh hh']
        simp [hn]

theorem prefix_get {m m' : IndexMap} (h : m <+: m') (h' : IdxInv m') {n : Name} (hn : m.has n = true) :
    m'.has n = true ∧ m'.get n = m.get n := by
  have hk : (m.map Prod.fst).Nodup := (h.map Prod.fst).sublist.nodup h'.keys
  rw [has_iff, List.mem_map] at hn
  obtain ⟨⟨a, i⟩, hx, rfl⟩ := hn
  exact ⟨has_iff.mpr (List.mem_map.mpr ⟨_, h.subset hx, rfl⟩), by
    rw [get_of_mem h'.keys (h.subset hx), get_of_mem hk hx]⟩

theorem get_of_getElem {m : IndexMap} (h : IdxInv m) {i : Nat} {n : Name} (hi : (m.map Prod.fst)[i]? = some n) :
    m.get n = i := by
  rw [List.getElem?_map] at hi
  cases hx : m[i]? with
  | none => simp [hx] at hi
  | some p =>
    simp [hx] at hi
    have hm : p ∈ m := List.mem_of_getElem? hx
    have hv : p.2 = i := by
      have := congrArg (fun l => l[i]?) h.vals
      simp only [List.getElem?_map, hx, Option.map_some] at this
      rw [List.getElem?_eq_some_iff] at hx
      obtain ⟨hlt, _⟩ := hx
      rw [List.getElem?_range hlt] at this
      simpa using this
    subst hi hv
    exact get_of_mem h.keys hm

/-- everything the constraint generators rely on -/
structure IndexSpec (publics inputs : List Name) (gates : List Gate) (rand : Bool) (m : IndexMap) : Prop where
  inv : IdxInv m
  names : ∀ n, m.has n = true ↔ n ∈ publics ∨ n ∈ inputs ∨ (∃ g ∈ gates, g.noNew = false ∧ g.ident = n) ∨
    (rand = true ∧ (n = randIn ∨ n = randOut))
  pub : ∀ i n, publics[i]? = some n → m.get n = i
  fresh : ∀ g ∈ gates, g.noNew = false → g.ident ∉ publics ∧ g.ident ∉ inputs

theorem buildIndex_spec {publics inputs : List Name} {gates : List Gate} {rand : Bool} {m : IndexMap} {sp : SplitMap}
    (h : buildIndex publics inputs gates rand = some (m, sp)) (hp : publics.Nodup)
    (hr : rand = true → ∀ n, n = randIn ∨ n = randOut → n ∉ publics ∧ n ∉ inputs ∧ ∀ g ∈ gates, g.noNew = false → g.ident ≠ n) :
    IndexSpec publics inputs gates rand m := by
  unfold buildIndex at h
  obtain ⟨p1, p2⟩ := indexPublics_eq publics [] .nil hp (by simp [IndexMap.has])
  obtain ⟨i1, i2, i3⟩ := indexInputs_eq inputs _ p1
  cases hg : indexGates (indexInputs (indexPublics [] publics) inputs) [] gates with
  | none => simp [hg] at h
  | some r =>
    obtain ⟨m1, sp1⟩ := r
    simp only [hg, Option.some.injEq, Prod.mk.injEq] at h
    obtain ⟨h, rfl⟩ := h
    obtain ⟨g1, g2, g3⟩ := indexGates_eq _ _ _ _ _ i1 hg
    have n1 : ∀ n, m1.has n = true ↔ n ∈ publics ∨ n ∈ inputs ∨ ∃ g ∈ gates, g.noNew = false ∧ g.ident = n := by
      intro n
      rw [has_iff, g3, List.mem_append, i3, p2]
      simp only [List.map_nil, List.nil_append, List.mem_map, List.mem_filter, Bool.not_eq_true', or_assoc, and_assoc]
    have hpub : ∀ m' : IndexMap, m1 <+: m' → IdxInv m' → ∀ i n, publics[i]? = some n → m'.get n = i := by
      intro m' hm hi i n hn
      have hpre : publics <+: m'.map Prod.fst := by
        have := ((i2.trans g2).trans hm).map Prod.fst
        rw [p2] at this
        simpa using this
      refine get_of_getElem hi ?_
      obtain ⟨t, ht⟩ := hpre
      rw [← ht, List.getElem?_append_left (List.getElem?_eq_some_iff.mp hn).1]
      exact hn
    have hfresh : ∀ g ∈ gates, g.noNew = false → g.ident ∉ publics ∧ g.ident ∉ inputs := by
      intro g hg' hn
      have hk := g1.keys
      rw [g3, List.nodup_append] at hk
      have : g.ident ∈ (gates.filter (fun g => !g.noNew)).map (·.ident) :=
        List.mem_map.mpr ⟨g, List.mem_filter.mpr ⟨hg', by simp [hn]⟩, rfl⟩
      have h2 := fun hx => hk.2.2 g.ident hx _ this rfl
      constructor
      · intro hx; exact h2 ((i3 _).mpr (Or.inl (by rw [p2]; simpa using hx)))
      · intro hx; exact h2 ((i3 _).mpr (Or.inr hx))
    cases rand with
    | false =>
      simp only [Bool.false_eq_true, if_false] at h
      subst h
      exact ⟨g1, fun n => by rw [n1]; simp, hpub _ (List.prefix_refl _) g1, hfresh⟩
    | true =>
      simp only [if_true] at h
      have f1 : m1.has randIn = false := by
        rw [Bool.eq_false_iff]; intro hc
        obtain ⟨a, b, c⟩ := hr rfl randIn (Or.inl rfl)
        rcases (n1 _).mp hc with h | h | ⟨g, hg, hn, hx⟩
        exacts [a h, b h, c g hg hn hx]
      have f2 : (m1.set randIn m1.length).has randOut = false := by
        rw [Bool.eq_false_iff]; intro hc
        rw [has_iff, set_fresh f1, List.map_append, List.mem_append] at hc
        rcases hc with hc | hc
        · obtain ⟨a, b, c⟩ := hr rfl randOut (Or.inr rfl)
          rcases (n1 _).mp (has_iff.mpr hc) with h | h | ⟨g, hg, hn, hx⟩
          exacts [a h, b h, c g hg hn hx]
        · simp only [List.map_cons, List.map_nil, List.mem_singleton] at hc; exact absurd hc (by decide)
      have k2 := (g1.set f1).set f2
      rw [h] at k2
      have hm : m = m1 ++ [(randIn, m1.length)] ++ [(randOut, (m1.set randIn m1.length).length)] := by
        rw [← h, set_fresh f2, set_fresh f1]
      refine ⟨k2, fun n => ?_, hpub m (by rw [hm, List.append_assoc]; exact List.prefix_append _ _) k2, hfresh⟩
      rw [has_iff, hm]
      simp only [List.map_append, List.mem_append, List.map_cons, List.map_nil, List.mem_singleton]
      rw [← has_iff, n1]
      simp [or_assoc]

/-! ### entries of a form -/

/-- entry at position `i` of the row of a linear form -/
def coef (m : IndexMap) (f : Factors) (i : Nat) : Int := (f.map fun x => if pos m x = i then x.mul else 0).sum

theorem dot_congr {e e' : Nat → Int} {w : List Int} (h : ∀ i < w.length, (e i : ZMod q) = (e' i : ZMod q)) :
    dot q e w = dot q e' w := by
  unfold dot
  refine Finset.sum_congr rfl fun i hi => ?_
  rw [h i (Finset.mem_range.mp hi)]

theorem dot_unit {w : List Int} {i : Nat} (hi : i < w.length) (v : Int) :
    dot q (fun j => if j = i then v else 0) w = (v : ZMod q) * ((w.getD i 0 : Int) : ZMod q) := by
  unfold dot
  rw [Finset.sum_eq_single i]
  · simp
  · intro j _ hj; simp [hj]
  · intro h; exact absurd (Finset.mem_range.mpr hi) h

theorem dot_zero {w : List Int} : dot q (fun _ => 0) w = 0 := by simp [dot]

theorem dot_coef {m : IndexMap} {w : List Int} (h1 : ((w.getD 0 0 : Int) : ZMod q) = 1) (f : Factors)
    (hlt : ∀ x ∈ f, pos m x < w.length) : dot q (coef m f) w = formVal (valsOf q m w) f := by
  induction f with
  | nil => simp [coef, dot, formVal]
  | cons x xs ih =>
    have e : dot q (coef m (x :: xs)) w = dot q (fun j => if j = pos m x then x.mul else 0) w + dot q (coef m xs) w := by
      unfold dot
      rw [← Finset.sum_add_distrib]
      refine Finset.sum_congr rfl fun i _ => ?_
      rw [← add_mul]
      congr 1
      simp only [coef, List.map_cons, List.sum_cons, Int.cast_add, eq_comm]
    rw [e, ih (fun y hy => hlt y (List.mem_cons_of_mem _ hy)), formVal_cons, dot_unit (hlt x List.mem_cons_self)]
    congr 1
    unfold factorVal pos valsOf
    by_cases hn : x.tok.isNum = true
    · simp only [hn, if_true]; rw [h1]
    · simp [hn]

theorem coef_of_not_mem {m : IndexMap} {f : Factors} {i : Nat} (h : i ∉ f.map (pos m)) : coef m f i = 0 := by
  induction f with
  | nil => rfl
  | cons x xs ih =>
    simp only [List.map_cons, List.mem_cons, not_or] at h
    have := ih h.2
    unfold coef at this ⊢
    rw [List.map_cons, List.sum_cons, this, if_neg (Ne.symm h.1)]; rfl

theorem denseEntry_set {arr : List Int} {i : Nat} {v : Int} (hi : i < arr.length) (j : Nat) :
    denseEntry (arr.set i v) j = if j = i then v else denseEntry arr j := by
  unfold denseEntry
  rw [List.getD_eq_getElem?_getD, List.getD_eq_getElem?_getD, List.getElem?_set]
  by_cases h : i = j
  · subst h; simp [hi]
  · rw [if_neg h, if_neg (Ne.symm h)]

theorem denseEntry_replicate (n i : Nat) : denseEntry (List.replicate n 0) i = 0 := by
  unfold denseEntry
  rw [List.getD_eq_getElem?_getD, List.getElem?_replicate]
  split <;> rfl

theorem formDense_loop {m : IndexMap} : ∀ (f : Factors) (arr arr' : List Int),
    (∀ x ∈ f, pos m x < arr.length) → Distinct m f → (∀ x ∈ f, denseEntry arr (pos m x) = 0) →
    f.foldlM (insertDense m) arr = some arr' →
    arr'.length = arr.length ∧ ∀ i, denseEntry arr' i = denseEntry arr i + coef m f i := by
  intro f
  induction f with
  | nil => intro arr arr' _ _ _ h; simp at h; subst h; exact ⟨rfl, fun i => by simp [coef]⟩
  | cons x xs ih =>
    intro arr arr' hlt hd hz h
    rw [List.foldlM_cons] at h
    have hx : insertDense m arr x = none ∨ insertDense m arr x = some (arr.set (pos m x) x.mul) := by
      unfold insertDense pos
      by_cases hn : x.tok.isNum = true
      · simp [hn]
      · simp only [hn, Bool.false_eq_true, if_false]
        by_cases hh : m.has x.tok.ident = true
        · simp [hh]
        · simp [hh]
    rcases hx with hx | hx
    · simp [hx] at h
    · simp only [hx, Option.bind_eq_bind, Option.bind_some] at h
      unfold Distinct at hd
      simp only [List.map_cons, List.nodup_cons] at hd
      have hp := hlt x List.mem_cons_self
      obtain ⟨h1, h2⟩ := ih (arr.set (pos m x) x.mul) arr'
        (fun y hy => by rw [List.length_set]; exact hlt y (List.mem_cons_of_mem _ hy)) hd.2 (fun y hy => by
          rw [denseEntry_set hp, if_neg, hz y (List.mem_cons_of_mem _ hy)]
          intro he; exact hd.1 (he ▸ List.mem_map_of_mem (f := pos m) hy)) h
      refine ⟨by rw [h1, List.length_set], fun i => ?_⟩
      rw [h2, denseEntry_set hp]
      by_cases hi : i = pos m x
      · rw [if_pos hi, hi, hz x List.mem_cons_self, coef_of_not_mem hd.1]
        unfold coef
        rw [List.map_cons, List.sum_cons, if_pos rfl]
        have := coef_of_not_mem hd.1
        unfold coef at this
        rw [this]; omega
      · rw [if_neg hi]
        congr 1
        unfold coef
        rw [List.map_cons, List.sum_cons, if_neg (Ne.symm hi)]; omega

theorem formDense_entry {m : IndexMap} {f : Factors} {arr : List Int} (hlt : ∀ x ∈ f, pos m x < m.length)
    (hd : Distinct m f) (h : formDense m f = some arr) : ∀ i, denseEntry arr i = coef m f i := by
  obtain ⟨_, h2⟩ := formDense_loop f (List.replicate m.length 0) arr (by simpa using hlt) hd
    (fun x _ => denseEntry_replicate _ _) h
  intro i
  rw [h2, denseEntry_replicate, Int.zero_add]

theorem unitDense_entry {m : IndexMap} {i : Nat} (hi : i < m.length) (v : Int) (j : Nat) :
    denseEntry (unitDense m i v) j = if j = i then v else 0 := by
  unfold unitDense
  rw [denseEntry_set (by simpa using hi), denseEntry_replicate]

/-! sparse -/

theorem formSparse_loop {m : IndexMap} : ∀ (f : Factors) (t t' : Tree), Inv t → NumAtZero m f →
    f.foldlM (insertSparse q m) t = some t' →
    Inv t' ∧ ∀ i, ((t'.val i : Int) : ZMod q) = (t.val i : ZMod q) + (coef m f i : ZMod q) := by
  intro f
  induction f with
  | nil => intro t t' hi _ h; simp at h; subst h; exact ⟨hi, fun i => by simp [coef]⟩
  | cons x xs ih =>
    intro t t' hi hn h
    rw [List.foldlM_cons] at h
    have hp : m.get x.tok.ident = pos m x := by
      unfold pos
      by_cases hx : x.tok.isNum = true
      · rw [if_pos hx]; exact hn x List.mem_cons_self hx
      · rw [if_neg hx]
    obtain ⟨t1, e1, i1, v1⟩ := treePut_inv (key := pos m x) (value := x.mul) (ins := Sparse.addCb q) hi rfl
    have hx : insertSparse q m t x = none ∨ insertSparse q m t x = some t1 := by
      unfold insertSparse
      split
      · exact Or.inl rfl
      · rw [hp, e1]; exact Or.inr rfl
    rcases hx with hx | hx
    · simp [hx] at h
    · simp only [hx, Option.bind_eq_bind, Option.bind_some] at h
      obtain ⟨i2, v2⟩ := ih t1 t' i1 (fun y hy => hn y (List.mem_cons_of_mem _ hy)) h
      refine ⟨i2, fun i => ?_⟩
      rw [v2, v1]
      have hc : coef m (x :: xs) i = (if pos m x = i then x.mul else 0) + coef m xs i := rfl
      rw [hc]
      by_cases he : i = pos m x
      · rw [if_pos he, if_pos he.symm, cast_add']; push_cast; rw [he]; ring
      · rw [if_neg he, if_neg (Ne.symm he)]; push_cast; ring

theorem formSparse_entry {m : IndexMap} {f : Factors} {t : Tree} (hn : NumAtZero m f)
    (h : formSparse q m f = some t) : Inv t ∧ ∀ i, ((sparseEntry t i : Int) : ZMod q) = (coef m f i : ZMod q) := by
  obtain ⟨h1, h2⟩ := formSparse_loop f nil t inv_nil hn h
  refine ⟨h1, fun i => ?_⟩
  have := h2 i
  rw [show ((nil : Tree).val i) = 0 from rfl] at this
  show ((t.val i : Int) : ZMod q) = _
  simpa using this

theorem insertOne {t t' : Tree} {i : Nat} {v : Int} (hi : Inv t) (h : t.insert i v = some t') :
    Inv t' ∧ ∀ j, t'.val j = if j = i then v else t.val j := by
  obtain ⟨t1, e1, i1, v1⟩ := treePut_inv (key := i) (value := v) (ins := setInsert) hi rfl
  unfold Tree.insert at h
  rw [e1] at h; cases h
  exact ⟨i1, v1⟩

/-! ### rows -/

/-- `v` at position `i` -/
abbrev unitAt (i : Nat) (v : Int) : Nat → Int := fun j => if j = i then v else 0

/-- the entries of the row of a gate (after the swap) -/
def rowCoef (m : IndexMap) (g : Gate) : Row (Nat → Int) :=
  match g.typ with
  | .mult => ⟨coef m g.left, coef m g.right, fun _ => 0, coef m g.out⟩
  | .scalarBase => ⟨fun _ => 0, fun _ => 0, coef m g.expo, unitAt (m.get g.ident) 1⟩
  | .equality => ⟨coef m g.left, unitAt 0 1, fun _ => 0, coef m g.right⟩
  | .zeroOrOne => ⟨fun j => if j = m.get g.ident then 1 else unitAt 0 (-1) j, unitAt (m.get g.ident) 1, fun _ => 0, fun _ => 0⟩
  | .addition => ⟨coef m g.left, unitAt 0 1, fun _ => 0, coef m g.out⟩
  | .sumCheck => ⟨coef m g.left, unitAt 0 1, fun _ => 0, unitAt (m.get g.arith.ident) 1⟩

theorem swapLonger_typ (g : Gate) : (swapLonger g).typ = g.typ := by unfold swapLonger; split <;> rfl

theorem swapLonger_ok {m : IndexMap} {g : Gate} (h : GateOK m g) : GateOK m (swapLonger g) := by
  unfold swapLonger
  split
  · rename_i hl
    refine ⟨h.right, h.left, h.expo, h.out, fun ht => ?_, h.wire, h.split⟩
    rw [h.shape ht] at hl
    simp at hl
  · exact h

theorem swapLonger_holds {gx : ZMod q → ZMod q} {ν : Name → ZMod q} {m : IndexMap} {g : Gate} (h : GateOK m g) :
    GateHolds gx ν (swapLonger g) ↔ GateHolds gx ν g := by
  unfold swapLonger
  split
  · rename_i hl
    cases ht : g.typ with
    | mult => simp only [GateHolds, ht]; rw [mul_comm]
    | equality => simp only [GateHolds, ht]; exact eq_comm
    | scalarBase => simp only [GateHolds, ht]
    | zeroOrOne => simp only [GateHolds, ht]
    | addition => rw [h.shape (Or.inl ht)] at hl; simp at hl
    | sumCheck => rw [h.shape (Or.inr ht)] at hl; simp at hl
  · exact Iff.rfl

/-- positions of the factors of a form that was written successfully -/
theorem pos_lt_of_formDense {m : IndexMap} (hm : GoodIndex m) (h0 : 0 < m.length) : ∀ (f : Factors) (arr arr' : List Int),
    f.foldlM (insertDense m) arr = some arr' → ∀ x ∈ f, pos m x < m.length := by
  intro f
  induction f with
  | nil => intro _ _ _ x hx; cases hx
  | cons y ys ih =>
    intro arr arr' h x hx
    rw [List.foldlM_cons] at h
    cases hy : insertDense m arr y with
    | none => simp [hy] at h
    | some a =>
      simp only [hy, Option.bind_eq_bind, Option.bind_some] at h
      rcases List.mem_cons.mp hx with rfl | hx
      · unfold insertDense at hy
        unfold pos
        split
        · exact h0
        · rename_i hn
          rw [if_neg hn] at hy
          by_cases hh : m.has x.tok.ident = true
          · exact hm.lt _ hh
          · rw [if_neg hh] at hy; cases hy
      · exact ih a arr' h x hx

theorem pos_lt_of_formSparse {m : IndexMap} (hm : GoodIndex m) (h0 : 0 < m.length) : ∀ (f : Factors) (t t' : Tree),
    f.foldlM (insertSparse q m) t = some t' → ∀ x ∈ f, pos m x < m.length := by
  intro f
  induction f with
  | nil => intro _ _ _ x hx; cases hx
  | cons y ys ih =>
    intro arr arr' h x hx
    rw [List.foldlM_cons] at h
    cases hy : insertSparse q m arr y with
    | none => simp [hy] at h
    | some a =>
      simp only [hy, Option.bind_eq_bind, Option.bind_some] at h
      rcases List.mem_cons.mp hx with rfl | hx
      · unfold insertSparse at hy
        unfold pos
        split
        · exact h0
        · rename_i hn
          by_cases hh : m.has x.tok.ident = true
          · exact hm.lt _ hh
          · simp [hn, hh] at hy
      · exact ih a arr' h x hx

/-- the forms of the gate (the ones its row uses) have positions inside the witness -/
def GateLt (m : IndexMap) (g : Gate) : Prop := match g.typ with
  | .mult => (∀ x ∈ g.left, pos m x < m.length) ∧ (∀ x ∈ g.right, pos m x < m.length) ∧ (∀ x ∈ g.out, pos m x < m.length)
  | .scalarBase => ∀ x ∈ g.expo, pos m x < m.length
  | .equality => (∀ x ∈ g.left, pos m x < m.length) ∧ (∀ x ∈ g.right, pos m x < m.length)
  | .zeroOrOne => True
  | .addition => (∀ x ∈ g.left, pos m x < m.length) ∧ (∀ x ∈ g.out, pos m x < m.length)
  | .sumCheck => ∀ x ∈ g.left, pos m x < m.length

theorem rowDense_coef {m : IndexMap} {g : Gate} {row : Row (List Int)} (hm : GoodIndex m) (h0 : 0 < m.length)
    (hg : GateOK m g) (h : rowDense m g = some row) :
    GateLt m (swapLonger g) ∧ (∀ i, denseEntry row.L i = (rowCoef m (swapLonger g)).L i) ∧
    (∀ i, denseEntry row.R i = (rowCoef m (swapLonger g)).R i) ∧
    (∀ i, denseEntry row.E i = (rowCoef m (swapLonger g)).E i) ∧
    (∀ i, denseEntry row.O i = (rowCoef m (swapLonger g)).O i) := by
  have hs := swapLonger_ok hg
  unfold rowDense at h
  simp only [] at h
  generalize hgg : swapLonger g = g' at h hs ⊢
  have hz : ∀ i, denseEntry (List.replicate m.length 0) i = 0 := denseEntry_replicate _
  have P := fun f arr h => pos_lt_of_formDense hm h0 f (List.replicate m.length 0) arr h
  cases ht : g'.typ with
  | mult =>
    simp only [ht] at h
    cases ha : formDense m g'.left with
    | none => simp [ha] at h
    | some a =>
      cases hb : formDense m g'.right with
      | none => simp [ha, hb] at h
      | some b =>
        cases hc : formDense m g'.out with
        | none => simp [ha, hb, hc] at h
        | some c =>
          simp [ha, hb, hc] at h
          subst h
          simp only [GateLt, rowCoef, ht]
          exact ⟨⟨P _ _ ha, P _ _ hb, P _ _ hc⟩, formDense_entry (P _ _ ha) hs.left ha,
            formDense_entry (P _ _ hb) hs.right hb, hz, formDense_entry (P _ _ hc) hs.out hc⟩
  | scalarBase =>
    simp only [ht] at h
    cases ha : formDense m g'.expo with
    | none => simp [ha] at h
    | some a =>
      simp [ha] at h
      subst h
      simp only [GateLt, rowCoef, ht]
      exact ⟨P _ _ ha, hz, hz, formDense_entry (P _ _ ha) hs.expo ha,
        unitDense_entry (hm.lt _ (hs.wire (Or.inl ht)).1) 1⟩
  | equality =>
    simp only [ht] at h
    cases ha : formDense m g'.left with
    | none => simp [ha] at h
    | some a =>
      cases hc : formDense m g'.right with
      | none => simp [ha, hc] at h
      | some c =>
        simp [ha, hc] at h
        subst h
        simp only [GateLt, rowCoef, ht]
        exact ⟨⟨P _ _ ha, P _ _ hc⟩, formDense_entry (P _ _ ha) hs.left ha, unitDense_entry h0 1, hz,
          formDense_entry (P _ _ hc) hs.right hc⟩
  | zeroOrOne =>
    simp only [ht, Option.some.injEq] at h
    subst h
    simp only [GateLt, rowCoef, ht]
    refine ⟨trivial, fun i => ?_, unitDense_entry (hm.lt _ (hs.wire (Or.inr ht)).1) 1, hz, hz⟩
    rw [denseEntry_set, unitDense_entry h0]
    simp only [unitDense, List.length_set, List.length_replicate]
    exact hm.lt _ (hs.wire (Or.inr ht)).1
  | addition =>
    simp only [ht] at h
    cases ha : formDense m g'.left with
    | none => simp [ha] at h
    | some a =>
      cases hc : formDense m g'.out with
      | none => simp [ha, hc] at h
      | some c =>
        simp [ha, hc] at h
        subst h
        simp only [GateLt, rowCoef, ht]
        exact ⟨⟨P _ _ ha, P _ _ hc⟩, formDense_entry (P _ _ ha) hs.left ha, unitDense_entry h0 1, hz,
          formDense_entry (P _ _ hc) hs.out hc⟩
  | sumCheck =>
    simp only [ht] at h
    cases ha : formDense m g'.left with
    | none => simp [ha] at h
    | some a =>
      simp [ha] at h
      subst h
      simp only [GateLt, rowCoef, ht]
      exact ⟨P _ _ ha, formDense_entry (P _ _ ha) hs.left ha, unitDense_entry h0 1, hz,
        unitDense_entry (hm.lt _ (hs.split ht)) 1⟩

theorem insert_unit {t : Tree} {i : Nat} {v : Int} (h : nil.insert i v = some t) :
    ∀ j, ((sparseEntry t j : Int) : ZMod q) = ((unitAt i v j : Int) : ZMod q) := by
  intro j
  show ((t.val j : Int) : ZMod q) = _
  rw [(insertOne inv_nil h).2 j]
  rfl

theorem rowSparse_coef {m : IndexMap} {g : Gate} {row : Row Tree} (hm : GoodIndex m) (h0 : 0 < m.length)
    (hnum : NumsOK m g) (h : rowSparse q m g = some row) :
    GateLt m (swapLonger g) ∧ (∀ i, ((sparseEntry row.L i : Int) : ZMod q) = ((rowCoef m (swapLonger g)).L i : ZMod q)) ∧
    (∀ i, ((sparseEntry row.R i : Int) : ZMod q) = ((rowCoef m (swapLonger g)).R i : ZMod q)) ∧
    (∀ i, ((sparseEntry row.E i : Int) : ZMod q) = ((rowCoef m (swapLonger g)).E i : ZMod q)) ∧
    (∀ i, ((sparseEntry row.O i : Int) : ZMod q) = ((rowCoef m (swapLonger g)).O i : ZMod q)) := by
  have hs : NumsOK m (swapLonger g) := by
    unfold swapLonger
    split
    · exact ⟨hnum.right, hnum.left, hnum.expo, hnum.out⟩
    · exact hnum
  unfold rowSparse at h
  simp only [] at h
  generalize hgg : swapLonger g = g' at h hs ⊢
  have hz : ∀ i, ((sparseEntry nil i : Int) : ZMod q) = ((0 : Int) : ZMod q) := fun i => rfl
  have P := fun f t h => pos_lt_of_formSparse (q := q) hm h0 f nil t h
  have E := fun f t hn h => (formSparse_entry (q := q) (m := m) (f := f) (t := t) hn h).2
  cases ht : g'.typ with
  | mult =>
    simp only [ht] at h
    cases ha : formSparse q m g'.left with
    | none => simp [ha] at h
    | some a =>
      cases hb : formSparse q m g'.right with
      | none => simp [ha, hb] at h
      | some b =>
        cases hc : formSparse q m g'.out with
        | none => simp [ha, hb, hc] at h
        | some c =>
          simp [ha, hb, hc] at h
          subst h
          simp only [GateLt, rowCoef, ht]
          exact ⟨⟨P _ _ ha, P _ _ hb, P _ _ hc⟩, E _ _ hs.left ha, E _ _ hs.right hb, hz, E _ _ hs.out hc⟩
  | scalarBase =>
    simp only [ht] at h
    cases ha : formSparse q m g'.expo with
    | none => simp [ha] at h
    | some a =>
      cases hb : nil.insert (m.get g'.ident) 1 with
      | none => simp [ha, hb] at h
      | some b =>
        simp [ha, hb] at h
        subst h
        simp only [GateLt, rowCoef, ht]
        exact ⟨P _ _ ha, hz, hz, E _ _ hs.expo ha, insert_unit hb⟩
  | equality =>
    simp only [ht] at h
    cases ha : formSparse q m g'.left with
    | none => simp [ha] at h
    | some a =>
      cases hc : formSparse q m g'.right with
      | none => simp [ha, hc] at h
      | some c =>
        cases hb : nil.insert 0 1 with
        | none => simp [ha, hb, hc] at h
        | some b =>
          simp [ha, hb, hc] at h
          subst h
          simp only [GateLt, rowCoef, ht]
          exact ⟨⟨P _ _ ha, P _ _ hc⟩, E _ _ hs.left ha, insert_unit hb, hz, E _ _ hs.right hc⟩
  | zeroOrOne =>
    simp only [ht] at h
    cases ha : nil.insert 0 (-1) with
    | none => simp [ha] at h
    | some a =>
      cases hb : a.insert (m.get g'.ident) 1 with
      | none => simp [ha, hb] at h
      | some b =>
        cases hc : nil.insert (m.get g'.ident) 1 with
        | none => simp [ha, hb, hc] at h
        | some c =>
          simp [ha, hb, hc] at h
          subst h
          simp only [GateLt, rowCoef, ht]
          refine ⟨trivial, fun i => ?_, insert_unit hc, hz, hz⟩
          obtain ⟨ia, va⟩ := insertOne inv_nil ha
          show ((b.val i : Int) : ZMod q) = _
          rw [(insertOne ia hb).2 i, va]
          rfl
  | addition =>
    simp only [ht] at h
    cases ha : formSparse q m g'.left with
    | none => simp [ha] at h
    | some a =>
      cases hb : nil.insert 0 1 with
      | none => simp [ha, hb] at h
      | some b =>
        cases hc : formSparse q m g'.out with
        | none => simp [ha, hb, hc] at h
        | some c =>
          simp [ha, hb, hc] at h
          subst h
          simp only [GateLt, rowCoef, ht]
          exact ⟨⟨P _ _ ha, P _ _ hc⟩, E _ _ hs.left ha, insert_unit hb, hz, E _ _ hs.out hc⟩
  | sumCheck =>
    simp only [ht] at h
    cases ha : formSparse q m g'.left with
    | none => simp [ha] at h
    | some a =>
      cases hb : nil.insert 0 1 with
      | none => simp [ha, hb] at h
      | some b =>
        cases hc : nil.insert (m.get g'.arith.ident) 1 with
        | none => simp [ha, hb, hc] at h
        | some c =>
          simp [ha, hb, hc] at h
          subst h
          simp only [GateLt, rowCoef, ht]
          exact ⟨P _ _ ha, E _ _ hs.left ha, insert_unit hb, hz, insert_unit hc⟩

theorem rowCoef_sat [Fact q.Prime] {gx : ZMod q → ZMod q} (hgx : gx 0 = 0) {m : IndexMap} (hm : GoodIndex m)
    {g : Gate} (hg : GateOK m g) (hl : GateLt m g) {w : List Int} (hw : w.length = m.length)
    (h1 : ((w.getD 0 0 : Int) : ZMod q) = 1) :
    RowSat q gx (rowCoef m g).L (rowCoef m g).R (rowCoef m g).E (rowCoef m g).O w ↔ GateHolds gx (valsOf q m w) g := by
  have h0 : 0 < w.length := by
    rw [Nat.pos_iff_ne_zero]
    intro hc
    rw [List.length_eq_zero_iff] at hc
    subst hc
    simp at h1
  have hd : ∀ f : Factors, (∀ x ∈ f, pos m x < m.length) → dot q (coef m f) w = formVal (valsOf q m w) f :=
    fun f hf => dot_coef h1 f (by rw [hw]; exact hf)
  have hu : dot q (unitAt 0 1) w = 1 := by rw [dot_unit h0, h1]; simp
  unfold RowSat
  cases ht : g.typ with
  | mult =>
    simp only [GateLt, ht] at hl
    simp only [rowCoef, GateHolds, ht]
    rw [hd _ hl.1, hd _ hl.2.1, hd _ hl.2.2, dot_zero, hgx, add_zero]
  | scalarBase =>
    simp only [GateLt, ht] at hl
    simp only [rowCoef, GateHolds, ht]
    rw [hd _ hl, dot_zero, dot_unit (by rw [hw]; exact hm.lt _ (hg.wire (Or.inl ht)).1)]
    simp [valsOf]
  | equality =>
    simp only [GateLt, ht] at hl
    simp only [rowCoef, GateHolds, ht]
    rw [hd _ hl.1, hd _ hl.2, hu, dot_zero, hgx]
    simp
  | zeroOrOne =>
    simp only [rowCoef, GateHolds, ht]
    obtain ⟨w1, w2⟩ := hg.wire (Or.inr ht)
    have hlt : m.get g.ident < w.length := by rw [hw]; exact hm.lt _ w1
    have e : dot q (fun j => if j = m.get g.ident then 1 else unitAt 0 (-1) j) w =
        dot q (unitAt (m.get g.ident) 1) w + dot q (unitAt 0 (-1)) w := by
      unfold dot
      rw [← Finset.sum_add_distrib]
      refine Finset.sum_congr rfl fun i _ => ?_
      rw [← add_mul]
      congr 1
      by_cases hi : i = m.get g.ident
      · simp [hi, w2]
      · simp [hi]
    rw [e, dot_zero, dot_unit hlt, dot_unit h0, h1, hgx, add_zero]
    simp only [Int.cast_one, one_mul, valsOf, Int.cast_neg, mul_one, mul_eq_zero]
    constructor
    · rintro (h | h)
      · right; linear_combination h
      · left; exact h
    · rintro (h | h)
      · right; exact h
      · left; rw [h]; ring
  | addition =>
    simp only [GateLt, ht] at hl
    simp only [rowCoef, GateHolds, ht]
    rw [hd _ hl.1, hd _ hl.2, hu, dot_zero, hgx]
    simp
  | sumCheck =>
    simp only [GateLt, ht] at hl
    simp only [rowCoef, GateHolds, ht]
    rw [hd _ hl, hu, dot_zero, hgx, dot_unit (by rw [hw]; exact hm.lt _ (hg.split ht))]
    simp [valsOf]

theorem rowSat_congr {gx : ZMod q → ZMod q} {L R E O L' R' E' O' : Nat → Int} {w : List Int}
    (hL : ∀ i, (L i : ZMod q) = (L' i : ZMod q)) (hR : ∀ i, (R i : ZMod q) = (R' i : ZMod q))
    (hE : ∀ i, (E i : ZMod q) = (E' i : ZMod q)) (hO : ∀ i, (O i : ZMod q) = (O' i : ZMod q)) :
    RowSat q gx L R E O w ↔ RowSat q gx L' R' E' O' w := by
  unfold RowSat
  rw [dot_congr fun i _ => hL i, dot_congr fun i _ => hR i, dot_congr fun i _ => hE i, dot_congr fun i _ => hO i]

theorem rowDense_sat [Fact q.Prime] {gx : ZMod q → ZMod q} (hgx : gx 0 = 0) {m : IndexMap} (hm : GoodIndex m)
    (h0 : 0 < m.length) {g : Gate} (hg : GateOK m g) {row : Row (List Int)} (h : rowDense m g = some row) {w : List Int}
    (hw : w.length = m.length) (h1 : ((w.getD 0 0 : Int) : ZMod q) = 1) :
    RowSat q gx (denseEntry row.L) (denseEntry row.R) (denseEntry row.E) (denseEntry row.O) w ↔
      GateHolds gx (valsOf q m w) g := by
  obtain ⟨hl, a, b, c, d⟩ := rowDense_coef hm h0 hg h
  rw [← swapLonger_holds hg, ← rowCoef_sat hgx hm (swapLonger_ok hg) hl hw h1]
  exact rowSat_congr (fun i => by rw [a]) (fun i => by rw [b]) (fun i => by rw [c]) (fun i => by rw [d])

theorem rowSparse_sat [Fact q.Prime] {gx : ZMod q → ZMod q} (hgx : gx 0 = 0) {m : IndexMap} (hm : GoodIndex m)
    (h0 : 0 < m.length) {g : Gate} (hg : GateOK m g) (hn : NumsOK m g) {row : Row Tree} (h : rowSparse q m g = some row)
    {w : List Int} (hw : w.length = m.length) (h1 : ((w.getD 0 0 : Int) : ZMod q) = 1) :
    RowSat q gx (sparseEntry row.L) (sparseEntry row.R) (sparseEntry row.E) (sparseEntry row.O) w ↔
      GateHolds gx (valsOf q m w) g := by
  obtain ⟨hl, a, b, c, d⟩ := rowSparse_coef hm h0 hn h
  rw [← swapLonger_holds hg, ← rowCoef_sat hgx hm (swapLonger_ok hg) hl hw h1]
  exact rowSat_congr a b c d

end APS.Circuit
