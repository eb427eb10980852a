import Verif.Proofs.EndToEnd
import Verif.Proofs.Witness

/-! The forms written into the rows, uniformly for all gate types and for the dense and the sparse generator. -/
namespace APS.Circuit
open APS.Spec APS.Avl APS.Avl.Tree

variable {q : Nat}

/-- the linear forms in the row of a gate (after the swap) -/
def rowForms (g : Gate) : Row Factors :=
  match g.typ with
  | .mult => ⟨g.left, g.right, [], g.out⟩
  | .scalarBase => ⟨[], [], g.expo, [argF g.ident 1]⟩
  | .equality => ⟨g.left, [numF 1], [], g.right⟩
  | .zeroOrOne => ⟨[numF (-1), argF g.ident 1], [argF g.ident 1], [], []⟩
  | .addition => ⟨g.left, [numF 1], [], g.out⟩
  | .sumCheck => ⟨g.left, [numF 1], [], [argF g.arith.ident 1]⟩

/-- the forms of the randomizer row -/
def randForms : Row Factors := ⟨[argF randIn 1], [argF randIn 1], [argF randIn 1], [argF randOut 1]⟩

/-- `e` are the entries that the form `f` writes -/
structure Side (q : Nat) (m : IndexMap) (f : Factors) (e : Nat → Int) : Prop where
  supp : ∀ j, e j ≠ 0 → ∃ x ∈ f, pos m x = j
  val : ∀ j, (e j : ZMod q) = (coef m f j : ZMod q)

/-- the row has the entries of the four forms -/
structure RowIs (q : Nat) (m : IndexMap) (F : Row Factors) {α : Type} (entry : α → Nat → Int) (ok : α → Prop) (row : Row α) :
    Prop where
  L : Side q m F.L (entry row.L)
  R : Side q m F.R (entry row.R)
  E : Side q m F.E (entry row.E)
  O : Side q m F.O (entry row.O)
  ok : OkRow ok row

theorem side_of_coef {m : IndexMap} {f : Factors} {e : Nat → Int} (h : ∀ j, e j = coef m f j) : Side q m f e := by
  refine ⟨fun j hj => ?_, fun j => by rw [h]⟩
  by_contra hn
  push Not at hn
  refine hj ?_
  rw [h, coef_of_not_mem]
  intro hm
  obtain ⟨x, hx, he⟩ := List.mem_map.mp hm
  exact hn x hx he

theorem coef_argF (m : IndexMap) (n : Name) (v : Int) (j : Nat) : coef m [argF n v] j = if j = m.get n then v else 0 := by
  simp only [coef, pos, argF, List.map_cons, List.map_nil, List.sum_cons, List.sum_nil, Bool.false_eq_true, if_false, add_zero]
  by_cases h : j = m.get n
  · simp [h]
  · rw [if_neg h, if_neg (Ne.symm h)]

theorem coef_numF (m : IndexMap) (v : Int) (j : Nat) : coef m [numF v] j = if j = 0 then v else 0 := by
  simp only [coef, pos, numF, List.map_cons, List.map_nil, List.sum_cons, List.sum_nil, if_true, add_zero]
  by_cases h : j = 0
  · simp [h]
  · rw [if_neg h, if_neg (Ne.symm h)]

theorem coef_zo (m : IndexMap) (n : Name) (h : m.get n ≠ 0) (j : Nat) :
    coef m [numF (-1), argF n 1] j = if j = m.get n then 1 else if j = 0 then -1 else 0 := by
  simp only [coef, pos, numF, argF, List.map_cons, List.map_nil, List.sum_cons, List.sum_nil, if_true, Bool.false_eq_true, if_false]
  by_cases h1 : j = m.get n
  · subst h1
    simp [Ne.symm h]
  · by_cases h2 : j = 0
    · subst h2; simp [h, Ne.symm h]
    · simp [h1, h2, Ne.symm h1, Ne.symm h2]

/-! ### dense -/

/-- a dense side -/
structure SideD (q : Nat) (m : IndexMap) (f : Factors) (a : List Int) : Prop where
  len : a.length = m.length
  side : Side q m f (denseEntry a)

theorem sideD_form {m : IndexMap} (hm : GoodIndex m) (h0 : 0 < m.length) {f : Factors} {a : List Int} (hd : Distinct m f)
    (h : formDense m f = some a) : SideD q m f a := by
  have hlt := pos_lt_of_formDense hm h0 f _ a h
  obtain ⟨h1, -⟩ := formDense_loop f (List.replicate m.length 0) a (by simpa using hlt) hd
    (fun x _ => denseEntry_replicate _ _) h
  exact ⟨by simpa using h1, side_of_coef (formDense_entry hlt hd h)⟩

theorem sideD_zero (m : IndexMap) : SideD q m [] (List.replicate m.length 0) :=
  ⟨by simp, side_of_coef fun j => by rw [denseEntry_replicate]; rfl⟩

theorem sideD_unit {m : IndexMap} {n : Name} (hn : m.get n < m.length) : SideD q m [argF n 1] (unitDense m (m.get n) 1) :=
  ⟨by simp [unitDense], side_of_coef fun j => by rw [unitDense_entry hn, coef_argF]⟩

theorem sideD_one {m : IndexMap} (h0 : 0 < m.length) : SideD q m [numF 1] (unitDense m 0 1) :=
  ⟨by simp [unitDense], side_of_coef fun j => by rw [unitDense_entry h0, coef_numF]⟩

theorem rowIsD {m : IndexMap} {F : Row Factors} {row : Row (List Int)} (hL : SideD q m F.L row.L) (hR : SideD q m F.R row.R)
    (hE : SideD q m F.E row.E) (hO : SideD q m F.O row.O) : RowIs q m F denseEntry (fun a => a.length = m.length) row :=
  ⟨hL.side, hR.side, hE.side, hO.side, hL.len, hR.len, hE.len, hO.len⟩

theorem rowDense_is {m : IndexMap} {g : Gate} {row : Row (List Int)} (hm : GoodIndex m) (h0 : 0 < m.length)
    (hg : GateOK m g) (h : rowDense m g = some row) :
    RowIs q m (rowForms (swapLonger g)) denseEntry (fun a => a.length = m.length) row := by
  have hs := swapLonger_ok hg
  unfold rowDense at h
  simp only [] at h
  generalize hgg : swapLonger g = g' at h hs ⊢
  cases ht : g'.typ with
  | mult =>
    simp only [ht] at h
    obtain ⟨a, ha, h⟩ := Option.bind_eq_some_iff.mp h
    obtain ⟨b, hb, h⟩ := Option.bind_eq_some_iff.mp h
    obtain ⟨c, hc, h⟩ := Option.bind_eq_some_iff.mp h
    cases h
    simp only [rowForms, ht]
    exact rowIsD (sideD_form hm h0 hs.left ha) (sideD_form hm h0 hs.right hb) (sideD_zero m) (sideD_form hm h0 hs.out hc)
  | scalarBase =>
    simp only [ht] at h
    obtain ⟨a, ha, h⟩ := Option.bind_eq_some_iff.mp h
    cases h
    simp only [rowForms, ht]
    exact rowIsD (sideD_zero m) (sideD_zero m) (sideD_form hm h0 hs.expo ha) (sideD_unit (hm.lt _ (hs.wire (Or.inl ht)).1))
  | equality =>
    simp only [ht] at h
    obtain ⟨a, ha, h⟩ := Option.bind_eq_some_iff.mp h
    obtain ⟨c, hc, h⟩ := Option.bind_eq_some_iff.mp h
    cases h
    simp only [rowForms, ht]
    exact rowIsD (sideD_form hm h0 hs.left ha) (sideD_one h0) (sideD_zero m) (sideD_form hm h0 hs.right hc)
  | zeroOrOne =>
    simp only [ht, Option.some.injEq] at h
    subst h
    simp only [rowForms, ht]
    obtain ⟨w1, w2⟩ := hs.wire (Or.inr ht)
    have hlt := hm.lt _ w1
    refine rowIsD ⟨by simp [unitDense], side_of_coef fun j => ?_⟩ (sideD_unit hlt) (sideD_zero m) (sideD_zero m)
    rw [denseEntry_set (by simpa [unitDense] using hlt), unitDense_entry h0, coef_zo m _ w2]
  | addition =>
    simp only [ht] at h
    obtain ⟨a, ha, h⟩ := Option.bind_eq_some_iff.mp h
    obtain ⟨c, hc, h⟩ := Option.bind_eq_some_iff.mp h
    cases h
    simp only [rowForms, ht]
    exact rowIsD (sideD_form hm h0 hs.left ha) (sideD_one h0) (sideD_zero m) (sideD_form hm h0 hs.out hc)
  | sumCheck =>
    simp only [ht] at h
    obtain ⟨a, ha, h⟩ := Option.bind_eq_some_iff.mp h
    cases h
    simp only [rowForms, ht]
    exact rowIsD (sideD_form hm h0 hs.left ha) (sideD_one h0) (sideD_zero m) (sideD_unit (hm.lt _ (hs.split ht)))

theorem randDense_is {m : IndexMap} {row : Row (List Int)} (hm : GoodIndex m) (h0 : 0 < m.length)
    (h : randRowDense m = some row) : RowIs q m randForms denseEntry (fun a => a.length = m.length) row := by
  unfold randRowDense at h
  obtain ⟨a, ha, h⟩ := Option.bind_eq_some_iff.mp h
  obtain ⟨b, hb, h⟩ := Option.bind_eq_some_iff.mp h
  cases h
  have hd : ∀ n, Distinct m [argF n 1] := fun n => by simp [Distinct]
  have hi := sideD_form (q := q) hm h0 (hd _) ha
  exact rowIsD hi hi hi (sideD_form hm h0 (hd _) hb)

/-! ### sparse -/

/-- a sparse side -/
structure SideS (q : Nat) (m : IndexMap) (f : Factors) (t : Tree) : Prop where
  ok : OkTree m.length t
  side : Side q m f (sparseEntry t)

theorem formSparse_supp {m : IndexMap} : ∀ (f : Factors) (t t' : Tree), Inv t → NumAtZero m f →
    f.foldlM (insertSparse q m) t = some t' → ∀ j, t'.val j ≠ 0 → t.val j ≠ 0 ∨ ∃ x ∈ f, pos m x = j := by
  intro f
  induction f with
  | nil => intro t t' hi _ h j hj; simp at h; subst h; exact Or.inl hj
  | cons x xs ih =>
    intro t t' hi hn h j hj
    rw [List.foldlM_cons] at h
    have hp : m.get x.tok.ident = pos m x := by
      unfold pos
      by_cases hx : x.tok.isNum = true
      · rw [if_pos hx]; exact hn x List.mem_cons_self hx
      · rw [if_neg hx]
    obtain ⟨t1, e1, i1, v1⟩ := treePut_inv (key := pos m x) (value := x.mul) (ins := Sparse.addCb q) hi rfl
    have hx : insertSparse q m t x = none ∨ insertSparse q m t x = some t1 := by
      unfold insertSparse
      split
      · exact Or.inl rfl
      · rw [hp, e1]; exact Or.inr rfl
    rcases hx with hx | hx
    · simp [hx] at h
    · simp only [hx, Option.bind_eq_bind, Option.bind_some] at h
      rcases ih t1 t' i1 (fun y hy => hn y (List.mem_cons_of_mem _ hy)) h j hj with h' | ⟨y, hy, he⟩
      · by_cases hjx : j = pos m x
        · exact Or.inr ⟨x, List.mem_cons_self, hjx.symm⟩
        · rw [v1, if_neg hjx] at h'
          exact Or.inl h'
      · exact Or.inr ⟨y, List.mem_cons_of_mem _ hy, he⟩

theorem sideS_form {m : IndexMap} (hm : GoodIndex m) (h0 : 0 < m.length) {f : Factors} {t : Tree} (hn : NumAtZero m f)
    (h : formSparse q m f = some t) : SideS q m f t := by
  have hlt := pos_lt_of_formSparse hm h0 f _ t h
  obtain ⟨h1, h2⟩ := formSparse_entry hn h
  have hs : ∀ j, t.val j ≠ 0 → ∃ x ∈ f, pos m x = j := fun j hj =>
    (formSparse_supp f nil t inv_nil hn h j hj).resolve_left (fun h => h rfl)
  refine ⟨⟨h1, fun k hk => ?_⟩, hs, h2⟩
  obtain ⟨x, hx, rfl⟩ := hs k hk
  exact hlt x hx

theorem sideS_nil (m : IndexMap) : SideS q m [] nil :=
  ⟨⟨inv_nil, fun k hk => absurd rfl hk⟩, side_of_coef fun j => rfl⟩

theorem sideS_of_val {m : IndexMap} {f : Factors} {t : Tree} (hi : Inv t) (h : ∀ j, t.val j = coef m f j)
    (hlt : ∀ x ∈ f, pos m x < m.length) : SideS q m f t := by
  have := side_of_coef (q := q) (m := m) (f := f) (e := sparseEntry t) h
  refine ⟨⟨hi, fun k hk => ?_⟩, this⟩
  obtain ⟨x, hx, rfl⟩ := this.supp k hk
  exact hlt x hx

theorem sideS_unit {m : IndexMap} {n : Name} (hn : m.get n < m.length) {t : Tree} (h : nil.insert (m.get n) 1 = some t) :
    SideS q m [argF n 1] t := by
  obtain ⟨h1, h2⟩ := insertOne inv_nil h
  exact sideS_of_val h1 (fun j => by rw [h2, coef_argF]; rfl) (by simp [pos, argF, hn])

theorem sideS_one {m : IndexMap} (h0 : 0 < m.length) {t : Tree} (h : nil.insert 0 1 = some t) : SideS q m [numF 1] t := by
  obtain ⟨h1, h2⟩ := insertOne inv_nil h
  exact sideS_of_val h1 (fun j => by rw [h2, coef_numF]; rfl) (by simp [pos, numF, h0])

theorem rowIsS {m : IndexMap} {F : Row Factors} {row : Row Tree} (hL : SideS q m F.L row.L) (hR : SideS q m F.R row.R)
    (hE : SideS q m F.E row.E) (hO : SideS q m F.O row.O) : RowIs q m F sparseEntry (OkTree m.length) row :=
  ⟨hL.side, hR.side, hE.side, hO.side, hL.ok, hR.ok, hE.ok, hO.ok⟩

theorem rowSparse_is {m : IndexMap} {g : Gate} {row : Row Tree} (hm : GoodIndex m) (h0 : 0 < m.length)
    (hg : GateOK m g) (hnum : NumsOK m g) (h : rowSparse q m g = some row) :
    RowIs q m (rowForms (swapLonger g)) sparseEntry (OkTree m.length) row := by
  have hs := swapLonger_ok hg
  have hn : NumsOK m (swapLonger g) := by
    unfold swapLonger
    split
    · exact ⟨hnum.right, hnum.left, hnum.expo, hnum.out⟩
    · exact hnum
  unfold rowSparse at h
  simp only [] at h
  generalize hgg : swapLonger g = g' at h hs hn ⊢
  cases ht : g'.typ with
  | mult =>
    simp only [ht] at h
    obtain ⟨a, ha, h⟩ := Option.bind_eq_some_iff.mp h
    obtain ⟨b, hb, h⟩ := Option.bind_eq_some_iff.mp h
    obtain ⟨c, hc, h⟩ := Option.bind_eq_some_iff.mp h
    cases h
    simp only [rowForms, ht]
    exact rowIsS (sideS_form hm h0 hn.left ha) (sideS_form hm h0 hn.right hb) (sideS_nil m) (sideS_form hm h0 hn.out hc)
  | scalarBase =>
    simp only [ht] at h
    obtain ⟨a, ha, h⟩ := Option.bind_eq_some_iff.mp h
    obtain ⟨c, hc, h⟩ := Option.bind_eq_some_iff.mp h
    cases h
    simp only [rowForms, ht]
    exact rowIsS (sideS_nil m) (sideS_nil m) (sideS_form hm h0 hn.expo ha) (sideS_unit (hm.lt _ (hs.wire (Or.inl ht)).1) hc)
  | equality =>
    simp only [ht] at h
    obtain ⟨a, ha, h⟩ := Option.bind_eq_some_iff.mp h
    obtain ⟨c, hc, h⟩ := Option.bind_eq_some_iff.mp h
    obtain ⟨b, hb, h⟩ := Option.bind_eq_some_iff.mp h
    cases h
    simp only [rowForms, ht]
    exact rowIsS (sideS_form hm h0 hn.left ha) (sideS_one h0 hb) (sideS_nil m) (sideS_form hm h0 hn.right hc)
  | zeroOrOne =>
    simp only [ht] at h
    obtain ⟨a, ha, h⟩ := Option.bind_eq_some_iff.mp h
    obtain ⟨a', ha', h⟩ := Option.bind_eq_some_iff.mp h
    obtain ⟨b, hb, h⟩ := Option.bind_eq_some_iff.mp h
    cases h
    simp only [rowForms, ht]
    obtain ⟨w1, w2⟩ := hs.wire (Or.inr ht)
    have hlt := hm.lt _ w1
    obtain ⟨i1, v1⟩ := insertOne inv_nil ha
    obtain ⟨i2, v2⟩ := insertOne i1 ha'
    refine rowIsS (sideS_of_val i2 (fun j => ?_) ?_) (sideS_unit hlt hb) (sideS_nil m) (sideS_nil m)
    · rw [v2, v1, coef_zo m _ w2]; rfl
    · simp [pos, numF, argF, h0, hlt]
  | addition =>
    simp only [ht] at h
    obtain ⟨a, ha, h⟩ := Option.bind_eq_some_iff.mp h
    obtain ⟨b, hb, h⟩ := Option.bind_eq_some_iff.mp h
    obtain ⟨c, hc, h⟩ := Option.bind_eq_some_iff.mp h
    cases h
    simp only [rowForms, ht]
    exact rowIsS (sideS_form hm h0 hn.left ha) (sideS_one h0 hb) (sideS_nil m) (sideS_form hm h0 hn.out hc)
  | sumCheck =>
    simp only [ht] at h
    obtain ⟨a, ha, h⟩ := Option.bind_eq_some_iff.mp h
    obtain ⟨b, hb, h⟩ := Option.bind_eq_some_iff.mp h
    obtain ⟨c, hc, h⟩ := Option.bind_eq_some_iff.mp h
    cases h
    simp only [rowForms, ht]
    exact rowIsS (sideS_form hm h0 hn.left ha) (sideS_one h0 hb) (sideS_nil m) (sideS_unit (hm.lt _ (hs.split ht)) hc)

theorem randSparse_is {m : IndexMap} {row : Row Tree} (hm : GoodIndex m) (h0 : 0 < m.length)
    (h : randRowSparse q m = some row) : RowIs q m randForms sparseEntry (OkTree m.length) row := by
  unfold randRowSparse at h
  obtain ⟨a, ha, h⟩ := Option.bind_eq_some_iff.mp h
  obtain ⟨b, hb, h⟩ := Option.bind_eq_some_iff.mp h
  cases h
  have hd : ∀ n, NumAtZero m [argF n 1] := fun n => by simp [NumAtZero, argF]
  have hi := sideS_form (q := q) hm h0 (hd _) ha
  exact rowIsS hi hi hi (sideS_form hm h0 (hd _) hb)

end APS.Circuit
