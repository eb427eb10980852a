import Verif.Model.Heap
import Mathlib.Data.List.Infix
import Mathlib.Data.List.Basic

/-! Reading linear forms and gates out of the cells (Model/Heap.lean) gives the value model. -/
namespace APS.Alias
open APS.Circuit APS.Prog

/-- the address of a cell -/
def ok (cs : Cells) (a : Int) : Prop := 0 ≤ a ∧ a < cs.length
/-- all addresses are cells -/
def okFs (cs : Cells) (l : Factors) : Prop := ∀ f ∈ l, ok cs f.mul
def okGate (cs : Cells) (g : Gate) : Prop := okFs cs g.left ∧ okFs cs g.right ∧ okFs cs g.expo ∧ okFs cs g.out
def okSt (cs : Cells) (s : St) : Prop := ∀ g ∈ s.c.gates, okGate cs g
def okObj (cs : Cells) (f : FObj) : Prop := f.isNumber = true → ok cs f.value
def okMem (cs : Cells) (m : Mem) : Prop := ∀ f ∈ m.objs, okObj cs f

variable {cs cs' : Cells}

theorem ok.mono (h : cs <+: cs') {a : Int} (ha : ok cs a) : ok cs' a :=
  ⟨ha.1, by have := h.length_le; have := ha.2; omega⟩

theorem val_mono (h : cs <+: cs') {a : Int} (ha : ok cs a) : val cs' a = val cs a := by
  obtain ⟨t, rfl⟩ := h
  obtain ⟨h0, h1⟩ := ha
  unfold val
  rw [List.getD_eq_getElem?_getD, List.getD_eq_getElem?_getD, List.getElem?_append_left (by omega)]

theorem okFs.mono (h : cs <+: cs') {l : Factors} (hl : okFs cs l) : okFs cs' l := fun f hf => (hl f hf).mono h
theorem okGate.mono (h : cs <+: cs') {g : Gate} (hg : okGate cs g) : okGate cs' g :=
  ⟨hg.1.mono h, hg.2.1.mono h, hg.2.2.1.mono h, hg.2.2.2.mono h⟩
theorem okSt.mono (h : cs <+: cs') {s : St} (hs : okSt cs s) : okSt cs' s := fun g hg => (hs g hg).mono h
theorem okObj.mono (h : cs <+: cs') {f : FObj} (hf : okObj cs f) : okObj cs' f := fun e => (hf e).mono h
theorem okMem.mono (h : cs <+: cs') {m : Mem} (hm : okMem cs m) : okMem cs' m := fun f hf => (hm f hf).mono h

/-- two heaps that agree on the cells in use read the same -/
theorem rdFs_congr {l : Factors} (h : ∀ f ∈ l, val cs' f.mul = val cs f.mul) : rdFs cs' l = rdFs cs l :=
  List.map_congr_left fun f hf => by rw [rdF, rdF, h f hf]

theorem rdF_mono (h : cs <+: cs') {f : Factor} (hf : ok cs f.mul) : rdF cs' f = rdF cs f := by rw [rdF, rdF, val_mono h hf]
theorem rdFs_mono (h : cs <+: cs') {l : Factors} (hl : okFs cs l) : rdFs cs' l = rdFs cs l :=
  rdFs_congr fun f hf => val_mono h (hl f hf)
theorem rdGate_mono (h : cs <+: cs') {g : Gate} (hg : okGate cs g) : rdGate cs' g = rdGate cs g := by
  rw [rdGate, rdGate, rdFs_mono h hg.1, rdFs_mono h hg.2.1, rdFs_mono h hg.2.2.1, rdFs_mono h hg.2.2.2]
theorem rdSt_mono (h : cs <+: cs') {s : St} (hs : okSt cs s) : rdSt cs' s = rdSt cs s := by
  rw [rdSt, rdSt, List.map_congr_left fun g hg => rdGate_mono h (hs g hg)]
theorem rdObj_mono (h : cs <+: cs') {f : FObj} (hf : okObj cs f) : rdObj cs' f = rdObj cs f := by
  unfold rdObj
  split
  · rename_i e
    rw [val_mono h (hf e)]
  · rfl
theorem rdMem_mono (h : cs <+: cs') {m : Mem} (hm : okMem cs m) : rdMem cs' m = rdMem cs m := by
  rw [rdMem, rdMem, List.map_congr_left fun f hf => rdObj_mono h (hm f hf)]

@[simp] theorem okFs_nil : okFs cs [] := fun _ h => by cases h
@[simp] theorem okFs_cons {f : Factor} {l : Factors} : okFs cs (f :: l) ↔ ok cs f.mul ∧ okFs cs l := by
  simp [okFs]
theorem okFs_append {l r : Factors} : okFs cs (l ++ r) ↔ okFs cs l ∧ okFs cs r := by
  simp [okFs, or_imp, forall_and]
@[simp] theorem rdFs_nil : rdFs cs [] = [] := rfl
@[simp] theorem rdFs_cons {f : Factor} {l : Factors} : rdFs cs (f :: l) = rdF cs f :: rdFs cs l := rfl
theorem rdFs_append {l r : Factors} : rdFs cs (l ++ r) = rdFs cs l ++ rdFs cs r := List.map_append
@[simp] theorem rdFs_eq_nil {l : Factors} : rdFs cs l = [] ↔ l = [] := List.map_eq_nil_iff
@[simp] theorem rdF_tok {f : Factor} : (rdF cs f).tok = f.tok := rfl
@[simp] theorem rdF_mul {f : Factor} : (rdF cs f).mul = val cs f.mul := rfl
@[simp] theorem rdFs_length {l : Factors} : (rdFs cs l).length = l.length := List.length_map _

theorem isSingleNumber_rd {l : Factors} : isSingleNumber (rdFs cs l) = isSingleNumber l := by
  rcases l with _ | ⟨f, _ | ⟨g, l⟩⟩ <;> rfl

/-! ### the package variables -/

theorem val_bigOne (h : cells0 <+: cs) : val cs bigOne = 1 := by
  obtain ⟨t, rfl⟩ := h; rfl
theorem val_bigZero (h : cells0 <+: cs) : val cs bigZero = 0 := by
  obtain ⟨t, rfl⟩ := h; rfl
theorem ok_bigOne (h : cells0 <+: cs) : ok cs bigOne := by
  have := h.length_le
  refine ⟨by decide, ?_⟩
  simp only [cells0, List.length_cons, List.length_nil] at this
  simp only [bigOne]
  omega
theorem ok_bigZero (h : cells0 <+: cs) : ok cs bigZero := by
  have := h.length_le
  refine ⟨by decide, ?_⟩
  simp only [cells0, List.length_cons, List.length_nil] at this
  simp only [bigZero]
  omega

/-! ### new cells -/

theorem prefix_snoc (cs : Cells) (v : Int) : cs <+: cs ++ [v] := List.prefix_append _ _
theorem ok_new (cs : Cells) (v : Int) : ok (cs ++ [v]) cs.length := ⟨by omega, by rw [List.length_append]; simp only [List.length_singleton]; omega⟩
theorem val_new (cs : Cells) (v : Int) : val (cs ++ [v]) cs.length = v := by
  simp [val]

theorem newForm_spec (l : Factors) : ∀ cs : Cells,
    cs <+: (newForm l cs).2 ∧ okFs (newForm l cs).2 (newForm l cs).1 ∧ rdFs (newForm l cs).2 (newForm l cs).1 = l := by
  induction l with
  | nil => intro cs; exact ⟨List.prefix_rfl, okFs_nil, rfl⟩
  | cons f fs ih =>
    intro cs
    obtain ⟨h1, h2, h3⟩ := ih (cs ++ [f.mul])
    refine ⟨(prefix_snoc cs f.mul).trans h1, ?_, ?_⟩
    · simp only [newForm, okFs_cons]
      exact ⟨(ok_new cs f.mul).mono h1, h2⟩
    · simp only [newForm, rdFs_cons, h3, rdF]
      rw [val_mono h1 (ok_new cs f.mul), val_new]

/-! ### sorting -/

theorem hInsert_rd (x : Factor) (l : Factors) : rdFs cs (hInsert cs x l) = insertDesc (rdF cs x) (rdFs cs l) := by
  induction l with
  | nil => rfl
  | cons y ys ih =>
    simp only [hInsert, rdFs_cons, insertDesc]
    split
    · rw [rdFs_cons, ih]
    · rfl

theorem hInsert_mem {x : Factor} {l : Factors} {y : Factor} : y ∈ hInsert cs x l ↔ y = x ∨ y ∈ l := by
  induction l with
  | nil => simp [hInsert]
  | cons z zs ih =>
    unfold hInsert
    split
    · simp only [List.mem_cons, ih]
      tauto
    · simp only [List.mem_cons]

theorem hSort_aux (l : Factors) : ∀ acc : Factors,
    rdFs cs (l.foldl (fun acc x => hInsert cs x acc) acc) = (rdFs cs l).foldl (fun acc x => insertDesc x acc) (rdFs cs acc) ∧
    ∀ y, y ∈ l.foldl (fun acc x => hInsert cs x acc) acc ↔ y ∈ l ∨ y ∈ acc := by
  induction l with
  | nil => intro acc; simp
  | cons x xs ih =>
    intro acc
    obtain ⟨h1, h2⟩ := ih (hInsert cs x acc)
    simp only [List.foldl_cons, rdFs_cons]
    refine ⟨by rw [h1, hInsert_rd], fun y => ?_⟩
    rw [h2, hInsert_mem, List.mem_cons]
    tauto

theorem hSort_rd (l : Factors) : rdFs cs (hSort cs l) = sortF (rdFs cs l) := (hSort_aux l []).1
theorem hSort_mem {l : Factors} {y : Factor} : y ∈ hSort cs l ↔ y ∈ l := by
  have := (hSort_aux (cs := cs) l []).2 y
  simp only [List.not_mem_nil, or_false] at this
  exact this
theorem hSort_ok {l : Factors} (h : okFs cs l) : okFs cs (hSort cs l) := fun f hf => h f (hSort_mem.mp hf)

/-! ### products, sums, negation -/

theorem mulRow_nil (q : Nat) (f : Factor) : mulRow q f [] f = some f := rfl

theorem hMulFactors_spec {q : Nat} {l r f : Factors} {cs' : Cells} (hl : okFs cs l) (hr : okFs cs r)
    (h : hMulFactors q l r cs = some (f, cs')) :
    cs <+: cs' ∧ okFs cs' f ∧ mulFactors q (rdFs cs l) (rdFs cs r) = some (rdFs cs' f) := by
  have key : ∀ l : Factors, (l.mapM fun f => mulRow q f [] f) = some l := by
    intro l
    induction l with
    | nil => rfl
    | cons a l ih => rw [List.mapM_cons, ih]; rfl
  unfold hMulFactors at h
  split at h
  · rename_i e
    subst e
    cases h
    refine ⟨List.prefix_rfl, hr, ?_⟩
    unfold mulFactors
    rcases r with _ | ⟨a, r⟩
    · rfl
    · simp only [rdFs_nil, rdFs_cons, List.length_nil, List.length_cons, Nat.zero_lt_succ, if_true]
      exact key _
  · split at h
    · rename_i _ e
      subst e
      cases h
      refine ⟨List.prefix_rfl, hl, ?_⟩
      unfold mulFactors
      simp only [rdFs_nil, List.length_nil, Nat.not_lt_zero, if_false]
      exact key _
    · obtain ⟨g, hg, e⟩ := Option.map_eq_some_iff.mp h
      obtain ⟨h1, h2, h3⟩ := newForm_spec g cs
      rw [e] at h1 h2 h3
      exact ⟨h1, h2, by rw [hg, h3]⟩

theorem hAddFactor_some {q : Nat} {l r s : Factor} {cs' : Cells} (h : hAddFactor q l r cs = some (s, cs')) :
    cs <+: cs' ∧ ok cs' s.mul ∧ addFactor q (rdF cs l) (rdF cs r) = some (rdF cs' s) := by
  obtain ⟨f, hf, e⟩ := Option.map_eq_some_iff.mp h
  cases e
  refine ⟨prefix_snoc _ _, ok_new _ _, ?_⟩
  rw [hf, rdF]
  simp only [val_new]

theorem hAddFactor_none {q : Nat} {l r : Factor} (h : hAddFactor q l r cs = none) :
    addFactor q (rdF cs l) (rdF cs r) = none := Option.map_eq_none_iff.mp h

theorem hAddInto_spec {q : Nat} (l : Factor) : ∀ (r : Factors), okFs cs r →
    (∀ r' cs', hAddInto q l r cs = some (r', cs') →
      cs <+: cs' ∧ okFs cs' r' ∧ addInto q (rdF cs l) (rdFs cs r) = some (rdFs cs' r')) ∧
    (hAddInto q l r cs = none → addInto q (rdF cs l) (rdFs cs r) = none) := by
  intro r
  induction r with
  | nil => intro _; exact ⟨fun r' cs' h => (by cases h), fun _ => rfl⟩
  | cons a r ih =>
    intro hr
    obtain ⟨ha, hr⟩ := okFs_cons.mp hr
    obtain ⟨i1, i2⟩ := ih hr
    refine ⟨fun r' cs' h => ?_, fun h => ?_⟩
    · simp only [hAddInto] at h
      split at h
      · rename_i s cs1 e
        cases h
        obtain ⟨h1, h2, h3⟩ := hAddFactor_some e
        refine ⟨h1, okFs_cons.mpr ⟨h2, hr.mono h1⟩, ?_⟩
        simp only [rdFs_cons, addInto, h3]
        rw [rdFs_mono h1 hr]
      · rename_i e
        obtain ⟨⟨r1, cs1⟩, e1, e2⟩ := Option.map_eq_some_iff.mp h
        cases e2
        obtain ⟨h1, h2, h3⟩ := i1 _ _ e1
        refine ⟨h1, okFs_cons.mpr ⟨ha.mono h1, h2⟩, ?_⟩
        simp only [rdFs_cons, addInto, hAddFactor_none e, h3, Option.map_some]
        rw [rdF_mono h1 ha]
    · simp only [hAddInto] at h
      split at h
      · cases h
      · rename_i e
        simp only [rdFs_cons, addInto, hAddFactor_none e, i2 (Option.map_eq_none_iff.mp h), Option.map_none]

theorem hAddLoop_spec {q : Nat} : ∀ (l r : Factors) (cs : Cells), okFs cs l → okFs cs r →
    cs <+: (hAddLoop q l r cs).2.2 ∧ okFs (hAddLoop q l r cs).2.2 (hAddLoop q l r cs).1 ∧
    okFs (hAddLoop q l r cs).2.2 (hAddLoop q l r cs).2.1 ∧
    addLoop q (rdFs cs l) (rdFs cs r) =
      (rdFs (hAddLoop q l r cs).2.2 (hAddLoop q l r cs).1, rdFs (hAddLoop q l r cs).2.2 (hAddLoop q l r cs).2.1) := by
  intro l
  induction l with
  | nil => intro r cs _ hr; exact ⟨List.prefix_rfl, okFs_nil, hr, rfl⟩
  | cons a l ih =>
    intro r cs hl hr
    obtain ⟨ha, hl⟩ := okFs_cons.mp hl
    obtain ⟨i1, i2⟩ := hAddInto_spec (q := q) a r hr
    simp only [hAddLoop, rdFs_cons, addLoop]
    rcases e : hAddInto q a r cs with _ | ⟨r', cs'⟩
    · obtain ⟨h1, h2, h3, h4⟩ := ih r cs hl hr
      simp only [i2 e, h4]
      exact ⟨h1, okFs_cons.mpr ⟨ha.mono h1, h2⟩, h3, by rw [rdFs_cons, rdF_mono h1 ha]⟩
    · obtain ⟨j1, j2, j3⟩ := i1 _ _ e
      obtain ⟨h1, h2, h3, h4⟩ := ih r' cs' (hl.mono j1) j2
      simp only [j3]
      exact ⟨j1.trans h1, h2, h3, by rw [← h4, rdFs_mono j1 hl]⟩

theorem hAddFactors_spec {q : Nat} {l r : Factors} (h0 : cells0 <+: cs) (hl : okFs cs l) (hr : okFs cs r) :
    cs <+: (hAddFactors q l r cs).2 ∧ okFs (hAddFactors q l r cs).2 (hAddFactors q l r cs).1 ∧
    addFactors q (rdFs cs l) (rdFs cs r) = rdFs (hAddFactors q l r cs).2 (hAddFactors q l r cs).1 := by
  obtain ⟨h1, h2, h3, h4⟩ := hAddLoop_spec (q := q) l r cs hl hr
  have hz := val_bigZero (h0.trans h1)
  have hk : okFs (hAddLoop q l r cs).2.2 ((hAddLoop q l r cs).1 ++
      (hAddLoop q l r cs).2.1.filter (fun f => val (hAddLoop q l r cs).2.2 f.mul ≠ val (hAddLoop q l r cs).2.2 bigZero)) :=
    okFs_append.mpr ⟨h2, fun f hf => h3 f (List.mem_of_mem_filter hf)⟩
  have hv : rdFs (hAddLoop q l r cs).2.2 ((hAddLoop q l r cs).1 ++
      (hAddLoop q l r cs).2.1.filter (fun f => val (hAddLoop q l r cs).2.2 f.mul ≠ val (hAddLoop q l r cs).2.2 bigZero)) =
      (addLoop q (rdFs cs l) (rdFs cs r)).1 ++ (addLoop q (rdFs cs l) (rdFs cs r)).2.filter (fun f => f.mul ≠ 0) := by
    rw [rdFs_append, h4]
    congr 1
    simp only [rdFs, List.filter_map, hz]
    rfl
  refine ⟨h1, ?_, ?_⟩
  · simp only [hAddFactors]
    split
    · exact okFs_cons.mpr ⟨ok_bigZero (h0.trans h1), okFs_nil⟩
    · exact hk
  · simp only [addFactors, hAddFactors]
    rw [← hv]
    simp only [rdFs_eq_nil]
    split
    · simp only [rdFs_cons, rdFs_nil, rdF, hz]
      rfl
    · rfl

/-- the cells of the form that are not zero are pairwise different -/
def Sep (cs : Cells) : Factors → Prop
  | [] => True
  | f :: fs => (val cs f.mul ≠ 0 → ∀ g ∈ fs, g.mul ≠ f.mul) ∧ Sep cs fs

theorem val_modify {a b : Int} (ha : ok cs a) (hb : 0 ≤ b) :
    val (cs.modify a.toNat (- ·)) b = if b = a then - val cs a else val cs b := by
  obtain ⟨h0, h1⟩ := ha
  unfold val
  rw [List.getD_eq_getElem?_getD, List.getD_eq_getElem?_getD, List.getElem?_modify]
  by_cases e : b = a
  · subst e
    have : b.toNat < cs.length := by omega
    simp [this]
  · have : a.toNat ≠ b.toNat := by omega
    simp [this, e]

theorem hNegate_spec (l : Factors) : ∀ cs : Cells, okFs cs l → Sep cs l →
    (hNegate l cs).2.length = cs.length ∧ rdFs (hNegate l cs).2 (hNegate l cs).1 = negateFactors (rdFs cs l) ∧
    okFs (hNegate l cs).2 (hNegate l cs).1 ∧
    ∀ a, 0 ≤ a → (∀ f ∈ l, val cs f.mul ≠ 0 → f.mul ≠ a) → val (hNegate l cs).2 a = val cs a := by
  induction l with
  | nil => intro cs _ _; exact ⟨rfl, rfl, okFs_nil, fun _ _ _ => rfl⟩
  | cons f fs ih =>
    intro cs hl hs
    obtain ⟨hf, hl⟩ := okFs_cons.mp hl
    obtain ⟨hs1, hs2⟩ := hs
    set c1 := cs.modify f.mul.toNat (- ·) with hc1
    have hlen : c1.length = cs.length := by simp [hc1]
    have hval : ∀ g ∈ fs, val c1 g.mul = val cs g.mul := by
      intro g hg
      rw [hc1, val_modify hf (hl g hg).1]
      split
      · rename_i e
        by_cases hz : val cs f.mul = 0
        · rw [e, hz]; rfl
        · exact absurd e (hs1 hz g hg)
      · rfl
    have hok : okFs c1 fs := fun g hg => ⟨(hl g hg).1, by rw [hlen]; exact (hl g hg).2⟩
    have hsep : ∀ l' : Factors, (∀ g ∈ l', val c1 g.mul = val cs g.mul) → Sep cs l' → Sep c1 l' := by
      intro l'
      induction l' with
      | nil => intro _ _; trivial
      | cons a l' ih' =>
        intro h1 h2
        exact ⟨fun hz => h2.1 (by rw [← h1 a (by simp)]; exact hz), ih' (fun g hg => h1 g (by simp [hg])) h2.2⟩
    obtain ⟨j1, j2, j3, j4⟩ := ih c1 hok (hsep fs hval hs2)
    have hf0 : val (hNegate fs c1).2 f.mul = - val cs f.mul := by
      rw [j4 f.mul hf.1, hc1, val_modify hf hf.1, if_pos rfl]
      intro g hg hz
      rw [hval g hg] at hz
      by_cases hzf : val cs f.mul = 0
      · intro e
        rw [e] at hz
        exact hz hzf
      · exact hs1 hzf g hg
    refine ⟨by simp only [hNegate]; rw [j1, hlen], ?_, ?_, ?_⟩
    · simp only [hNegate, rdFs_cons, ← hc1, j2]
      simp only [negateFactors, List.map_cons]
      congr 1
      · by_cases e : f.tok.isNum = true
        · rw [if_pos e, if_pos (show (rdF cs f).tok.isNum = true from e)]
          simp only [rdF, hf0, numF]
          rw [hc1, val_modify hf hf.1, if_pos rfl]
        · rw [if_neg e, if_neg (show ¬ (rdF cs f).tok.isNum = true from e)]
          simp only [rdF, hf0]
      · exact congrArg (List.map _) (rdFs_congr hval)
    · simp only [hNegate, ← hc1, okFs_cons]
      refine ⟨?_, j3⟩
      split <;> exact ⟨hf.1, by rw [j1, hlen]; exact hf.2⟩
    · intro a ha hne
      simp only [hNegate, ← hc1]
      rw [j4 a ha, hc1, val_modify hf ha]
      · split
        · rename_i e
          subst e
          by_cases hz : val cs f.mul = 0
          · rw [hz]; rfl
          · exact absurd rfl (hne f (by simp) hz)
        · rfl
      · intro g hg hz
        rw [hval g hg] at hz
        exact hne g (by simp [hg]) hz

/-! ### gates -/

theorem hWithID_spec {H : Name → Nat} {g g' : Gate} (hg : okGate cs g) (h : hWithID H cs g = some g') :
    okGate cs g' ∧ withID H (rdGate cs g) = some (rdGate cs g') := by
  unfold hWithID at h
  unfold withID
  by_cases e : g.ident = []
  · have e' : (rdGate cs g).ident = [] := e
    rw [if_pos e] at h
    rw [if_pos e']
    obtain ⟨s, hs, rfl⟩ := Option.map_eq_some_iff.mp h
    refine ⟨⟨hSort_ok hg.1, hSort_ok hg.2.1, hSort_ok hg.2.2.1, hSort_ok hg.2.2.2⟩, ?_⟩
    unfold setAndGetID
    rw [hs, Option.map_some]
    simp only [rdGate, hSort_rd]
  · have e' : (rdGate cs g).ident ≠ [] := e
    rw [if_neg e] at h
    rw [if_neg e']
    cases h
    exact ⟨hg, rfl⟩

theorem hAdd_spec {H : Name → Nat} {s s' : St} {g g' : Gate} {post post' : Gate → Gate} (hs : okSt cs s) (hg : okGate cs g)
    (hp : ∀ g, okGate cs g → okGate cs (post g)) (hr : ∀ g, rdGate cs (post g) = post' (rdGate cs g))
    (h : hAdd H cs s g post = some (s', g')) :
    okSt cs s' ∧ okGate cs g' ∧ St.add H (rdSt cs s) (rdGate cs g) post' = some (rdSt cs s', rdGate cs g') := by
  unfold hAdd at h
  split at h
  · cases h
  · rename_i g1 e1
    obtain ⟨k1, k2⟩ := hWithID_spec hg e1
    have hid : (rdGate cs g1).ident = g1.ident := rfl
    have hid2 : (post' (rdGate cs g1)).ident = (post g1).ident := by rw [← hr]; rfl
    split at h
    · rename_i e2
      cases h
      refine ⟨hs, hp _ k1, ?_⟩
      simp only [St.add, Container.add, k2, hid]
      rw [if_pos (by exact e2)]
      simp only [rdSt, hr, hid2]
    · rename_i e2
      cases h
      refine ⟨?_, hp _ k1, ?_⟩
      · intro x hx
        simp only [List.mem_append, List.mem_singleton] at hx
        rcases hx with hx | rfl
        · exact hs x hx
        · exact hp _ k1
      · simp only [St.add, Container.add, k2, hid]
        rw [if_neg (by exact e2)]
        simp only [rdSt, hr, hid2, List.map_append, List.map_cons, List.map_nil]

theorem okFs_arg {n : Name} {a : Int} (h : ok cs a) : okFs cs [argF n a] := okFs_cons.mpr ⟨h, okFs_nil⟩
theorem rdFs_arg {n : Name} {a : Int} : rdFs cs [argF n a] = [argF n (val cs a)] := rfl

theorem hMulGate_spec {H : Name → Nat} {q : Nat} {l r f : Factors} {s s' : St} {cs' : Cells} (h0 : cells0 <+: cs)
    (hl : okFs cs l) (hr : okFs cs r) (hs : okSt cs s) (h : hMulGate H q l r s cs = some (f, s', cs')) :
    cs <+: cs' ∧ okFs cs' f ∧ okSt cs' s' ∧
    mulGate H q (rdFs cs l) (rdFs cs r) (rdSt cs s) = some (rdFs cs' f, rdSt cs' s') := by
  unfold hMulGate at h
  unfold mulGate
  simp only [isSingleNumber_rd]
  split at h
  · rename_i e
    rw [if_pos e]
    simp only [Option.bind_eq_bind, Option.bind_eq_some_iff, Prod.exists] at h
    obtain ⟨f', cs1, h1, h2⟩ := h
    cases h2
    obtain ⟨k1, k2, k3⟩ := hMulFactors_spec hl hr h1
    exact ⟨k1, k2, hs.mono k1, by simp [k3, rdSt_mono k1 hs]⟩
  · rename_i e
    rw [if_neg e]
    simp only [Option.bind_eq_bind, Option.bind_eq_some_iff, Prod.exists] at h
    obtain ⟨k, l', r', h1, s1, g, h2, h3⟩ := h
    obtain ⟨a1, a2, a3⟩ := newForm_spec l' cs
    obtain ⟨b1, b2, b3⟩ := newForm_spec r' (newForm l' cs).2
    set c2 := (newForm r' (newForm l' cs).2).2 with hc2
    have hp := a1.trans b1
    obtain ⟨k1, k2, k3⟩ := hAdd_spec (post := fun g => { g with out := [argF g.ident bigOne] }) (post' := fun g => { g with out := [argF g.ident 1] }) (hs.mono hp)
      ⟨a2.mono b1, b2, okFs_nil, okFs_nil⟩
      (fun g hg => ⟨hg.1, hg.2.1, hg.2.2.1, okFs_arg (ok_bigOne (h0.trans hp))⟩)
      (fun g => by simp only [rdGate, rdFs_arg, val_bigOne (h0.trans hp)]) h2
    cases h3
    refine ⟨hp.trans (prefix_snoc _ _), okFs_arg (ok_new _ _), k1.mono (prefix_snoc _ _), ?_⟩
    rw [h1]
    simp only [Option.bind_some, Option.bind_eq_bind]
    have hg : rdGate c2 { typ := .mult, left := (newForm l' cs).1, right := (newForm r' (newForm l' cs).2).1 } =
        { typ := .mult, left := l', right := r' } := by
      simp only [rdGate, rdFs_nil, b3]
      rw [rdFs_mono b1 a2, a3]
    rw [hg, rdSt_mono hp hs] at k3
    rw [k3]
    simp only [Option.bind_some, rdFs_arg, newCell, val_new, rdSt_mono (prefix_snoc _ _) k1]
    rfl

theorem hDivGate_spec {H : Name → Nat} {q : Nat} {l r f : Factors} {s s' : St} {cs' : Cells} (h0 : cells0 <+: cs)
    (hl : okFs cs l) (hs : okSt cs s) (h : hDivGate H q l r s cs = some (f, s', cs')) :
    cs <+: cs' ∧ okFs cs' f ∧ okSt cs' s' ∧
    divGate H q (rdFs cs l) (rdFs cs r) (rdSt cs s) = some (rdFs cs' f, rdSt cs' s') := by
  unfold hDivGate at h
  unfold divGate
  simp only [isSingleNumber_rd]
  split at h
  · rename_i e
    rw [if_pos e]
    simp only [Option.bind_eq_bind, Option.bind_eq_some_iff, Prod.exists] at h
    obtain ⟨i, h1, f', cs1, h2, h3⟩ := h
    cases h3
    obtain ⟨a1, a2, a3⟩ := newForm_spec i cs
    obtain ⟨k1, k2, k3⟩ := hMulFactors_spec (hl.mono a1) a2 h2
    refine ⟨a1.trans k1, k2, hs.mono (a1.trans k1), ?_⟩
    rw [a3, rdFs_mono a1 hl] at k3
    simp [h1, k3, rdSt_mono (a1.trans k1) hs]
  · rename_i e
    rw [if_neg e]
    simp only [Option.bind_eq_bind, Option.bind_eq_some_iff, Prod.exists] at h
    obtain ⟨gl, l', h1, gr, r', h1', k, hk, s1, g, h2, h3⟩ := h
    obtain ⟨a1, a2, a3⟩ := newForm_spec l' cs
    obtain ⟨b1, b2, b3⟩ := newForm_spec r' (newForm l' cs).2
    set c2 := (newForm r' (newForm l' cs).2).2 with hc2
    have hp := a1.trans b1
    obtain ⟨k1, k2, k3⟩ := hAdd_spec (post := fun g => { g with left := [argF g.ident bigOne] }) (post' := fun g => { g with left := [argF g.ident 1] }) (hs.mono hp)
      ⟨okFs_nil, b2, okFs_nil, a2.mono b1⟩
      (fun g hg => ⟨okFs_arg (ok_bigOne (h0.trans hp)), hg.2.1, hg.2.2.1, hg.2.2.2⟩)
      (fun g => by simp only [rdGate, rdFs_arg, val_bigOne (h0.trans hp)]) h2
    cases h3
    refine ⟨hp.trans (prefix_snoc _ _), okFs_arg (ok_new _ _), k1.mono (prefix_snoc _ _), ?_⟩
    rw [h1, h1']
    simp only [Option.bind_some, Option.bind_eq_bind, hk]
    have hg : rdGate c2 { typ := .mult, right := (newForm r' (newForm l' cs).2).1, out := (newForm l' cs).1 } =
        { typ := .mult, right := r', out := l' } := by
      simp only [rdGate, rdFs_nil, b3]
      rw [rdFs_mono b1 a2, a3]
    rw [hg, rdSt_mono hp hs] at k3
    rw [k3]
    simp only [Option.bind_some, rdFs_arg, newCell, val_new, rdSt_mono (prefix_snoc _ _) k1]
    rfl

theorem hBaseGate_spec {H : Name → Nat} {e f : Factors} {s s' : St} (h0 : cells0 <+: cs)
    (he : okFs cs e) (hs : okSt cs s) (h : hBaseGate H e s cs = some (f, s')) :
    okFs cs f ∧ okSt cs s' ∧ baseGate H (rdFs cs e) (rdSt cs s) = some (rdFs cs f, rdSt cs s') := by
  unfold hBaseGate at h
  simp only [Option.bind_eq_bind, Option.bind_eq_some_iff, Prod.exists] at h
  obtain ⟨s1, g, h1, h2⟩ := h
  cases h2
  obtain ⟨k1, k2, k3⟩ := hAdd_spec (post' := id) hs ⟨okFs_nil, okFs_nil, he, okFs_nil⟩ (fun g hg => hg) (fun g => rfl) h1
  refine ⟨okFs_arg (ok_bigOne h0), k1, ?_⟩
  unfold baseGate
  have : rdGate cs { typ := .scalarBase, expo := e } = { typ := .scalarBase, expo := rdFs cs e } := rfl
  rw [this] at k3
  have k4 : St.add H (rdSt cs s) { typ := .scalarBase, expo := rdFs cs e } = some (rdSt cs s', rdGate cs g) := k3
  simp only [Option.bind_eq_bind, k4, Option.bind_some, rdFs_arg, val_bigOne h0]
  rfl

theorem hAddGateConstraint_spec {H : Name → Nat} {q : Nat} {l r f : Factors} {s s' : St} {cs' : Cells} (h0 : cells0 <+: cs)
    (hs : okSt cs s) (h : hAddGateConstraint H q l r s cs = some (f, s', cs')) :
    cs <+: cs' ∧ okFs cs' f ∧ okSt cs' s' ∧
    addGateConstraint H q (rdFs cs l) (rdFs cs r) (rdSt cs s) = some (rdFs cs' f, rdSt cs' s') := by
  unfold hAddGateConstraint at h
  unfold addGateConstraint
  simp only [Option.bind_eq_bind, Option.bind_eq_some_iff, Prod.exists] at h
  obtain ⟨k, l', r', h1, s1, g, h2, h3⟩ := h
  obtain ⟨a1, a2, a3⟩ := newForm_spec l' cs
  obtain ⟨b1, b2, b3⟩ := newForm_spec r' (newForm l' cs).2
  obtain ⟨d1, d2, d3⟩ := hAddFactors_spec (q := q) (h0.trans (a1.trans b1)) (a2.mono b1) b2
  set c2 := (newForm r' (newForm l' cs).2).2 with hc2
  set c3 := (hAddFactors q (newForm l' cs).1 (newForm r' (newForm l' cs).2).1 c2).2 with hc3
  have hp := (a1.trans b1).trans d1
  obtain ⟨k1, k2, k3⟩ := hAdd_spec (post := fun g => { g with out := [argF g.ident bigOne] }) (post' := fun g => { g with out := [argF g.ident 1] }) (hs.mono hp)
    ⟨d2, okFs_nil, okFs_nil, okFs_nil⟩
    (fun g hg => ⟨hg.1, hg.2.1, hg.2.2.1, okFs_arg (ok_bigOne (h0.trans hp))⟩)
    (fun g => by simp only [rdGate, rdFs_arg, val_bigOne (h0.trans hp)]) h2
  cases h3
  refine ⟨hp.trans (prefix_snoc _ _), okFs_arg (ok_new _ _), k1.mono (prefix_snoc _ _), ?_⟩
  rw [h1]
  simp only [Option.bind_some, Option.bind_eq_bind]
  rw [rdFs_mono b1 a2, a3, b3] at d3
  have hg : rdGate c3 { typ := .addition, left := (hAddFactors q (newForm l' cs).1 (newForm r' (newForm l' cs).2).1 c2).1 } =
      { typ := .addition, left := addFactors q l' r' } := by
    simp only [rdGate, rdFs_nil]
    rw [d3]
  rw [hg, rdSt_mono hp hs] at k3
  rw [k3]
  simp only [Option.bind_some, rdFs_arg, newCell, val_new, rdSt_mono (prefix_snoc _ _) k1]
  rfl

theorem hComplete_spec {H : Name → Nat} {f : Factors} {s s' : St} (h0 : cells0 <+: cs)
    (hf : okFs cs f) (hs : okSt cs s) (h : hComplete H f s cs = some s') :
    okSt cs s' ∧ completeFunction H (rdFs cs f) (rdSt cs s) = some (rdSt cs s') := by
  have key : ∀ s', hComplete.completeAdd H f s cs = some s' →
      okSt cs s' ∧ completeFunction.completeAdd H (rdFs cs f) (rdSt cs s) = some (rdSt cs s') := by
    intro s' h
    unfold hComplete.completeAdd at h
    simp only [Option.bind_eq_bind, Option.bind_eq_some_iff, Prod.exists] at h
    obtain ⟨sig, h1, s1, g, h2, h3⟩ := h
    cases h3
    obtain ⟨k1, k2, k3⟩ := hAdd_spec (post' := id) hs ⟨hf, okFs_nil, okFs_nil, okFs_arg (ok_bigOne h0)⟩ (fun g hg => hg) (fun g => rfl) h2
    refine ⟨k1, ?_⟩
    unfold completeFunction.completeAdd
    have : rdGate cs { typ := .addition, ident := sig, left := f, out := [argF sig bigOne] } =
        { typ := .addition, ident := sig, left := rdFs cs f, out := [argF sig 1] } := by
      simp only [rdGate, rdFs_arg, val_bigOne h0, rdFs_nil]
    rw [this] at k3
    simp only [h1, Option.bind_eq_bind, Option.bind_some]
    have k4 : St.add H (rdSt cs s) { typ := .addition, ident := sig, left := rdFs cs f, out := [argF sig 1] } = some (rdSt cs s', rdGate cs g) := k3
    rw [k4]
    rfl
  unfold hComplete at h
  unfold completeFunction
  simp only [rdFs_eq_nil, isSingleNumber_rd]
  split at h
  · rename_i e
    cases h
    rw [if_pos e]
    exact ⟨hs, rfl⟩
  · rename_i e
    rw [if_neg e]
    rcases f with _ | ⟨x, _ | ⟨y, f⟩⟩
    · simp at e
    · simp only [rdFs_cons, rdFs_nil] at h key ⊢
      rw [val_bigOne h0] at h
      split at h
      · rename_i e2
        cases h
        rw [if_pos (show (rdF cs x).mul = 1 from e2)]
        exact ⟨hs, rfl⟩
      · rename_i e2
        rw [if_neg (show ¬ (rdF cs x).mul = 1 from e2)]
        exact key _ h
    · exact key _ h

theorem hSplitLoop_spec {H : Name → Nat} {z : Tok} (is : List Nat) : ∀ {s s' : St}, okSt cs s →
    hSplitLoop H cs z is s = some s' → okSt cs s' ∧ splitLoop H z is (rdSt cs s) = some (rdSt cs s') := by
  induction is with
  | nil => intro s s' hs h; cases h; exact ⟨hs, rfl⟩
  | cons i is ih =>
    intro s s' hs h
    simp only [hSplitLoop, Option.bind_eq_bind, Option.bind_eq_some_iff, Prod.exists] at h
    obtain ⟨s1, g, h1, h2⟩ := h
    obtain ⟨k1, k2, k3⟩ := hAdd_spec (post' := id) hs ⟨okFs_nil, okFs_nil, okFs_nil, okFs_nil⟩ (fun g hg => hg) (fun g => rfl) h1
    obtain ⟨j1, j2⟩ := ih k1 h2
    refine ⟨j1, ?_⟩
    unfold splitLoop
    have k4 : St.add H (rdSt cs s) { typ := .zeroOrOne, ident := bitName i z.ident, arith := z } = some (rdSt cs s1, rdGate cs g) := k3
    simp only [Option.bind_eq_bind, k4, Option.bind_some, j2]

theorem hSplitGate_spec {H : Name → Nat} {q : Nat} {f : Factors} {s s' : St} {cs' : Cells} (h0 : cells0 <+: cs)
    (hs : okSt cs s) (h : hSplitGate H q f s cs = some (s', cs')) :
    cs <+: cs' ∧ okSt cs' s' ∧ splitGate H q (rdFs cs f) (rdSt cs s) = some (rdSt cs' s') := by
  rcases f with _ | ⟨x, _ | ⟨y, f⟩⟩
  · cases h
  · simp only [hSplitGate, Option.bind_eq_bind, Option.bind_eq_some_iff, Prod.exists] at h
    obtain ⟨s1, h1, s2, g, h2, h3⟩ := h
    obtain ⟨j1, j2⟩ := hSplitLoop_spec _ hs h1
    set bits := (List.range (Fq.bitLen q)).map fun (i : Nat) => argF (bitName i x.tok.ident) (val cs bigOne * 2 ^ i) with hb
    obtain ⟨a1, a2, a3⟩ := newForm_spec bits cs
    obtain ⟨k1, k2, k3⟩ := hAdd_spec (post' := id) (j1.mono a1) ⟨a2, okFs_nil, okFs_nil, okFs_nil⟩ (fun g hg => hg) (fun g => rfl) h2
    cases h3
    refine ⟨a1, k1, ?_⟩
    simp only [rdFs_cons, rdFs_nil, splitGate, rdF_tok, j2, Option.bind_eq_bind, Option.bind_some]
    have hb' : bits = (List.range (Fq.bitLen q)).map fun (i : Nat) => argF (bitName i x.tok.ident) ((2 : Int) ^ i) := by
      rw [hb]
      simp only [val_bigOne h0, one_mul]
    have hg : rdGate (newForm bits cs).2 { typ := .sumCheck, arith := x.tok, noNew := true, left := (newForm bits cs).1 } =
        { typ := .sumCheck, arith := x.tok, noNew := true, left := bits } := by
      simp only [rdGate, rdFs_nil, a3]
    rw [hg, rdSt_mono a1 j1] at k3
    rw [← hb']
    have k4 : St.add H (rdSt cs s1) { typ := .sumCheck, arith := x.tok, noNew := true, left := bits } = some (rdSt (newForm bits cs).2 s', rdGate (newForm bits cs).2 g) := k3
    rw [k4]
    rfl
  · cases h

end APS.Alias
