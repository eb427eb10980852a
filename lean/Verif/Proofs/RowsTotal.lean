import Verif.Proofs.Made

/-! Constraint generation does not panic on the gates of a compiled program. -/
namespace APS.Circuit
open APS.Spec APS.Avl APS.Avl.Tree

variable {q : Nat} {I P : List Name} {rand : Bool} {f : Factors} {s : St}

theorem indexGates_total : ∀ (gs : List Gate) (m : IndexMap) (sp : SplitMap), (gs.map (·.ident)).Nodup →
    (∀ g ∈ gs, m.has g.ident = false) → ∃ r, indexGates m sp gs = some r := by
  intro gs
  induction gs with
  | nil => intro m sp _ _; exact ⟨_, rfl⟩
  | cons g gs ih =>
    intro m sp hn hf
    rw [List.map_cons, List.nodup_cons] at hn
    unfold indexGates
    by_cases hw : g.noNew = true
    · rw [if_pos hw]
      exact ih _ _ hn.2 fun x hx => hf x (List.mem_cons_of_mem _ hx)
    · have h0 := hf g (by simp)
      rw [if_neg hw, if_neg (by simp [h0])]
      refine ih _ _ hn.2 fun x hx => ?_
      rw [Bool.eq_false_iff]
      intro hc
      rw [has_iff, set_fresh h0, List.map_append, List.mem_append] at hc
      rcases hc with hc | hc
      · have := hf x (List.mem_cons_of_mem _ hx)
        rw [has_iff.mpr hc] at this; cases this
      · simp at hc
        exact hn.1 (by rw [← hc]; exact List.mem_map_of_mem hx)

theorem formDense_total {m : IndexMap} : ∀ (f : Factors) (arr : List Int), (∀ n, some n ∈ f.map Factor.key → m.has n = true) →
    ∃ a, f.foldlM (insertDense m) arr = some a := by
  intro f
  induction f with
  | nil => intro arr _; exact ⟨_, rfl⟩
  | cons x xs ih =>
    intro arr h
    have hx : ∃ b, insertDense m arr x = some b := by
      unfold insertDense
      by_cases hn : x.tok.isNum = true
      · exact ⟨_, if_pos hn⟩
      · rw [if_neg hn, if_pos (h x.tok.ident (by simp [Factor.key, hn]))]
        exact ⟨_, rfl⟩
    obtain ⟨b, hb⟩ := hx
    obtain ⟨a, ha⟩ := ih b fun n hn => h n (by simp only [List.map_cons, List.mem_cons]; exact Or.inr hn)
    exact ⟨a, by simp [List.foldlM_cons, hb, ha]⟩

theorem formSparse_total {m : IndexMap} : ∀ (f : Factors) (t : Tree), Inv t → (∀ n, some n ∈ f.map Factor.key → m.has n = true) →
    ∃ a, f.foldlM (insertSparse q m) t = some a := by
  intro f
  induction f with
  | nil => intro t _ _; exact ⟨_, rfl⟩
  | cons x xs ih =>
    intro t ht h
    have hx : ∃ b, insertSparse q m t x = some b ∧ Inv b := by
      unfold insertSparse
      rw [if_neg]
      · obtain ⟨t', e1, e2, -⟩ := treePut_inv (key := m.get x.tok.ident) (value := x.mul) (ins := Sparse.addCb q) ht rfl
        exact ⟨t', e1, e2⟩
      · intro hc
        simp only [Bool.and_eq_true, Bool.not_eq_true'] at hc
        have := h x.tok.ident (by simp [Factor.key, hc.1])
        rw [this] at hc
        exact Bool.noConfusion hc.2
    obtain ⟨b, hb, hi⟩ := hx
    obtain ⟨a, ha⟩ := ih b hi fun n hn => h n (by simp only [List.map_cons, List.mem_cons]; exact Or.inr hn)
    exact ⟨a, by simp [List.foldlM_cons, hb, ha]⟩

theorem insert_tot (k : Nat) (v : Int) {t : Tree} (h : Inv t) : ∃ t', t.insert k v = some t' ∧ Inv t' := by
  obtain ⟨t', e1, e2, -⟩ := treePut_inv (key := k) (value := v) (ins := setInsert) h rfl
  exact ⟨t', e1, e2⟩

theorem has_swap {m : IndexMap} {g : Gate} (h : GateHas m g) : GateHas m (swapLonger g) := by
  unfold swapLonger
  split
  · intro n hn
    apply h n
    rcases hn with hn | hn | hn | hn
    exacts [Or.inr (Or.inl hn), Or.inl hn, Or.inr (Or.inr (Or.inl hn)), Or.inr (Or.inr (Or.inr hn))]
  · exact h

theorem rowDense_total {m : IndexMap} {g : Gate} (h : GateHas m g) : ∃ r, rowDense m g = some r := by
  have h' := has_swap h
  unfold rowDense
  generalize swapLonger g = g at h'
  obtain ⟨a, ha⟩ := formDense_total (m := m) g.left (List.replicate m.length 0) fun n hn => h' n (Or.inl hn)
  obtain ⟨b, hb⟩ := formDense_total (m := m) g.right (List.replicate m.length 0) fun n hn => h' n (Or.inr (Or.inl hn))
  obtain ⟨e, he⟩ := formDense_total (m := m) g.expo (List.replicate m.length 0) fun n hn => h' n (Or.inr (Or.inr (Or.inl hn)))
  obtain ⟨c, hc⟩ := formDense_total (m := m) g.out (List.replicate m.length 0) fun n hn => h' n (Or.inr (Or.inr (Or.inr hn)))
  rw [← Option.isSome_iff_exists]
  cases ht : g.typ <;> simp [formDense, ha, hb, he, hc, ht]

theorem rowSparse_total {m : IndexMap} {g : Gate} (h : GateHas m g) : ∃ r, rowSparse q m g = some r := by
  have h' := has_swap h
  unfold rowSparse
  generalize swapLonger g = g at h'
  obtain ⟨a, ha⟩ := formSparse_total (q := q) (m := m) g.left nil inv_nil fun n hn => h' n (Or.inl hn)
  obtain ⟨b, hb⟩ := formSparse_total (q := q) (m := m) g.right nil inv_nil fun n hn => h' n (Or.inr (Or.inl hn))
  obtain ⟨e, he⟩ := formSparse_total (q := q) (m := m) g.expo nil inv_nil fun n hn => h' n (Or.inr (Or.inr (Or.inl hn)))
  obtain ⟨c, hc⟩ := formSparse_total (q := q) (m := m) g.out nil inv_nil fun n hn => h' n (Or.inr (Or.inr (Or.inr hn)))
  obtain ⟨u, hu, -⟩ := insert_tot 0 1 inv_nil
  obtain ⟨v, hv, iv⟩ := insert_tot 0 (-1) inv_nil
  obtain ⟨w, hw, -⟩ := insert_tot (m.get g.ident) 1 inv_nil
  obtain ⟨x, hx, -⟩ := insert_tot (m.get g.ident) 1 iv
  obtain ⟨y, hy, -⟩ := insert_tot (m.get g.arith.ident) 1 inv_nil
  rw [← Option.isSome_iff_exists]
  cases ht : g.typ <;> simp [formSparse, ha, hb, he, hc, hu, hv, hw, hx, hy, ht]

theorem mapM_total {α β : Type} {f : α → Option β} : ∀ l : List α, (∀ x ∈ l, ∃ y, f x = some y) → ∃ r, l.mapM f = some r := by
  intro l
  induction l with
  | nil => intro _; exact ⟨_, rfl⟩
  | cons x xs ih =>
    intro h
    obtain ⟨y, hy⟩ := h x (by simp)
    obtain ⟨r, hr⟩ := ih fun z hz => h z (List.mem_cons_of_mem _ hz)
    exact ⟨y :: r, by simp [List.mapM_cons, hy, hr]⟩

theorem Made.index_total (hM : Made q I f s) (hr : RunOK I P rand s) (hP : ∀ x ∈ P, x ∈ I) :
    ∃ m sp, buildIndex (oneName :: P) I s.c.gates rand = some (m, sp) := by
  obtain ⟨p1, p2⟩ := indexPublics_eq (oneName :: P) [] .nil hr.publics (by simp [IndexMap.has])
  obtain ⟨i1, i2, i3⟩ := indexInputs_eq I _ p1
  obtain ⟨⟨m, sp⟩, h⟩ := indexGates_total s.c.gates (indexInputs (indexPublics [] (oneName :: P)) I) []
    (by rw [← hM.wf.comp]; exact hM.wf.nodup) (by
      intro g hg
      rw [Bool.eq_false_iff]
      intro hc
      have hgc : g.ident ∈ s.c.computed := by rw [hM.wf.comp]; exact List.mem_map_of_mem hg
      rw [has_iff, i3, p2] at hc
      rcases hc with hc | hc
      · simp only [List.map_nil, List.nil_append, List.mem_cons] at hc
        rcases hc with hc | hc
        · exact hr.one.2 (hc ▸ hgc)
        · exact hr.disj _ (hP _ hc) hgc
      · exact hr.disj _ hc hgc)
  unfold buildIndex
  rw [h]
  exact ⟨_, _, rfl⟩

theorem Made.gate_has (hM : Made q I f s) (hr : RunOK I P rand s) {m : IndexMap} (hi : IndexSpec (oneName :: P) I s.c.gates rand m) :
    ∀ g ∈ s.c.gates, GateHas m g := by
  intro g hg n hn
  have ha := hM.att g (Or.inl hg)
  rcases hn with hn | hn | hn | hn
  exacts [att_has hr.conf hi (ha.left n hn), att_has hr.conf hi (ha.right n hn), att_has hr.conf hi (ha.expo n hn), att_has hr.conf hi (ha.out n hn)]

theorem rand_has {m : IndexMap} {publics : List Name} {gates : List Gate} (hi : IndexSpec publics I gates true m) :
    ∀ r ∈ [randIn, randOut], ∀ n, some n ∈ [argF r 1].map Factor.key → m.has n = true := by
  intro r hr n hn
  rw [hi.names]
  simp [Factor.key, argF] at hn
  subst hn
  exact Or.inr (Or.inr (Or.inr ⟨rfl, by simpa using hr⟩))

theorem Made.dense_total (hM : Made q I f s) (hr : RunOK I P rand s) (hP : ∀ x ∈ P, x ∈ I) :
    ∃ r, gatesToR1CS (oneName :: P) I s.c.gates rand = some r := by
  obtain ⟨m, sp, hb⟩ := hM.index_total hr hP
  have hi := RunOK.indexSpec hr hM.wf.comp hb
  obtain ⟨rows, hrows⟩ := mapM_total (f := rowDense m) s.c.gates fun g hg => rowDense_total (hM.gate_has hr hi g hg)
  unfold gatesToR1CS
  rw [hb]
  cases rand with
  | false => rw [← Option.isSome_iff_exists]; simp [hrows]
  | true =>
    obtain ⟨a, ha⟩ := formDense_total (m := m) [argF randIn 1] (List.replicate m.length 0) (rand_has hi randIn (by simp))
    obtain ⟨b, hb⟩ := formDense_total (m := m) [argF randOut 1] (List.replicate m.length 0) (rand_has hi randOut (by simp))
    simp only [List.foldlM_cons, List.foldlM_nil, Option.bind_eq_bind, Option.pure_def, Option.bind_fun_some] at ha hb
    rw [← Option.isSome_iff_exists]; simp [Option.bind_some, hrows, randRowDense, formDense, ha, hb]

theorem Made.sparse_total (hM : Made q I f s) (hr : RunOK I P rand s) (hP : ∀ x ∈ P, x ∈ I) :
    ∃ r, gatesToSparseR1CS q (oneName :: P) I s.c.gates rand = some r := by
  obtain ⟨m, sp, hb⟩ := hM.index_total hr hP
  have hi := RunOK.indexSpec hr hM.wf.comp hb
  obtain ⟨rows, hrows⟩ := mapM_total (f := rowSparse q m) s.c.gates fun g hg => rowSparse_total (q := q) (hM.gate_has hr hi g hg)
  unfold gatesToSparseR1CS
  rw [hb]
  cases rand with
  | false => rw [← Option.isSome_iff_exists]; simp [hrows]
  | true =>
    obtain ⟨a, ha⟩ := formSparse_total (q := q) (m := m) [argF randIn 1] nil inv_nil (rand_has hi randIn (by simp))
    obtain ⟨b, hb⟩ := formSparse_total (q := q) (m := m) [argF randOut 1] nil inv_nil (rand_has hi randOut (by simp))
    simp only [List.foldlM_cons, List.foldlM_nil, Option.bind_eq_bind, Option.pure_def, Option.bind_fun_some] at ha hb
    rw [← Option.isSome_iff_exists]; simp [Option.bind_some, hrows, randRowSparse, formSparse, ha, hb]

end APS.Circuit
