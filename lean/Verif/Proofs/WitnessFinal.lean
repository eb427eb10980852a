import Verif.Proofs.WitnessProgram

/-! Witness calculation for compiled programs: the start, the loop, and the result. -/
namespace APS.Circuit
open APS.Spec APS.Avl APS.Avl.Tree

variable {q : Nat}

/-! ### the state before the first gate -/

theorem put_agrees {n : Nat} {s : WState} {t : List Int} {i : Nat} {v : Int} (hs : WLen n s) (hi : i < n) (ha : Agrees s t)
    (hv : t.getD i 0 = v) : ∃ s', s.put i v = some s' ∧ WLen n s' ∧ Agrees s' t ∧ (∀ j, Kn s' j ↔ j = i ∨ Kn s j) := by
  obtain ⟨s', h⟩ := put_total v hs hi
  obtain ⟨-, p1, p2, p3⟩ := put_spec hs h
  refine ⟨s', h, p1, fun j hj => ?_, p2⟩
  rw [p3]
  by_cases hji : j = i
  · rw [if_pos hji, hji]; exact hv
  · rw [if_neg hji]
    exact ha j (((p2 j).mp hj).resolve_left hji)

theorem putInputs_agrees {n : Nat} {m : IndexMap} {t : List Int} : ∀ (inputs : List (Name × Int)) (s : WState), WLen n s →
    Agrees s t → (∀ e ∈ inputs, m.get e.1 < n ∧ t.getD (m.get e.1) 0 = e.2) →
    ∃ s', putInputs m inputs s = some s' ∧ WLen n s' ∧ Agrees s' t ∧ (∀ j, Kn s j → Kn s' j) ∧ ∀ e ∈ inputs, Kn s' (m.get e.1) := by
  intro inputs
  induction inputs with
  | nil => intro s hs ha _; exact ⟨s, rfl, hs, ha, fun _ h => h, by simp⟩
  | cons e rest ih =>
    intro s hs ha he
    obtain ⟨e1, e2⟩ := he e List.mem_cons_self
    obtain ⟨s1, h1, l1, a1, k1⟩ := put_agrees hs e1 ha e2
    obtain ⟨s', h2, l2, a2, k2, k3⟩ := ih s1 l1 a1 fun x hx => he x (List.mem_cons_of_mem _ hx)
    refine ⟨s', by unfold putInputs; rw [h1]; exact h2, l2, a2, fun j hj => k2 j ((k1 j).mpr (Or.inr hj)), fun x hx => ?_⟩
    rcases List.mem_cons.mp hx with rfl | hx
    exacts [k2 _ ((k1 _).mpr (Or.inl rfl)), k3 x hx]

theorem putBits_agrees {n : Nat} {t : List Int} (father : Nat) : ∀ (zs : List Nat) (b : Nat) (s : WState), WLen n s → Agrees s t →
    Kn s father → (∀ i z, zs[i]? = some z → z < n ∧ t.getD z 0 = bitOf (t.getD father 0) (b + i)) →
    ∃ s', putBits father b zs s = some s' ∧ WLen n s' ∧ Agrees s' t ∧ ∀ j, Kn s j → Kn s' j := by
  intro zs
  induction zs with
  | nil => intro b s hs ha _ _; exact ⟨s, rfl, hs, ha, fun _ h => h⟩
  | cons z zs ih =>
    intro b s hs ha hf hz
    obtain ⟨z1, z2⟩ := hz 0 z rfl
    obtain ⟨s1, h1, l1, a1, k1⟩ := put_agrees (v := bitOf (s.w.getD father 0) b) hs z1 ha (by
      rw [z2, ha father hf]; rfl)
    obtain ⟨s', h2, l2, a2, k2⟩ := ih (b + 1) s1 l1 a1 ((k1 _).mpr (Or.inr hf)) (fun i z' hi => by
      obtain ⟨y1, y2⟩ := hz (i + 1) z' (by simpa using hi)
      exact ⟨y1, by rw [y2]; congr 1; omega⟩)
    exact ⟨s', by unfold putBits; rw [h1]; exact h2, l2, a2, fun j hj => k2 j ((k1 j).mpr (Or.inr hj))⟩

theorem initSplits_agrees {n : Nat} {m : IndexMap} {t : List Int} : ∀ (sp : SplitMap) (s : WState) (inv : InvSplit), WLen n s →
    Agrees s t →
    (∀ e ∈ sp, m.get e.1 < n ∧ ∀ i z, e.2[i]? = some z → z < n ∧ t.getD z 0 = bitOf (t.getD (m.get e.1) 0) i) →
    ∃ s' inv', initSplits m sp (s, inv) = some (s', inv') ∧ WLen n s' ∧ Agrees s' t ∧ ∀ j, Kn s j → Kn s' j := by
  intro sp
  induction sp with
  | nil => intro s inv hs ha _; exact ⟨s, inv, rfl, hs, ha, fun _ h => h⟩
  | cons e rest ih =>
    intro s inv hs ha he
    obtain ⟨k, zs⟩ := e
    obtain ⟨e1, e2⟩ := he (k, zs) List.mem_cons_self
    simp only at e1 e2
    have hr := fun x hx => he x (List.mem_cons_of_mem _ hx)
    rcases known_cases hs e1 with ⟨-, hk⟩ | ⟨hk, -⟩
    · obtain ⟨s1, h1, l1, a1, k1⟩ := putBits_agrees (m.get k) zs 0 s hs ha hk (fun i z hi => by simpa using e2 i z hi)
      obtain ⟨s', inv', h2, l2, a2, k2⟩ := ih s1 (invBits (m.get k) 0 zs inv) l1 a1 hr
      refine ⟨s', inv', ?_, l2, a2, fun j hj => k2 j (k1 j hj)⟩
      unfold initSplits
      unfold Kn at hk
      simp only [hk, if_true, h1]
      exact h2
    · obtain ⟨s', inv', h2, l2, a2, k2⟩ := ih s (invBits (m.get k) 0 zs inv) hs ha hr
      refine ⟨s', inv', ?_, l2, a2, k2⟩
      unfold initSplits
      simp only [hk, Bool.false_eq_true, if_false]
      exact h2

variable {I P : List Name} {rand : Bool} {s : St} {m : IndexMap} {sp : SplitMap} {gx : ZMod q → ZMod q} {rnd : Int} {t : List Int}

theorem Compiled.get_randIn (h : Compiled (q := q) I P rand s m sp) : m.get randIn ≠ 0 ↔ rand = true := by
  constructor
  · intro hne
    by_contra hr
    have hn : ¬ m.has randIn = true := by
      rw [h.idx.names]
      rintro (h' | h' | ⟨g, hg, -, he⟩ | ⟨h', -⟩)
      exacts [h.rin.1 h', h.rin.2.1 h', h.rin.2.2 (he ▸ h.computed_of_mem hg), hr h']
    apply hne
    unfold IndexMap.get
    rw [List.find?_eq_none.mpr, Option.map_none, Option.getD_none]
    intro x hx hxe
    apply hn
    unfold IndexMap.has
    rw [List.any_eq_true]
    exact ⟨x, hx, hxe⟩
  · intro hr h0
    have hn : m.has randIn = true := (h.idx.names _).mpr (Or.inr (Or.inr (Or.inr ⟨hr, Or.inl rfl⟩)))
    have := h.idx.inv.good.inj _ _ hn h.has_one.1 (h0.trans h.has_one.2.symm)
    exact h.rin.1 (by rw [this]; exact List.mem_cons_self)

theorem Compiled.init [Fact q.Prime] (h : Compiled (q := q) I P rand s m sp) (ht : Solution gx m rand s rnd t)
    {inputs : List (Name × Int)} (hin : ∀ n ∈ I, ∃ e ∈ inputs, e.1 = n)
    (hval : ∀ e ∈ inputs, e.1 ∈ I ∧ t.getD (m.get e.1) 0 = e.2) :
    ∃ w inv, initWitness m sp rnd inputs = some (w, inv) ∧ WLen m.length w ∧ Agrees w t ∧ Before I m [] w ∧
      (rand = true → Kn w (m.get randIn)) ∧ InvOK m s inv := by
  have h0 : 0 < m.length := names_pos h.idx (by simp)
  have hgood := h.idx.inv.good
  have hI : ∀ n ∈ I, m.has n = true := fun n hn => (h.idx.names n).mpr (Or.inr (Or.inl hn))
  obtain ⟨s1, h1, l1, a1, k1⟩ := put_agrees (n := m.length) (s := ⟨List.replicate m.length 0, List.replicate m.length false⟩) (t := t)
    (i := 0) (v := 1) ⟨by simp, by simp⟩ h0 (fun j hj => absurd hj (kn_replicate _ _ _)) ht.one
  obtain ⟨s2, h2, l2, a2, k2, r2⟩ : ∃ s2, (if m.get randIn ≠ 0 then s1.put (m.get randIn) rnd else some s1) = some s2 ∧
      WLen m.length s2 ∧ Agrees s2 t ∧ (∀ j, Kn s1 j → Kn s2 j) ∧ (rand = true → Kn s2 (m.get randIn)) := by
    by_cases hr : rand = true
    · rw [if_pos (h.get_randIn.mpr hr)]
      obtain ⟨s2, h2, l2, a2, k2⟩ := put_agrees l1 (hgood.lt randIn ((h.idx.names _).mpr (Or.inr (Or.inr (Or.inr ⟨hr, Or.inl rfl⟩)))))
        a1 (ht.rnd hr)
      exact ⟨s2, h2, l2, a2, fun j hj => (k2 j).mpr (Or.inr hj), fun _ => (k2 _).mpr (Or.inl rfl)⟩
    · rw [if_neg fun hh => hr (h.get_randIn.mp hh)]
      exact ⟨s1, rfl, l1, a1, fun _ h => h, fun h => absurd h hr⟩
  obtain ⟨s3, h3, l3, a3, k3, n3⟩ := putInputs_agrees (m := m) inputs s2 l2 a2 fun e he =>
    ⟨hgood.lt _ (hI _ (hval e he).1), (hval e he).2⟩
  obtain ⟨w, inv, h4, l4, a4, k4⟩ := initSplits_agrees (m := m) (t := t) sp s3 [] l3 a3 (by
    rintro ⟨k, zs⟩ he
    have hbits : ∀ i z, zs[i]? = some z → z < m.length ∧ t.getD z 0 = bitOf (t.getD (m.get k) 0) i := by
      intro i z hi
      obtain ⟨g, hg, htyp, rfl, hid, rfl⟩ := h.split_gate he hi
      exact ⟨hgood.lt _ (h.has_of_mem hg (h.zo_new hg htyp)), h.bit_val ht hg htyp hid⟩
    refine ⟨?_, hbits⟩
    simp only
    by_cases hk : m.has k = true
    · exact hgood.lt _ hk
    · have : m.get k = 0 := by
        unfold IndexMap.get
        rw [List.find?_eq_none.mpr, Option.map_none, Option.getD_none]
        intro x hx hxe
        apply hk
        unfold IndexMap.has
        rw [List.any_eq_true]
        exact ⟨x, hx, hxe⟩
      omega)
  have hinit : initWitness m sp rnd inputs = some (w, inv) := by
    unfold initWitness
    simp only []
    simp only [Option.bind_eq_bind]
    rw [h1, Option.bind_some, h2, Option.bind_some, h3, Option.bind_some]
    exact h4
  have hspec := initWitness_spec hinit
  refine ⟨w, inv, hinit, l4, a4, ⟨k4 _ (k3 _ (k2 _ ((k1 _).mpr (Or.inl rfl)))), fun n hn => ?_, by simp⟩,
    fun hr => k4 _ (k3 _ (r2 hr)), ⟨fun j c f hl => ?_, fun g hg htyp => hspec.invB _ (h.bitPos.mpr ⟨g, hg, htyp, rfl⟩)⟩⟩
  · obtain ⟨e, he, rfl⟩ := hin n hn
    exact k4 _ (n3 e he)
  · obtain ⟨e, he, rfl, hc⟩ := hspec.invL j c f hl
    obtain ⟨g, hg, htyp, h1, h2, h3⟩ := h.split_gate (k := e.1) (zs := e.2) he hc
    exact ⟨g, hg, htyp, by rw [h1, h2], h3, by rw [h1]⟩

/-! ### the loop -/

section loop
variable {α : Type} {inv : InvSplit} {entry : α → Nat → Int} {ok : α → Prop}

/-- the calculation goes through the rows of the gates -/
theorem Compiled.loop [Fact q.Prime] (h : Compiled (q := q) I P rand s m sp) (ht : Solution gx m rand s rnd t) (hi : InvOK m s inv)
    {step : Row α → WState → Option WState} {rows : List (Row α)} {gs : List Gate}
    (hall : List.Forall₂ (fun g row => RowIs q m (rowForms (swapLonger g)) entry ok row) gs rows)
    (hstep : ∀ row ∈ rows, ∀ w, WLen m.length w → Agrees w t → Ready q inv entry t row w →
      ∃ w', step row w = some w' ∧ StepDone m.length entry t row w w') :
    ∀ (pre : List Gate) (w : WState), s.c.gates = pre ++ gs → WLen m.length w → Agrees w t → Before I m pre w →
    ∃ w', rows.foldlM (fun w row => step row w) w = some w' ∧ WLen m.length w' ∧ Agrees w' t ∧ (∀ j, Kn w j → Kn w' j) ∧
      Before I m s.c.gates w' ∧ ∀ row ∈ rows, ∀ j, Mentions entry row j → Kn w' j := by
  induction hall with
  | nil =>
    intro pre w hg hl ha hb
    rw [List.append_nil] at hg
    exact ⟨w, rfl, hl, ha, fun _ h => h, hg ▸ hb, by simp⟩
  | @cons g row gs rows hrow hrest ih =>
    intro pre w hg hl ha hb
    obtain ⟨w1, h1, d⟩ := hstep row List.mem_cons_self w hl ha (h.ready ht hi hg hrow hb)
    have hmem : g ∈ s.c.gates := by rw [hg]; simp
    have hb' : Before I m (pre ++ [g]) w1 := by
      refine ⟨d.ext.kn _ hb.zero, fun n hn => d.ext.kn _ (hb.input n hn), fun g' hg' hn => ?_⟩
      rcases List.mem_append.mp hg' with hg' | hg'
      · exact d.ext.kn _ (hb.wires g' hg' hn)
      · simp at hg'; subst hg'
        exact d.known _ (h.mentions hmem hn hrow)
    obtain ⟨w', h2, l2, a2, k2, b2, n2⟩ := ih (fun r hr => hstep r (List.mem_cons_of_mem _ hr)) (pre ++ [g]) w1 (by simp [hg])
      d.len d.agrees hb'
    refine ⟨w', ?_, l2, a2, fun j hj => k2 j (d.ext.kn j hj), b2, fun r hr j hj => ?_⟩
    · rw [List.foldlM_cons, h1]; exact h2
    · rcases List.mem_cons.mp hr with rfl | hr
      exacts [k2 j (d.known j hj), n2 r hr j hj]

theorem forall₂_of_mapM {β γ : Type} {F : β → Option γ} {R : β → γ → Prop} : ∀ {l : List β} {r : List γ}, l.mapM F = some r →
    (∀ x ∈ l, ∀ y, F x = some y → R x y) → List.Forall₂ R l r := by
  intro l
  induction l with
  | nil => intro r h _; simp at h; subst h; exact .nil
  | cons a as ih =>
    intro r h hR
    rw [List.mapM_cons] at h
    obtain ⟨b, hb, h⟩ := Option.bind_eq_some_iff.mp h
    obtain ⟨bs, hbs, h⟩ := Option.bind_eq_some_iff.mp h
    cases h
    exact .cons (hR a List.mem_cons_self b hb) (ih hbs fun x hx => hR x (List.mem_cons_of_mem _ hx))

/-- a vector that agrees with the solution on everything a row mentions satisfies the row as well -/
theorem satE_agrees {w : List Int} {row : Row α} {n : Nat} (hl : w.length = n) (hl' : t.length = n)
    (h : ∀ j, Mentions entry row j → t.getD j 0 = w.getD j 0) (hs : SatE q gx entry t row) : SatE q gx entry w row := by
  have key : ∀ e : Nat → Int, (∀ j, e j ≠ 0 → Mentions entry row j) → dot q e w = dot q e t := by
    intro e he
    unfold dot
    rw [hl, hl']
    refine Finset.sum_congr rfl fun i _ => ?_
    by_cases h0 : e i = 0
    · rw [h0]; simp
    · rw [h i (he i h0)]
  unfold SatE RowSat at *
  rw [key _ fun j hj => Or.inl hj, key _ fun j hj => Or.inr (Or.inl hj), key _ fun j hj => Or.inr (Or.inr (Or.inl hj)),
    key _ fun j hj => Or.inr (Or.inr (Or.inr hj))]
  exact hs

/-- the whole calculation -/
theorem Compiled.complete [Fact q.Prime] (h : Compiled (q := q) I P rand s m sp) (ht : Solution gx m rand s rnd t)
    {inputs : List (Name × Int)} (hin : ∀ n ∈ I, ∃ e ∈ inputs, e.1 = n)
    (hval : ∀ e ∈ inputs, e.1 ∈ I ∧ t.getD (m.get e.1) 0 = e.2)
    {step : InvSplit → Row α → WState → Option WState} {rows all : List (Row α)}
    (hrows : List.Forall₂ (fun g row => RowIs q m (rowForms (swapLonger g)) entry ok row) s.c.gates rows)
    (hall : (rand = false ∧ all = rows) ∨ (rand = true ∧ ∃ rr, RowIs q m randForms entry ok rr ∧ all = rows ++ [rr]))
    (hsat : ∀ row ∈ all, SatE q gx entry t row)
    (hstep : ∀ inv, ∀ row ∈ all, ∀ w, WLen m.length w → Agrees w t → Ready q inv entry t row w →
      ∃ w', step inv row w = some w' ∧ StepDone m.length entry t row w w') :
    ∃ w : WState, (do
        let (w, inv) ← initWitness m sp rnd inputs
        all.foldlM (fun w row => step inv row w) w) = some w ∧ w.w.length = m.length ∧ w.w.getD 0 0 = 1 ∧
      (∀ e ∈ inputs, w.w.getD (m.get e.1) 0 = e.2) ∧ (∀ row ∈ all, SatE q gx entry w.w row) ∧
      (∀ n, Att I s n → w.w.getD (m.get n) 0 = t.getD (m.get n) 0) := by
  obtain ⟨w0, inv, h0, l0, a0, b0, r0, hi⟩ := h.init ht hin hval
  have fin : ∀ w : WState, WLen m.length w → Agrees w t → Before I m s.c.gates w →
      (∀ row ∈ all, ∀ j, Mentions entry row j → Kn w j) → w.w.length = m.length ∧ w.w.getD 0 0 = 1 ∧
      (∀ e ∈ inputs, w.w.getD (m.get e.1) 0 = e.2) ∧ (∀ row ∈ all, SatE q gx entry w.w row) ∧
      (∀ n, Att I s n → w.w.getD (m.get n) 0 = t.getD (m.get n) 0) := by
    intro w hl ha hb hm
    refine ⟨hl.w, ?_, fun e he => ?_, fun row hr => satE_agrees hl.w ht.len (fun j hj => ha j (hm row hr j hj)) (hsat row hr),
      fun n hn => ?_⟩
    · have := ha 0 hb.zero
      rw [ht.one] at this
      exact this.symm
    · have := ha _ (hb.input e.1 (hval e he).1)
      rw [(hval e he).2] at this
      exact this.symm
    · rcases h.att_cases hn with hI | ⟨g, hg, hnew, rfl⟩
      · exact (ha _ (hb.input n hI)).symm
      · exact (ha _ (hb.wires g hg hnew)).symm
  rcases hall with ⟨hr, rfl⟩ | ⟨hr, rr, hrr, rfl⟩
  · obtain ⟨w, h1, l1, a1, k1, b1, n1⟩ := h.loop ht hi hrows (hstep inv) [] w0 rfl l0 a0 b0
    refine ⟨w, ?_, fin w l1 a1 b1 n1⟩
    rw [h0]; exact h1
  · obtain ⟨w, h1, l1, a1, k1, b1, n1⟩ := h.loop ht hi hrows
      (fun row hrow => hstep inv row (List.mem_append_left _ hrow)) [] w0 rfl l0 a0 b0
    obtain ⟨w', h2, d⟩ := hstep inv rr (by simp) w l1 a1 (h.ready_rand hr hi hrr (k1 _ (r0 hr)))
    refine ⟨w', ?_, fin w' d.len d.agrees ⟨d.ext.kn _ b1.zero, fun n hn => d.ext.kn _ (b1.input n hn),
      fun g hg hn => d.ext.kn _ (b1.wires g hg hn)⟩ ?_⟩
    · rw [h0]
      simp only [Option.bind_eq_bind, Option.bind_some, List.foldlM_append, h1, List.foldlM_cons, List.foldlM_nil, h2]
      rfl
    · intro row hrow j hj
      rcases List.mem_append.mp hrow with hrow | hrow
      · exact d.ext.kn j (n1 row hrow j hj)
      · simp at hrow; subst hrow; exact d.known j hj

end loop

end APS.Circuit
