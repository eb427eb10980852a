import Verif.Proofs.WitnessSolution
import Verif.Spec.Witness

/-! Soundness of witness calculation: arbitrary systems, and compiled programs. -/
namespace APS.Circuit
open APS.Spec APS.Avl APS.Avl.Tree

variable {q : Nat}

theorem calculateWitness_sound [Fact q.Prime] {gxI : Int → Int} {gx : ZMod q → ZMod q} (hgx : GxRep gxI gx)
    {r : R1CS (List Int)} {rnd : Int} {inputs : List (Name × Int)} {w : List Int}
    (hrect : Rectangular List.length r.index.length r.rows) (hplain : BitsReadPlain q r.split r.rows)
    (h : calculateWitness q gxI r rnd inputs = some w) :
    w.length = r.index.length ∧ (∀ row ∈ r.rows, SatD q gx w row) ∧
      ∃ s inv, InitSpec r.index r.split rnd inputs s inv ∧ ∀ j, Kn s j → w.getD j 0 = wv s j := by
  unfold calculateWitness at h
  obtain ⟨⟨s, inv⟩, h1, h⟩ := Option.bind_eq_some_iff.mp h
  obtain ⟨s', h2, h⟩ := Option.bind_eq_some_iff.mp h
  cases h
  have hI := initWitness_spec h1
  have key := loop_sound (q := q) (gx := gx) (inv := inv) (n := r.index.length) (entry := denseEntry)
    (step := fun row s => stepD q gxI inv row s) r.rows [] s s' hI.len (by simp) (by
      intro pre row post he t t' ht hk hst
      obtain ⟨l1, l2, l3, l4⟩ := hrect row (by rw [he]; simp)
      refine stepD_sound hgx ⟨l1, l2, l3, l4⟩ ht (fun j _ => ?_) hst
      by_cases hkn : Kn t j
      · exact Or.inl hkn
      by_cases hl : inv.lookup j = none
      · exact Or.inr (Or.inl hl)
      · right; right
        have hb : IsBitPos r.split j := by
          cases hl' : inv.lookup j with
          | none => exact absurd hl' hl
          | some cf =>
            obtain ⟨e, he, -, hc⟩ := hI.invL j cf.1 cf.2 hl'
            exact ⟨e, he, List.mem_of_getElem? hc⟩
        have := hplain pre row post he j hb fun r' hr' hm => hkn (hk r' (by simpa using hr') j hm)
        exact ⟨this (row.L.getD j 0) List.mem_cons_self,
          this (row.R.getD j 0) (List.mem_cons_of_mem _ List.mem_cons_self),
          this (row.E.getD j 0) (List.mem_cons_of_mem _ (List.mem_cons_of_mem _ List.mem_cons_self)),
          this (row.O.getD j 0) (List.mem_cons_of_mem _ (List.mem_cons_of_mem _ (List.mem_cons_of_mem _ List.mem_cons_self)))⟩) h2
  obtain ⟨a1, a2, a3, -⟩ := key
  exact ⟨a1.w, fun row hr => a3 row hr s'.w a1.w (agrees_self s'), s, inv, hI, fun j hj => a2.val j hj⟩

theorem calculateSparseWitness_sound [Fact q.Prime] {gxI : Int → Int} {gx : ZMod q → ZMod q} (hgx : GxRep gxI gx)
    {r : R1CS Tree} {rnd : Int} {inputs : List (Name × Int)} {w : List Int}
    (hok : ∀ row ∈ r.rows, OkRow (OkTree r.index.length) row)
    (h : calculateSparseWitness q gxI r rnd inputs = some w) :
    w.length = r.index.length ∧ (∀ row ∈ r.rows, SatS q gx w row) ∧
      ∃ s inv, InitSpec r.index r.split rnd inputs s inv ∧ ∀ j, Kn s j → w.getD j 0 = wv s j := by
  unfold calculateSparseWitness at h
  obtain ⟨⟨s, inv⟩, h1, h⟩ := Option.bind_eq_some_iff.mp h
  obtain ⟨s', h2, h⟩ := Option.bind_eq_some_iff.mp h
  cases h
  have hI := initWitness_spec h1
  have key := loop_sound (q := q) (gx := gx) (inv := inv) (n := r.index.length) (entry := sparseEntry)
    (step := fun row s => stepS q gxI inv row s) r.rows [] s s' hI.len (by simp) (by
      intro pre row post he t t' ht hk hst
      exact stepS_sound hgx (hok row (by rw [he]; simp)) ht hst) h2
  obtain ⟨a1, a2, a3, -⟩ := key
  exact ⟨a1.w, fun row hr => a3 row hr s'.w a1.w (agrees_self s'), s, inv, hI, fun j hj => a2.val j hj⟩

variable {I P : List Name} {rand : Bool} {s : St} {m : IndexMap} {sp : SplitMap}

/-- what the initial state gives for a compiled program -/
theorem Compiled.init_vals (h : Compiled (q := q) I P rand s m sp) {rnd : Int} {inputs : List (Name × Int)} {w0 : WState}
    {inv : InvSplit} (hI : InitSpec m sp rnd inputs w0 inv) (hin : ∀ e ∈ inputs, e.1 ∈ I) (hnd : (inputs.map Prod.fst).Nodup)
    {w : List Int} (hw : ∀ j, Kn w0 j → w.getD j 0 = wv w0 j) :
    w.getD 0 0 = 1 ∧ (∀ e ∈ inputs, w.getD (m.get e.1) 0 = e.2) ∧ (rand = true → w.getD (m.get randIn) 0 = rnd) := by
  have hgood := h.idx.inv.good
  have hhas : ∀ e ∈ inputs, m.has e.1 = true := fun e he => (h.idx.names _).mpr (Or.inr (Or.inl (hin e he)))
  have hnb : ∀ e ∈ inputs, ¬ BitPos sp (m.get e.1) := fun e he => h.not_bit (hhas e he) fun g hg _ hge =>
    h.disj _ (hin e he) (hge ▸ h.computed_of_mem hg)
  have hnd' : (inputs.map fun e => m.get e.1).Nodup := by
    have : (inputs.map fun e => m.get e.1) = (inputs.map Prod.fst).map m.get := by simp
    rw [this]
    refine List.Nodup.map_on (fun a ha b hb hab => ?_) hnd
    obtain ⟨ea, h1, rfl⟩ := List.mem_map.mp ha
    obtain ⟨eb, h2, rfl⟩ := List.mem_map.mp hb
    exact hgood.inj _ _ (hhas ea h1) (hhas eb h2) hab
  refine ⟨?_, fun e he => ?_, fun hr => ?_⟩
  · obtain ⟨a, b⟩ := hI.one (fun e he h0 => h.one.1 (by
      have := hgood.inj _ _ (hhas e he) h.has_one.1 (h0.trans h.has_one.2.symm)
      rw [← this]; exact hin e he)) h.not_bit_zero
    rw [hw 0 a, b]
  · obtain ⟨a, b⟩ := hI.input hnd' e he (hnb e he)
    rw [hw _ a, b]
  · have hn : m.has randIn = true := (h.idx.names _).mpr (Or.inr (Or.inr (Or.inr ⟨hr, Or.inl rfl⟩)))
    obtain ⟨a, b⟩ := hI.rand (h.get_randIn.mpr hr) (fun e he h0 => h.rin.2.1 (by
      rw [← hgood.inj _ _ (hhas e he) hn h0]; exact hin e he)) (h.not_bit hn fun g hg _ he =>
        h.rin.2.2 (he ▸ h.computed_of_mem hg))
    rw [hw _ a, b]

/-- splitting the gates along a splitting of the rows -/
theorem forall₂_split {β γ : Type} {R : β → γ → Prop} : ∀ {l : List β} {r : List γ}, List.Forall₂ R l r →
    ∀ {pre : List γ} {y : γ} {post : List γ}, r = pre ++ y :: post →
    ∃ pre' x post', l = pre' ++ x :: post' ∧ List.Forall₂ R pre' pre ∧ R x y := by
  intro l r h
  induction h with
  | nil => intro pre y post he; simp at he
  | @cons a b as bs hab hrest ih =>
    intro pre y post he
    cases pre with
    | nil =>
      simp at he
      obtain ⟨rfl, rfl⟩ := he
      exact ⟨[], a, as, rfl, .nil, hab⟩
    | cons c pre =>
      simp at he
      obtain ⟨rfl, he⟩ := he
      obtain ⟨pre', x, post', rfl, h1, h2⟩ := ih he
      exact ⟨a :: pre', x, post', rfl, .cons hab h1, h2⟩

theorem forall₂_left {β γ : Type} {R : β → γ → Prop} {l : List β} {r : List γ} (h : List.Forall₂ R l r) :
    ∀ x ∈ l, ∃ y ∈ r, R x y := by
  induction h with
  | nil => simp
  | @cons a b as bs hab _ ih =>
    intro x hx
    rcases List.mem_cons.mp hx with rfl | hx
    · exact ⟨b, List.mem_cons_self, hab⟩
    · obtain ⟨y, hy, hr⟩ := ih x hx
      exact ⟨y, List.mem_cons_of_mem _ hy, hr⟩

section
variable {α : Type} {entry : α → Nat → Int} {ok : α → Prop}

/-- a gate row that mentions the position of a bit belongs to that bit's gate, or the bit was made before -/
theorem Compiled.bit_row (h : Compiled (q := q) I P rand s m sp) {pre post : List Gate} {g g0 : Gate}
    (hg : s.c.gates = pre ++ g :: post) (hg0 : g0 ∈ s.c.gates) (ht0 : g0.typ = .zeroOrOne) {row : Row α}
    (hrow : RowIs q m (rowForms (swapLonger g)) entry ok row) (hm : Mentions entry row (m.get g0.ident)) : g0 ∈ pre ∨ g0 = g := by
  have hmem : g ∈ s.c.gates := by rw [hg]; simp
  have ho := h.wf.ord pre g post hg
  have ha := h.att g (Or.inl hmem)
  have hs := (h.wf.forms g hmem).shape
  have hhas0 := h.has_of_mem hg0 (h.zo_new hg0 ht0)
  have hinj := h.idx.inv.good.inj
  have hz : m.get g0.ident ≠ 0 := fun h0 => h.one.2 (by
    rw [← hinj _ _ hhas0 h.has_one.1 (h0.trans h.has_one.2.symm)]; exact h.computed_of_mem hg0)
  -- a form over known names
  have K : ∀ {f : Factors}, KnownF (I ++ pre.map (·.ident)) f → AttF I s f → ∀ x ∈ f, pos m x = m.get g0.ident → g0 ∈ pre := by
    intro f hk hat x hx he
    unfold pos at he
    by_cases hn : x.tok.isNum = true
    · rw [if_pos hn] at he; exact absurd he.symm hz
    · rw [if_neg hn] at he
      have hkey : some x.tok.ident ∈ f.map Factor.key := List.mem_map.mpr ⟨x, hx, by simp [Factor.key, hn]⟩
      have hid := hinj _ _ (att_has h.conf h.idx (hat _ hkey)) hhas0 he
      rcases List.mem_append.mp (hk _ hkey) with hI | hp
      · exact absurd (h.computed_of_mem hg0) (h.disj _ (hid ▸ hI))
      · obtain ⟨g1, hg1, h1⟩ := List.mem_map.mp hp
        have : g1 = g0 := h.ident_inj (by rw [hg]; exact List.mem_append_left _ hg1) hg0 (h1.trans hid)
        exact this ▸ hg1
  -- the wire of the gate itself
  have W : g.noNew = false → ∀ v, ∀ x ∈ [argF g.ident v], pos m x = m.get g0.ident → g0 = g := by
    intro hn v x hx he
    simp at hx; subst hx
    simp only [pos, argF, Bool.false_eq_true, if_false] at he
    exact h.ident_inj hg0 hmem (hinj _ _ (h.has_of_mem hmem hn) hhas0 he).symm
  have U : ∀ v, ∀ x ∈ [numF v], pos m x ≠ m.get g0.ident := by
    intro v x hx
    simp at hx; subst hx
    simp only [pos, numF, if_true]
    exact Ne.symm hz
  obtain ⟨x, hx, he⟩ := hrow.supp hm
  rcases swap_forms hs with hf | ⟨htyp, hf⟩
  · rw [hf] at hx
    cases ht : g.typ with
    | mult =>
      simp only [OrdGate, ht] at ho
      simp only [GateShape, ht] at hs
      simp only [rowForms, ht] at hx
      rcases ho with ⟨o1, o2, o3⟩ | ⟨o1, o2, o3⟩
      · rcases hx with hx | hx | hx | hx
        · exact Or.inl (K o1 ha.left x hx he)
        · exact Or.inl (K o2 ha.right x hx he)
        · cases hx
        · rw [o3] at hx; exact Or.inr (W hs.2 1 x hx he)
      · rcases hx with hx | hx | hx | hx
        · rw [o1] at hx; exact Or.inr (W hs.2 1 x hx he)
        · exact Or.inl (K o2 ha.right x hx he)
        · cases hx
        · exact Or.inl (K o3 ha.out x hx he)
    | scalarBase =>
      simp only [OrdGate, ht] at ho
      simp only [GateShape, ht] at hs
      simp only [rowForms, ht] at hx
      rcases hx with hx | hx | hx | hx
      · cases hx
      · cases hx
      · exact Or.inl (K ho ha.expo x hx he)
      · exact Or.inr (W hs.2.2.2 1 x hx he)
    | equality =>
      simp only [OrdGate, ht] at ho
      simp only [rowForms, ht] at hx
      rcases hx with hx | hx | hx | hx
      · exact Or.inl (K ho.1 ha.left x hx he)
      · exact absurd he (U 1 x hx)
      · cases hx
      · exact Or.inl (K ho.2 ha.right x hx he)
    | zeroOrOne =>
      simp only [GateShape, ht] at hs
      simp only [rowForms, ht] at hx
      rcases hx with hx | hx | hx | hx
      · rcases List.mem_cons.mp hx with rfl | hx
        · exact absurd he (U (-1) _ (by simp))
        · exact Or.inr (W hs.2.2.2.2 1 x hx he)
      · exact Or.inr (W hs.2.2.2.2 1 x hx he)
      · cases hx
      · cases hx
    | addition =>
      simp only [OrdGate, ht] at ho
      simp only [GateShape, ht] at hs
      simp only [rowForms, ht] at hx
      rcases hx with hx | hx | hx | hx
      · exact Or.inl (K ho.1 ha.left x hx he)
      · exact absurd he (U 1 x hx)
      · cases hx
      · rw [ho.2] at hx; exact Or.inr (W hs.2.2 1 x hx he)
    | sumCheck =>
      simp only [OrdGate, ht] at ho
      simp only [rowForms, ht] at hx
      have hb := h.const g hmem (Or.inl ht)
      rcases hx with hx | hx | hx | hx
      · exact Or.inl (K ho.1 ha.left x hx he)
      · exact absurd he (U 1 x hx)
      · cases hx
      · refine Or.inl (K (f := [argF g.arith.ident 1]) (fun n hn => ?_) (fun n hn => ?_) x hx he)
        · simp [Factor.key, argF] at hn; subst hn; exact List.mem_append.mp (ho.2 hb) |> List.mem_append.mpr
        · simp [Factor.key, argF] at hn; subst hn; exact ha.arith (Or.inl ht) hb
  · rw [hf] at hx
    rcases htyp with ht | ht
    · simp only [OrdGate, ht] at ho
      simp only [GateShape, ht] at hs
      simp only [rowForms, ht] at hx
      rcases ho with ⟨o1, o2, o3⟩ | ⟨o1, o2, o3⟩
      · rcases hx with hx | hx | hx | hx
        · exact Or.inl (K o2 ha.right x hx he)
        · exact Or.inl (K o1 ha.left x hx he)
        · cases hx
        · rw [o3] at hx; exact Or.inr (W hs.2 1 x hx he)
      · rcases hx with hx | hx | hx | hx
        · exact Or.inl (K o2 ha.right x hx he)
        · rw [o1] at hx; exact Or.inr (W hs.2 1 x hx he)
        · cases hx
        · exact Or.inl (K o3 ha.out x hx he)
    · simp only [OrdGate, ht] at ho
      simp only [rowForms, ht] at hx
      rcases hx with hx | hx | hx | hx
      · exact Or.inl (K ho.2 ha.right x hx he)
      · exact absurd he (U 1 x hx)
      · cases hx
      · exact Or.inl (K ho.1 ha.left x hx he)

end

/-- the rows of a compiled program read bits plainly -/
theorem Compiled.plain [Fact q.Prime] (h : Compiled (q := q) I P rand s m sp) {rows all : List (Row (List Int))}
    (hrows : List.Forall₂ (fun g row => rowDense m g = some row) s.c.gates rows)
    (hall : (rand = false ∧ all = rows) ∨ (rand = true ∧ ∃ rr, randRowDense m = some rr ∧ all = rows ++ [rr])) :
    BitsReadPlain q sp all ∧ Rectangular List.length m.length all := by
  have hgood := h.idx.inv.good
  have h0 : 0 < m.length := names_pos h.idx (by simp)
  have his : ∀ g ∈ s.c.gates, ∀ row, rowDense m g = some row →
      RowIs q m (rowForms (swapLonger g)) denseEntry (fun a => a.length = m.length) row := fun g hg row he =>
    rowDense_is hgood h0 (h.gok g hg) he
  have main : ∀ pre row post, rows = pre ++ row :: post → ∀ j, IsBitPos sp j → (∀ r ∈ pre, ¬ MentionsD r j) →
      ∀ e ∈ [row.L.getD j 0, row.R.getD j 0, row.E.getD j 0, row.O.getD j 0], e = 0 ∨ ((e : Int) : ZMod q) = 1 := by
    intro pre row post he j hj hpre
    obtain ⟨g0, hg0, ht0, rfl⟩ := h.bitPos.mp hj
    obtain ⟨pre', g, post', hsplit, hp, hrow⟩ := forall₂_split hrows he
    have hmem : g ∈ s.c.gates := by rw [hsplit]; simp
    have hR := his g hmem row hrow
    by_cases hm : Mentions denseEntry row (m.get g0.ident)
    · rcases h.bit_row hsplit hg0 ht0 hR hm with hin | rfl
      · obtain ⟨r0, hr0, he0⟩ := forall₂_left hp g0 hin
        exact absurd (h.mentions hg0 (h.zo_new hg0 ht0) (his g0 hg0 r0 he0)) (hpre r0 hr0)
      · -- the row of the bit itself
        have hsw : (swapLonger g0).typ = .zeroOrOne := by rw [swapLonger_typ]; exact ht0
        have hid : (swapLonger g0).ident = g0.ident := by unfold swapLonger; split <;> rfl
        obtain ⟨w1, w2⟩ := (h.gok g0 hg0).wire (Or.inr ht0)
        unfold rowForms at hR
        simp only [hsw, hid] at hR
        have zero_of : ∀ {e : Nat → Int}, Side q m [] e → e (m.get g0.ident) = 0 := fun hs => by
          by_contra hne
          obtain ⟨x, hx, -⟩ := hs.supp _ hne
          cases hx
        intro e he
        simp only [List.mem_cons, List.not_mem_nil, or_false] at he
        rcases he with rfl | rfl | rfl | rfl
        · right
          have := hR.L.val (m.get g0.ident)
          rw [coef_zo m _ w2, if_pos rfl] at this
          first | exact this | (rw [Int.cast_one] at this; exact this)
        · right
          have := hR.R.val (m.get g0.ident)
          rw [coef_argF, if_pos rfl] at this
          first | exact this | (rw [Int.cast_one] at this; exact this)
        · exact Or.inl (zero_of hR.E)
        · exact Or.inl (zero_of hR.O)
    · unfold Mentions at hm
      push Not at hm
      intro e he
      simp only [List.mem_cons, List.not_mem_nil, or_false] at he
      rcases he with rfl | rfl | rfl | rfl
      exacts [Or.inl hm.1, Or.inl hm.2.1, Or.inl hm.2.2.1, Or.inl hm.2.2.2]
  have rect : Rectangular List.length m.length rows := by
    intro row hr
    obtain ⟨pre, post, he⟩ := List.append_of_mem hr
    obtain ⟨pre', g, post', hsplit, -, hrow⟩ := forall₂_split hrows he
    have := (his g (by rw [hsplit]; simp) row hrow).ok
    exact ⟨this.L, this.R, this.E, this.O⟩
  rcases hall with ⟨-, rfl⟩ | ⟨hr, rr, hrr, rfl⟩
  · exact ⟨main, rect⟩
  · have hR := randDense_is (q := q) hgood h0 hrr
    refine ⟨fun pre row post he j hj hpre => ?_, fun row hrow => ?_⟩
    · rcases List.append_eq_append_iff.mp he with ⟨as, e1, e2⟩ | ⟨bs, e1, e2⟩
      · -- the randomizer row comes at the position of `row`
        cases as with
        | nil =>
          simp at e2
          obtain ⟨rfl, -⟩ := e2
          -- it mentions no bit
          obtain ⟨g0, hg0, ht0, rfl⟩ := h.bitPos.mp hj
          have hhas0 := h.has_of_mem hg0 (h.zo_new hg0 ht0)
          have hno : ¬ Mentions denseEntry rr (m.get g0.ident) := by
            intro hm
            obtain ⟨x, hx, he⟩ := hR.supp hm
            have hn : x = argF randIn 1 ∨ x = argF randOut 1 := by
              simp [randForms] at hx; exact hx
            have hx' : ∀ n, n = randIn ∨ n = randOut → m.get n = m.get g0.ident → False := by
              intro n hn he
              have := h.idx.inv.good.inj _ _ ((h.idx.names n).mpr (Or.inr (Or.inr (Or.inr ⟨hr, hn⟩)))) hhas0 he
              rcases hn with rfl | rfl
              · exact h.rin.2.2 (this ▸ h.computed_of_mem hg0)
              · exact (h.rout hr).2.2 (this ▸ h.computed_of_mem hg0)
            rcases hn with rfl | rfl
            · exact hx' randIn (Or.inl rfl) (by simpa [pos, argF] using he)
            · exact hx' randOut (Or.inr rfl) (by simpa [pos, argF] using he)
          unfold Mentions at hno
          push Not at hno
          intro e he
          simp only [List.mem_cons, List.not_mem_nil, or_false] at he
          rcases he with rfl | rfl | rfl | rfl
          exacts [Or.inl hno.1, Or.inl hno.2.1, Or.inl hno.2.2.1, Or.inl hno.2.2.2]
        | cons a as =>
          simp at e2
      · cases bs with
        | nil =>
          simp at e2
          obtain ⟨rfl, rfl⟩ := e2
          simp at e1
          subst e1
          obtain ⟨g0, hg0, ht0, rfl⟩ := h.bitPos.mp hj
          have hhas0 := h.has_of_mem hg0 (h.zo_new hg0 ht0)
          have hno : ¬ Mentions denseEntry row (m.get g0.ident) := by
            intro hm
            obtain ⟨x, hx, he⟩ := hR.supp hm
            have hn : x = argF randIn 1 ∨ x = argF randOut 1 := by
              simp [randForms] at hx; exact hx
            have hx' : ∀ n, n = randIn ∨ n = randOut → m.get n = m.get g0.ident → False := by
              intro n hn he
              have := h.idx.inv.good.inj _ _ ((h.idx.names n).mpr (Or.inr (Or.inr (Or.inr ⟨hr, hn⟩)))) hhas0 he
              rcases hn with rfl | rfl
              · exact h.rin.2.2 (this ▸ h.computed_of_mem hg0)
              · exact (h.rout hr).2.2 (this ▸ h.computed_of_mem hg0)
            rcases hn with rfl | rfl
            · exact hx' randIn (Or.inl rfl) (by simpa [pos, argF] using he)
            · exact hx' randOut (Or.inr rfl) (by simpa [pos, argF] using he)
          unfold Mentions at hno
          push Not at hno
          intro e he
          simp only [List.mem_cons, List.not_mem_nil, or_false] at he
          rcases he with rfl | rfl | rfl | rfl
          exacts [Or.inl hno.1, Or.inl hno.2.1, Or.inl hno.2.2.1, Or.inl hno.2.2.2]
        | cons b bs =>
          simp at e2
          obtain ⟨rfl, rfl⟩ := e2
          exact main pre row bs e1 j hj hpre
    · rcases List.mem_append.mp hrow with hrow | hrow
      · exact rect row hrow
      · simp at hrow; subst hrow
        exact ⟨hR.ok.L, hR.ok.R, hR.ok.E, hR.ok.O⟩

end APS.Circuit
