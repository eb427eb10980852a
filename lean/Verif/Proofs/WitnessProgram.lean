import Verif.Proofs.RowForms
import Verif.Proofs.SplitSeq
import Verif.Proofs.WitnessComplete

/-! Witness calculation for compiled programs. -/
namespace APS.Circuit
open APS.Spec APS.Avl APS.Avl.Tree

variable {q : Nat}

/-! ### one row -/

section ready
variable {α : Type} {inv : InvSplit} {entry : α → Nat → Int} {ok : α → Prop} {m : IndexMap} {F : Row Factors} {row : Row α}
  {t : List Int} {s : WState}

theorem RowIs.supp (h : RowIs q m F entry ok row) {j : Nat} (hj : Mentions entry row j) :
    ∃ x, (x ∈ F.L ∨ x ∈ F.R ∨ x ∈ F.E ∨ x ∈ F.O) ∧ pos m x = j := by
  rcases hj with hj | hj | hj | hj
  · obtain ⟨x, hx, e⟩ := h.L.supp j hj; exact ⟨x, Or.inl hx, e⟩
  · obtain ⟨x, hx, e⟩ := h.R.supp j hj; exact ⟨x, Or.inr (Or.inl hx), e⟩
  · obtain ⟨x, hx, e⟩ := h.E.supp j hj; exact ⟨x, Or.inr (Or.inr (Or.inl hx)), e⟩
  · obtain ⟨x, hx, e⟩ := h.O.supp j hj; exact ⟨x, Or.inr (Or.inr (Or.inr hx)), e⟩

/-- all positions of a form are set -/
def KnF (m : IndexMap) (s : WState) (f : Factors) : Prop := ∀ x ∈ f, Kn s (pos m x)

theorem ready_known (h : RowIs q m F entry ok row) (hL : KnF m s F.L) (hR : KnF m s F.R) (hE : KnF m s F.E) (hO : KnF m s F.O) :
    Ready q inv entry t row s := by
  have hk : ∀ j, Mentions entry row j → Kn s j := by
    intro j hj
    obtain ⟨x, hx, rfl⟩ := h.supp hj
    rcases hx with hx | hx | hx | hx
    exacts [hL x hx, hR x hx, hE x hx, hO x hx]
  exact .known (fun j hj => Or.inl (hk j hj)) fun j hj hn => absurd (hk j hj) hn

theorem side_zero {f : Factors} {e : Nat → Int} (h : Side q m f e) (hf : KnF m s f) {j : Nat} (hj : ¬ Kn s j) : e j = 0 := by
  by_contra hne
  obtain ⟨x, hx, rfl⟩ := h.supp j hne
  exact hj (hf x hx)

theorem side_single [Fact q.Prime] {n : Name} {e : Nat → Int} (h : Side q m [argF n 1] e) : (e (m.get n) : ZMod q) ≠ 0 := by
  rw [h.val, coef_argF, if_pos rfl]; simp

theorem side_single_supp {n : Name} {f : Factors} {e : Nat → Int} (h : Side q m f e) (hf : f = [argF n 1]) {j : Nat} (hj : e j ≠ 0) :
    j = m.get n := by
  obtain ⟨x, hx, rfl⟩ := h.supp j hj
  subst hf
  simp at hx; subst hx
  simp [pos, argF]

theorem knF_single {n : Name} (h : Kn s (m.get n)) : KnF m s [argF n 1] := by
  intro x hx
  simp at hx; subst hx
  simpa [pos, argF] using h

theorem ready_out [Fact q.Prime] (h : RowIs q m F entry ok row) {n : Name} (hO : F.O = [argF n 1]) (hL : KnF m s F.L)
    (hR : KnF m s F.R) (hE : KnF m s F.E) (hl : inv.lookup (m.get n) = none) : Ready q inv entry t row s := by
  by_cases hn : Kn s (m.get n)
  · exact ready_known h hL hR hE (by rw [hO]; exact knF_single hn)
  · refine .solve (m.get n) hn hl (fun j hj => ?_) (Or.inr (Or.inr ⟨side_single (hO ▸ h.O), side_zero h.L hL hn,
      side_zero h.R hR hn, side_zero h.E hE hn⟩))
    rcases hj with hj | hj | hj | hj
    · obtain ⟨x, hx, rfl⟩ := h.L.supp j hj; exact Or.inl (hL x hx)
    · obtain ⟨x, hx, rfl⟩ := h.R.supp j hj; exact Or.inl (hR x hx)
    · obtain ⟨x, hx, rfl⟩ := h.E.supp j hj; exact Or.inl (hE x hx)
    · exact Or.inr (side_single_supp h.O hO hj)

theorem ready_left [Fact q.Prime] (h : RowIs q m F entry ok row) {n : Name} (hL : F.L = [argF n 1]) (hR : KnF m s F.R)
    (hE : KnF m s F.E) (hO : KnF m s F.O) (hl : inv.lookup (m.get n) = none) (hd : dot q (entry row.R) t ≠ 0) :
    Ready q inv entry t row s := by
  by_cases hn : Kn s (m.get n)
  · exact ready_known h (by rw [hL]; exact knF_single hn) hR hE hO
  · refine .solve (m.get n) hn hl (fun j hj => ?_) (Or.inl ⟨side_single (hL ▸ h.L), side_zero h.R hR hn,
      side_zero h.E hE hn, side_zero h.O hO hn, hd⟩)
    rcases hj with hj | hj | hj | hj
    · exact Or.inr (side_single_supp h.L hL hj)
    · obtain ⟨x, hx, rfl⟩ := h.R.supp j hj; exact Or.inl (hR x hx)
    · obtain ⟨x, hx, rfl⟩ := h.E.supp j hj; exact Or.inl (hE x hx)
    · obtain ⟨x, hx, rfl⟩ := h.O.supp j hj; exact Or.inl (hO x hx)

theorem ready_right [Fact q.Prime] (h : RowIs q m F entry ok row) {n : Name} (hR : F.R = [argF n 1]) (hL : KnF m s F.L)
    (hE : KnF m s F.E) (hO : KnF m s F.O) (hl : inv.lookup (m.get n) = none) (hd : dot q (entry row.L) t ≠ 0) :
    Ready q inv entry t row s := by
  by_cases hn : Kn s (m.get n)
  · exact ready_known h hL (by rw [hR]; exact knF_single hn) hE hO
  · refine .solve (m.get n) hn hl (fun j hj => ?_) (Or.inr (Or.inl ⟨side_single (hR ▸ h.R), side_zero h.L hL hn,
      side_zero h.E hE hn, side_zero h.O hO hn, hd⟩))
    rcases hj with hj | hj | hj | hj
    · obtain ⟨x, hx, rfl⟩ := h.L.supp j hj; exact Or.inl (hL x hx)
    · exact Or.inr (side_single_supp h.R hR hj)
    · obtain ⟨x, hx, rfl⟩ := h.E.supp j hj; exact Or.inl (hE x hx)
    · obtain ⟨x, hx, rfl⟩ := h.O.supp j hj; exact Or.inl (hO x hx)

theorem side_dot {f : Factors} {e : Nat → Int} (h : Side q m f e) (h1 : ((t.getD 0 0 : Int) : ZMod q) = 1)
    (hlt : ∀ x ∈ f, pos m x < t.length) : dot q e t = formVal (valsOf q m t) f := by
  rw [dot_congr fun i _ => h.val i, dot_coef h1 f hlt]

theorem mentions_of_side [Fact q.Prime] (h : RowIs q m F entry ok row) {n : Name}
    (hF : F.L = [argF n 1] ∨ F.R = [argF n 1] ∨ F.E = [argF n 1] ∨ F.O = [argF n 1]) : Mentions entry row (m.get n) := by
  have nz : ∀ {v : Int}, (v : ZMod q) ≠ 0 → v ≠ 0 := fun h h' => h (by rw [h']; simp)
  rcases hF with hF | hF | hF | hF
  · exact Or.inl (nz (side_single (hF ▸ h.L)))
  · exact Or.inr (Or.inl (nz (side_single (hF ▸ h.R))))
  · exact Or.inr (Or.inr (Or.inl (nz (side_single (hF ▸ h.E)))))
  · exact Or.inr (Or.inr (Or.inr (nz (side_single (hF ▸ h.O)))))

end ready

/-! ### the gates of a program -/

/-- what is known about a compiled program and its index map -/
structure Compiled (I P : List Name) (rand : Bool) (s : St) (m : IndexMap) (sp : SplitMap) : Prop where
  wf : WF I s
  att : SplitAtt I s
  conf : NoConfusion s
  const : NoConstSplit s
  idx : IndexSpec (oneName :: P) I s.c.gates rand m
  one : oneName ∉ I ∧ oneName ∉ s.c.computed
  disj : ∀ n ∈ I, n ∉ s.c.computed
  rin : randIn ∉ oneName :: P ∧ randIn ∉ I ∧ randIn ∉ s.c.computed
  rout : rand = true → randOut ∉ oneName :: P ∧ randOut ∉ I ∧ randOut ∉ s.c.computed
  split : SplitSpec m sp s.c.gates
  seq : ZoSeq (Fq.bitLen q) s.c.gates
  gok : ∀ g ∈ s.c.gates, GateOK m g

variable {I P : List Name} {rand : Bool} {s : St} {m : IndexMap} {sp : SplitMap}

theorem Compiled.ident_inj (h : Compiled (q := q) I P rand s m sp) {g g' : Gate} (hg : g ∈ s.c.gates) (hg' : g' ∈ s.c.gates)
    (he : g.ident = g'.ident) : g = g' := by
  have hnd := h.wf.nodup
  rw [h.wf.comp] at hnd
  exact List.inj_on_of_nodup_map hnd hg hg' he

/-- an attended name is an input or the wire of a gate that was kept -/
theorem Compiled.att_cases (h : Compiled (q := q) I P rand s m sp) {n : Name} (ha : Att I s n) :
    n ∈ I ∨ ∃ g ∈ s.c.gates, g.noNew = false ∧ g.ident = n := by
  rcases ha with ha | ⟨g, hg | hg, h1, h2⟩
  · exact Or.inl ha
  · exact Or.inr ⟨g, hg, h1, h2⟩
  · obtain ⟨g', hg', hs⟩ := h.conf g hg
    refine Or.inr ⟨g', hg', ?_⟩
    rcases hs with rfl | ⟨-, rfl⟩
    exacts [⟨h1, h2⟩, ⟨h1, h2⟩]

theorem Compiled.has_of_mem (h : Compiled (q := q) I P rand s m sp) {g : Gate} (hg : g ∈ s.c.gates) (hn : g.noNew = false) :
    m.has g.ident = true := (h.idx.names _).mpr (Or.inr (Or.inr (Or.inl ⟨g, hg, hn, rfl⟩)))

theorem Compiled.zo_new (h : Compiled (q := q) I P rand s m sp) {g : Gate} (hg : g ∈ s.c.gates) (ht : g.typ = .zeroOrOne) :
    g.noNew = false := by
  have := (h.wf.forms g hg).shape
  simp only [GateShape, ht] at this
  exact this.2.2.2.2

/-- where the entries of the split map come from -/
theorem Compiled.split_gate (h : Compiled (q := q) I P rand s m sp) {k : Name} {zs : List Nat} (he : (k, zs) ∈ sp) {c j : Nat}
    (hc : zs[c]? = some j) : ∃ g ∈ s.c.gates, g.typ = .zeroOrOne ∧ g.arith.ident = k ∧ g.ident = bitName c k ∧ j = m.get g.ident := by
  have hz := h.split.entry k zs he
  have hne : zoIdents s.c.gates k ≠ [] := by
    intro h0
    rw [h0] at hz
    subst hz
    simp at hc
  have hs := (h.seq k).resolve_left hne
  rw [hz, hs, List.map_map, List.getElem?_map] at hc
  obtain ⟨i, hi, rfl⟩ := Option.map_eq_some_iff.mp hc
  have hic : i = c := by
    rw [List.getElem?_range (by
      by_contra hge
      rw [List.getElem?_eq_none (by simpa using hge)] at hi
      cases hi)] at hi
    exact (Option.some.inj hi).symm
  subst hic
  have hmem : bitName i k ∈ zoIdents s.c.gates k := by
    rw [hs]
    exact List.mem_map.mpr ⟨i, List.mem_of_getElem? hi, rfl⟩
  obtain ⟨g, hg, hid⟩ := List.mem_map.mp hmem
  rw [List.mem_filter] at hg
  obtain ⟨hg, hz'⟩ := hg
  simp only [isZO, Bool.and_eq_true, decide_eq_true_eq] at hz'
  exact ⟨g, hg, hz'.1, hz'.2, hid, by simp [hid]⟩

/-- bit positions are the positions of bit wires -/
theorem Compiled.bitPos (h : Compiled (q := q) I P rand s m sp) {j : Nat} :
    BitPos sp j ↔ ∃ g ∈ s.c.gates, g.typ = .zeroOrOne ∧ j = m.get g.ident := by
  constructor
  · rintro ⟨⟨k, zs⟩, he, hj⟩
    obtain ⟨c, hc⟩ := List.getElem?_of_mem hj
    obtain ⟨g, hg, ht, -, -, hj⟩ := h.split_gate he hc
    exact ⟨g, hg, ht, hj⟩
  · rintro ⟨g, hg, ht, rfl⟩
    obtain ⟨⟨k, zs⟩, he, hk⟩ := List.mem_map.mp (h.split.cover g hg ht)
    simp only at hk
    subst hk
    refine ⟨_, he, ?_⟩
    simp only
    rw [h.split.entry _ _ he]
    refine List.mem_map.mpr ⟨g.ident, List.mem_map.mpr ⟨g, List.mem_filter.mpr ⟨hg, by simp [isZO, ht]⟩, rfl⟩, rfl⟩

theorem Compiled.not_bit (h : Compiled (q := q) I P rand s m sp) {n : Name} (hn : m.has n = true)
    (hb : ∀ g ∈ s.c.gates, g.typ = .zeroOrOne → g.ident ≠ n) : ¬ BitPos sp (m.get n) := by
  rw [h.bitPos]
  rintro ⟨g, hg, ht, he⟩
  exact hb g hg ht (h.idx.inv.good.inj _ _ (h.has_of_mem hg (h.zo_new hg ht)) hn he.symm)

theorem Compiled.has_one (h : Compiled (q := q) I P rand s m sp) : m.has oneName = true ∧ m.get oneName = 0 :=
  ⟨(h.idx.names _).mpr (Or.inl List.mem_cons_self), h.idx.pub 0 _ rfl⟩

theorem Compiled.computed_of_mem (h : Compiled (q := q) I P rand s m sp) {g : Gate} (hg : g ∈ s.c.gates) :
    g.ident ∈ s.c.computed := by
  rw [h.wf.comp]; exact List.mem_map.mpr ⟨g, hg, rfl⟩

theorem Compiled.not_bit_zero (h : Compiled (q := q) I P rand s m sp) : ¬ BitPos sp 0 := by
  rw [← h.has_one.2]
  refine h.not_bit h.has_one.1 fun g hg _ he => h.one.2 ?_
  rw [← he]; exact h.computed_of_mem hg

/-- the names whose positions are set before the gate -/
structure Before (I : List Name) (m : IndexMap) (pre : List Gate) (s : WState) : Prop where
  zero : Kn s 0
  input : ∀ n ∈ I, Kn s (m.get n)
  wires : ∀ g ∈ pre, g.noNew = false → Kn s (m.get g.ident)

theorem Compiled.kn_name (h : Compiled (q := q) I P rand s m sp) {pre post : List Gate} {g : Gate} (hg : s.c.gates = pre ++ g :: post)
    {w : WState} (hw : Before I m pre w) {n : Name} (hn : n ∈ I ++ pre.map (·.ident)) (ha : Att I s n) : Kn w (m.get n) := by
  rcases List.mem_append.mp hn with hn | hn
  · exact hw.input n hn
  · obtain ⟨g0, hg0, rfl⟩ := List.mem_map.mp hn
    have hmem : g0 ∈ s.c.gates := by rw [hg]; exact List.mem_append_left _ hg0
    rcases h.att_cases ha with hI | ⟨g', hg', hnew, he⟩
    · exact absurd (h.computed_of_mem hmem) (h.disj _ hI)
    · have := h.ident_inj hg' hmem he
      subst this
      exact hw.wires g' hg0 hnew

theorem Compiled.kn_form (h : Compiled (q := q) I P rand s m sp) {pre post : List Gate} {g : Gate} (hg : s.c.gates = pre ++ g :: post)
    {w : WState} (hw : Before I m pre w) {f : Factors} (hf : KnownF (I ++ pre.map (·.ident)) f) (ha : AttF I s f) : KnF m w f := by
  intro x hx
  unfold pos
  by_cases hn : x.tok.isNum = true
  · rw [if_pos hn]; exact hw.zero
  · rw [if_neg hn]
    have hk : some x.tok.ident ∈ f.map Factor.key := List.mem_map.mpr ⟨x, hx, by simp [Factor.key, hn]⟩
    exact h.kn_name hg hw (hf _ hk) (ha _ hk)

theorem Compiled.form_lt (h : Compiled (q := q) I P rand s m sp) {f : Factors} (ha : AttF I s f) : ∀ x ∈ f, pos m x < m.length := by
  intro x hx
  unfold pos
  by_cases hn : x.tok.isNum = true
  · rw [if_pos hn]; exact names_pos h.idx (by simp)
  · rw [if_neg hn]
    exact h.idx.inv.good.lt _ (att_has h.conf h.idx (ha _ (List.mem_map.mpr ⟨x, hx, by simp [Factor.key, hn]⟩)))

/-- what the solution satisfies -/
structure Solution (gx : ZMod q → ZMod q) (m : IndexMap) (rand : Bool) (s : St) (rnd : Int) (t : List Int) : Prop where
  len : t.length = m.length
  can : ∀ v ∈ t, 0 ≤ v ∧ v < q
  one : t.getD 0 0 = 1
  models : Models gx (valsOf q m t) s
  randHolds : rand = true → RandHolds gx (valsOf q m t)
  rnd : rand = true → t.getD (m.get randIn) 0 = rnd

/-- what the table of bits looks like -/
structure InvOK (m : IndexMap) (s : St) (inv : InvSplit) : Prop where
  gate : ∀ j c f, inv.lookup j = some (c, f) → ∃ g ∈ s.c.gates, g.typ = .zeroOrOne ∧ g.ident = bitName c g.arith.ident ∧
    j = m.get g.ident ∧ f = m.get g.arith.ident
  cover : ∀ g ∈ s.c.gates, g.typ = .zeroOrOne → inv.lookup (m.get g.ident) ≠ none

theorem bitOf_nat (n i : Nat) : bitOf (n : Int) i = if n.testBit i then 1 else 0 := by
  unfold bitOf
  rw [Nat.testBit_eq_decide_div_mod_eq]
  have : ((n : Int) / 2 ^ i % 2) = ((n / 2 ^ i % 2 : Nat) : Int) := by push_cast; rfl
  rw [this]
  rcases Nat.mod_two_eq_zero_or_one (n / 2 ^ i) with h | h <;> simp [h]

theorem Solution.val [NeZero q] {gx : ZMod q → ZMod q} {rnd : Int} {t : List Int} (h : Solution gx m rand s rnd t) {i : Nat}
    (hi : i < m.length) : t.getD i 0 = (((t.getD i 0 : Int) : ZMod q).val : Int) := by
  have hlt : i < t.length := by rw [h.len]; exact hi
  have hc := h.can _ (List.getElem_mem hlt)
  rw [← List.getD_eq_getElem _ 0 hlt] at hc
  rw [ZMod.val_intCast, Int.emod_eq_of_lt hc.1 hc.2]

/-- the bits of the solution are the bits -/
theorem Compiled.bit_val [Fact q.Prime] (h : Compiled (q := q) I P rand s m sp) {gx : ZMod q → ZMod q} {rnd : Int} {t : List Int}
    (ht : Solution gx m rand s rnd t) {g : Gate} (hg : g ∈ s.c.gates) (htyp : g.typ = .zeroOrOne) {c : Nat}
    (hid : g.ident = bitName c g.arith.ident) : t.getD (m.get g.ident) 0 = bitOf (t.getD (m.get g.arith.ident) 0) c := by
  have : NeZero q := ⟨(Fact.out : q.Prime).ne_zero⟩
  have hgood := h.idx.inv.good
  have hb := h.const g hg (Or.inr htyp)
  have ha : m.has g.arith.ident = true := att_has h.conf h.idx ((h.att g (Or.inl hg)).arith (Or.inr htyp) hb)
  obtain ⟨i, hi, hv⟩ := ht.models.zo g hg htyp
  have : i = c := bitName_inj (hi.symm.trans hid)
  subst this
  rw [ht.val (hgood.lt _ (h.has_of_mem hg (h.zo_new hg htyp))), ht.val (hgood.lt _ ha), bitOf_nat]
  unfold valsOf at hv
  rw [hv]
  have hv1 : (1 : ZMod q).val = 1 := by
    have := (Fact.out : q.Prime).one_lt
    rw [ZMod.val_one'' (by omega)]
  split
  · rw [hv1]; rfl
  · simp

theorem swap_forms {g : Gate} (hs : GateShape g) : rowForms (swapLonger g) = rowForms g ∨
    ((g.typ = .mult ∨ g.typ = .equality) ∧ rowForms (swapLonger g) = rowForms { g with left := g.right, right := g.left }) := by
  unfold swapLonger
  split
  · rename_i hl
    cases ht : g.typ with
    | mult => exact Or.inr ⟨Or.inl rfl, rfl⟩
    | equality => exact Or.inr ⟨Or.inr rfl, rfl⟩
    | scalarBase => left; simp [rowForms, ht]
    | zeroOrOne => left; simp [rowForms, ht]
    | addition => simp only [GateShape, ht] at hs; rw [hs.1] at hl; simp at hl
    | sumCheck => simp only [GateShape, ht] at hs; rw [hs.1] at hl; simp at hl
  · exact Or.inl rfl

section gate
variable {α : Type} {inv : InvSplit} {entry : α → Nat → Int} {ok : α → Prop} {t : List Int} {gx : ZMod q → ZMod q} {rnd : Int}

/-- the wire of a gate that makes one is mentioned in its row -/
theorem Compiled.mentions [Fact q.Prime] (h : Compiled (q := q) I P rand s m sp) {g : Gate} (hg : g ∈ s.c.gates)
    (hn : g.noNew = false) {row : Row α} (hrow : RowIs q m (rowForms (swapLonger g)) entry ok row) : Mentions entry row (m.get g.ident) := by
  have hs := (h.wf.forms g hg).shape
  obtain ⟨pre, post, hsplit⟩ := List.append_of_mem hg
  have ho := h.wf.ord pre g post hsplit
  apply mentions_of_side hrow
  rcases swap_forms hs with he | ⟨htyp, he⟩
  · rw [he]
    cases ht : g.typ with
    | mult =>
      simp only [OrdGate, ht] at ho
      simp only [rowForms, ht]
      rcases ho with ⟨-, -, ho⟩ | ⟨ho, -, -⟩
      exacts [Or.inr (Or.inr (Or.inr ho)), Or.inl ho]
    | scalarBase => simp [rowForms, ht]
    | equality => simp only [GateShape, ht] at hs; rw [hs.2.2] at hn; cases hn
    | zeroOrOne => simp [rowForms, ht]
    | addition =>
      simp only [OrdGate, ht] at ho
      simp only [rowForms, ht]
      exact Or.inr (Or.inr (Or.inr ho.2))
    | sumCheck => simp only [GateShape, ht] at hs; rw [hs.2.2.2] at hn; cases hn
  · rw [he]
    rcases htyp with ht | ht
    · simp only [OrdGate, ht] at ho
      simp only [rowForms, ht]
      rcases ho with ⟨-, -, ho⟩ | ⟨ho, -, -⟩
      exacts [Or.inr (Or.inr (Or.inr ho)), Or.inr (Or.inl ho)]
    · simp only [GateShape, ht] at hs; rw [hs.2.2] at hn; cases hn

theorem knF_nil (w : WState) : KnF m w [] := by simp [KnF]
theorem knF_one {w : WState} (h : Kn w 0) (v : Int) : KnF m w [numF v] := by
  intro x hx; simp at hx; subst hx; simpa [pos, numF] using h

theorem InvOK.none_of (hi : InvOK m s inv) (h : Compiled (q := q) I P rand s m sp) {n : Name} (hn : m.has n = true)
    (hb : ∀ g ∈ s.c.gates, g.typ = .zeroOrOne → g.ident ≠ n) : inv.lookup (m.get n) = none := by
  cases hl : inv.lookup (m.get n) with
  | none => rfl
  | some p =>
    obtain ⟨c, f⟩ := p
    obtain ⟨g, hg, ht, -, he, -⟩ := hi.gate _ c f hl
    exact absurd (h.idx.inv.good.inj _ _ (h.has_of_mem hg (h.zo_new hg ht)) hn he.symm) (hb g hg ht)

/-- every gate can be handled when it is its turn -/
theorem Compiled.ready [Fact q.Prime] (h : Compiled (q := q) I P rand s m sp) (ht : Solution gx m rand s rnd t) (hi : InvOK m s inv)
    {pre post : List Gate} {g : Gate} (hg : s.c.gates = pre ++ g :: post) {row : Row α}
    (hrow : RowIs q m (rowForms (swapLonger g)) entry ok row) {w : WState} (hw : Before I m pre w) :
    Ready q inv entry t row w := by
  have hmem : g ∈ s.c.gates := by rw [hg]; simp
  have ho := h.wf.ord pre g post hg
  have ha := h.att g (Or.inl hmem)
  have hs := (h.wf.forms g hmem).shape
  have K : ∀ {f : Factors}, KnownF (I ++ pre.map (·.ident)) f → AttF I s f → KnF m w f := fun a b => h.kn_form hg hw a b
  have h1 : ((t.getD 0 0 : Int) : ZMod q) = 1 := by rw [ht.one]; simp
  have nl : g.noNew = false → g.typ ≠ .zeroOrOne → inv.lookup (m.get g.ident) = none := fun hn hz =>
    hi.none_of h (h.has_of_mem hmem hn) fun g' hg' ht' he => hz (by rw [← h.ident_inj hg' hmem he]; exact ht')
  have dotR : ∀ {e : Nat → Int}, Side q m g.right e → dot q e t = formVal (valsOf q m t) g.right := fun hside =>
    side_dot hside h1 (by rw [ht.len]; exact h.form_lt ha.right)
  have quot : g.typ = .mult → g.left = [argF g.ident 1] → KnownF (I ++ pre.map (·.ident)) g.out → formVal (valsOf q m t) g.right ≠ 0 := by
    intro htyp _ hk
    refine (ht.models.quot g hmem htyp).resolve_left fun hout => ?_
    have hid := hk g.ident (by simp [hout, Factor.key, argF])
    rcases List.mem_append.mp hid with hid | hid
    · exact h.disj _ hid (h.computed_of_mem hmem)
    · have hnd := h.wf.nodup
      rw [h.wf.comp, hg, List.map_append, List.map_cons] at hnd
      exact (List.nodup_append.mp hnd).2.2 _ hid _ List.mem_cons_self rfl
  rcases swap_forms hs with he | ⟨htyp, he⟩
  · rw [he] at hrow
    cases htt : g.typ with
    | mult =>
      simp only [OrdGate, htt] at ho
      simp only [GateShape, htt] at hs
      simp only [rowForms, htt] at hrow
      rcases ho with ⟨o1, o2, o3⟩ | ⟨o1, o2, o3⟩
      · exact ready_out hrow o3 (K o1 ha.left) (K o2 ha.right) (knF_nil w) (nl hs.2 (by simp [htt]))
      · refine ready_left hrow o1 (K o2 ha.right) (knF_nil w) (K o3 ha.out) (nl hs.2 (by simp [htt])) ?_
        rw [dotR hrow.R]
        exact quot htt o1 o3
    | scalarBase =>
      simp only [OrdGate, htt] at ho
      simp only [GateShape, htt] at hs
      simp only [rowForms, htt] at hrow
      exact ready_out hrow rfl (knF_nil w) (knF_nil w) (K ho ha.expo) (nl hs.2.2.2 (by simp [htt]))
    | equality =>
      simp only [OrdGate, htt] at ho
      simp only [rowForms, htt] at hrow
      exact ready_known hrow (K ho.1 ha.left) (knF_one hw.zero 1) (knF_nil w) (K ho.2 ha.right)
    | zeroOrOne =>
      simp only [OrdGate, htt] at ho
      simp only [rowForms, htt] at hrow
      have hb := h.const g hmem (Or.inr htt)
      have hm : ∀ j, Mentions entry row j → j = 0 ∨ j = m.get g.ident := by
        intro j hj
        obtain ⟨x, hx, rfl⟩ := hrow.supp hj
        simp only [List.mem_cons, List.not_mem_nil, or_false] at hx
        rcases hx with (rfl | rfl) | rfl <;> simp [pos, numF, argF]
      refine .known (fun j hj => ?_) (fun j hj hn b f hl => ?_)
      · rcases hm j hj with rfl | rfl
        exacts [Or.inl hw.zero, Or.inr (hi.cover g hmem htt)]
      · rcases hm j hj with rfl | rfl
        · exact absurd hw.zero hn
        · obtain ⟨g', hg', ht', hid, hj', rfl⟩ := hi.gate _ b f hl
          have : g' = g := h.ident_inj hg' hmem
            (h.idx.inv.good.inj _ _ (h.has_of_mem hg' (h.zo_new hg' ht')) (h.has_of_mem hmem (h.zo_new hmem htt)) hj'.symm)
          subst this
          exact ⟨h.kn_name hg hw (ho.1 hb) (ha.arith (Or.inr htt) hb), h.bit_val ht hmem htt hid⟩
    | addition =>
      simp only [OrdGate, htt] at ho
      simp only [GateShape, htt] at hs
      simp only [rowForms, htt] at hrow
      exact ready_out hrow ho.2 (K ho.1 ha.left) (knF_one hw.zero 1) (knF_nil w) (nl hs.2.2 (by simp [htt]))
    | sumCheck =>
      simp only [OrdGate, htt] at ho
      simp only [rowForms, htt] at hrow
      have hb := h.const g hmem (Or.inl htt)
      exact ready_known hrow (K ho.1 ha.left) (knF_one hw.zero 1) (knF_nil w)
        (knF_single (h.kn_name hg hw (ho.2 hb) (ha.arith (Or.inl htt) hb)))
  · rw [he] at hrow
    rcases htyp with htt | htt
    · simp only [OrdGate, htt] at ho
      simp only [GateShape, htt] at hs
      simp only [rowForms, htt] at hrow
      rcases ho with ⟨o1, o2, o3⟩ | ⟨o1, o2, o3⟩
      · exact ready_out hrow o3 (K o2 ha.right) (K o1 ha.left) (knF_nil w) (nl hs.2 (by simp [htt]))
      · refine ready_right hrow o1 (K o2 ha.right) (knF_nil w) (K o3 ha.out) (nl hs.2 (by simp [htt])) ?_
        rw [dotR hrow.L]
        exact quot htt o1 o3
    · simp only [OrdGate, htt] at ho
      simp only [rowForms, htt] at hrow
      exact ready_known hrow (K ho.2 ha.right) (knF_one hw.zero 1) (knF_nil w) (K ho.1 ha.left)

/-- the randomizer row can be handled -/
theorem Compiled.ready_rand [Fact q.Prime] (h : Compiled (q := q) I P rand s m sp) (hr : rand = true) (hi : InvOK m s inv)
    {row : Row α} (hrow : RowIs q m randForms entry ok row) {w : WState} (hw : Kn w (m.get randIn)) : Ready q inv entry t row w := by
  refine ready_out hrow rfl (knF_single hw) (knF_single hw) (knF_single hw) (hi.none_of h ?_ ?_)
  · exact (h.idx.names _).mpr (Or.inr (Or.inr (Or.inr ⟨hr, Or.inr rfl⟩)))
  · intro g hg _ he
    exact (h.rout hr).2.2 (he ▸ h.computed_of_mem hg)

end gate

end APS.Circuit
