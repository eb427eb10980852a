import Verif.Proofs.Pipeline

/-! Whole constraint systems: rows satisfied ⇔ gates hold, and programs ⇔ rows. -/
namespace APS.Circuit
open APS.Spec APS.Avl APS.Avl.Tree

variable {q : Nat}

theorem randPos_lt {m : IndexMap} (hm : GoodIndex m) {n : Name} (hn : m.has n = true) :
    ∀ x ∈ [argF n 1], pos m x < m.length := by
  intro x hx
  simp at hx; subst hx
  simpa [pos, argF] using hm.lt n hn

theorem formVal_argF (ν : Name → ZMod q) (n : Name) : formVal ν [argF n 1] = ν n := by
  simp [formVal, factorVal, argF]

theorem formDense_argF {m : IndexMap} {n : Name} {a : List Int} (h : formDense m [argF n 1] = some a) : m.has n = true :=
  formDense_has [argF n 1] _ _ h n (by simp [Factor.key, argF])

theorem formSparse_argF {m : IndexMap} {n : Name} {a : Tree} (h : formSparse q m [argF n 1] = some a) : m.has n = true :=
  formSparse_has [argF n 1] _ _ h n (by simp [Factor.key, argF])

theorem randDense_sat {gx : ZMod q → ZMod q} {m : IndexMap} (hm : GoodIndex m) {row : Row (List Int)}
    (h : randRowDense m = some row) {w : List Int} (hw : w.length = m.length) (h1 : ((w.getD 0 0 : Int) : ZMod q) = 1) :
    RowSat q gx (denseEntry row.L) (denseEntry row.R) (denseEntry row.E) (denseEntry row.O) w ↔
      RandHolds gx (valsOf q m w) := by
  unfold randRowDense at h
  cases hi : formDense m [argF randIn 1] with
  | none => simp [hi] at h
  | some a =>
    cases ho : formDense m [argF randOut 1] with
    | none => simp [hi, ho] at h
    | some b =>
      simp [hi, ho] at h; subst h
      have key : ∀ n a, formDense m [argF n 1] = some a → dot q (denseEntry a) w = valsOf q m w n := by
        intro n a ha
        have hlt := randPos_lt hm (formDense_argF ha)
        have he := formDense_entry hlt (by simp [Distinct]) ha
        rw [dot_congr fun i _ => by rw [he i], dot_coef h1 _ (fun x hx => by rw [hw]; exact hlt x hx), formVal_argF]
      simp only [RowSat, RandHolds, key _ _ hi, key _ _ ho]

theorem randSparse_sat {gx : ZMod q → ZMod q} {m : IndexMap} (hm : GoodIndex m) {row : Row Tree}
    (h : randRowSparse q m = some row) {w : List Int} (hw : w.length = m.length) (h1 : ((w.getD 0 0 : Int) : ZMod q) = 1) :
    RowSat q gx (sparseEntry row.L) (sparseEntry row.R) (sparseEntry row.E) (sparseEntry row.O) w ↔
      RandHolds gx (valsOf q m w) := by
  unfold randRowSparse at h
  cases hi : formSparse q m [argF randIn 1] with
  | none => simp [hi] at h
  | some a =>
    cases ho : formSparse q m [argF randOut 1] with
    | none => simp [hi, ho] at h
    | some b =>
      simp [hi, ho] at h; subst h
      have key : ∀ n a, formSparse q m [argF n 1] = some a → dot q (sparseEntry a) w = valsOf q m w n := by
        intro n a ha
        have hlt := randPos_lt hm (formSparse_argF ha)
        have he := (formSparse_entry (by simp [NumAtZero, argF]) ha).2
        rw [dot_congr fun i _ => he i, dot_coef h1 _ (fun x hx => by rw [hw]; exact hlt x hx), formVal_argF]
      simp only [RowSat, RandHolds, key _ _ hi, key _ _ ho]

theorem dense_sat [Fact q.Prime] {gx : ZMod q → ZMod q} (hgx : gx 0 = 0) {publics inputs : List Name}
    {gates : List Gate} {rand : Bool} {r : R1CS (List Int)} (h : gatesToR1CS publics inputs gates rand = some r)
    (hi : GoodIndex r.index) (h0 : 0 < r.index.length) (hok : ∀ g ∈ gates, GateOK r.index g) {w : List Int}
    (hw : w.length = r.index.length) (h1 : ((w.getD 0 0 : Int) : ZMod q) = 1) :
    (∀ row ∈ r.rows, SatD q gx w row) ↔
      (∀ g ∈ gates, GateHolds gx (valsOf q r.index w) g) ∧ (rand = true → RandHolds gx (valsOf q r.index w)) := by
  obtain ⟨-, rows, hm, hrr⟩ := gatesToR1CS_eq h
  obtain ⟨m1, m2⟩ := mapM_mem hm
  have hrows : (∀ row ∈ rows, SatD q gx w row) ↔ ∀ g ∈ gates, GateHolds gx (valsOf q r.index w) g := by
    constructor
    · intro hs g hg
      obtain ⟨row, hr, he⟩ := m1 g hg
      exact (rowDense_sat hgx hi h0 (hok g hg) he hw h1).mp (hs row hr)
    · intro hs row hr
      obtain ⟨g, hg, he⟩ := m2 row hr
      exact (rowDense_sat hgx hi h0 (hok g hg) he hw h1).mpr (hs g hg)
  rcases hrr with ⟨rfl, he⟩ | ⟨rfl, rr, hr, he⟩
  · rw [he, hrows]; simp
  · rw [he]
    simp only [List.mem_append, List.mem_singleton, or_imp, forall_and, forall_eq, hrows]
    exact and_congr Iff.rfl ((randDense_sat hi hr hw h1).trans (by simp))

theorem sparse_sat [Fact q.Prime] {gx : ZMod q → ZMod q} (hgx : gx 0 = 0) {publics inputs : List Name}
    {gates : List Gate} {rand : Bool} {r : R1CS Tree} (h : gatesToSparseR1CS q publics inputs gates rand = some r)
    (hi : GoodIndex r.index) (h0 : 0 < r.index.length) (hok : ∀ g ∈ gates, GateOK r.index g)
    (hnum : ∀ g ∈ gates, NumsOK r.index g) {w : List Int}
    (hw : w.length = r.index.length) (h1 : ((w.getD 0 0 : Int) : ZMod q) = 1) :
    (∀ row ∈ r.rows, SatS q gx w row) ↔
      (∀ g ∈ gates, GateHolds gx (valsOf q r.index w) g) ∧ (rand = true → RandHolds gx (valsOf q r.index w)) := by
  obtain ⟨-, rows, hm, hrr⟩ := gatesToSparseR1CS_eq h
  obtain ⟨m1, m2⟩ := mapM_mem hm
  have hrows : (∀ row ∈ rows, SatS q gx w row) ↔ ∀ g ∈ gates, GateHolds gx (valsOf q r.index w) g := by
    constructor
    · intro hs g hg
      obtain ⟨row, hr, he⟩ := m1 g hg
      exact (rowSparse_sat hgx hi h0 (hok g hg) (hnum g hg) he hw h1).mp (hs row hr)
    · intro hs row hr
      obtain ⟨g, hg, he⟩ := m2 row hr
      exact (rowSparse_sat hgx hi h0 (hok g hg) (hnum g hg) he hw h1).mpr (hs g hg)
  rcases hrr with ⟨rfl, he⟩ | ⟨rfl, rr, hr, he⟩
  · rw [he, hrows]; simp
  · rw [he]
    simp only [List.mem_append, List.mem_singleton, or_imp, forall_and, forall_eq, hrows]
    exact and_congr Iff.rfl ((randSparse_sat hi hr hw h1).trans (by simp))

/-- a witness vector with given values of the names -/
def witnessOf (q : Nat) (m : IndexMap) (ν : Name → ZMod q) : List Int := m.map fun e => ((ν e.1).val : Int)

theorem valsOf_witnessOf [NeZero q] {m : IndexMap} (hi : IdxInv m) (ν : Name → ZMod q) {n : Name} (hn : m.has n = true) :
    valsOf q m (witnessOf q m ν) n = ν n := by
  obtain ⟨i, hl⟩ := List.getElem?_of_mem (has_iff.mp hn)
  rw [valsOf, get_of_getElem hi hl, witnessOf, List.getD_eq_getElem?_getD, List.getElem?_map]
  rw [List.getElem?_map] at hl
  cases hm : m[i]? with
  | none => simp [hm] at hl
  | some e =>
    simp [hm] at hl
    subst hl
    simp

/-- gates of a program whose rows were generated are `GateOK` (dense) -/
theorem gateOK_dense {I : List Name} {s : St} (hw : WF I s) (ha : SplitAtt I s) (hn : NoConfusion s) (hc : NoConstSplit s)
    {one : Name} {P : List Name}
    {rand : Bool} {r : R1CS (List Int)} (hr : gatesToR1CS (one :: P) I s.c.gates rand = some r)
    (hi : IndexSpec (one :: P) I s.c.gates rand r.index)
    (h1 : one ∉ I) (h2 : one ∉ s.c.computed) : ∀ g ∈ s.c.gates, GateOK r.index g := by
  intro g hg
  obtain ⟨-, rows, hm, -⟩ := gatesToR1CS_eq hr
  obtain ⟨row, -, he⟩ := (mapM_mem hm).1 g hg
  exact gateOK_of hw ha hn hc hi h1 h2 hg (rowDense_has (hw.forms g hg).shape he)

theorem gateOK_sparse {I : List Name} {s : St} (hw : WF I s) (ha : SplitAtt I s) (hn : NoConfusion s) (hc : NoConstSplit s)
    {one : Name} {P : List Name}
    {rand : Bool} {r : R1CS Tree} (hr : gatesToSparseR1CS q (one :: P) I s.c.gates rand = some r)
    (hi : IndexSpec (one :: P) I s.c.gates rand r.index)
    (h1 : one ∉ I) (h2 : one ∉ s.c.computed) : ∀ g ∈ s.c.gates, GateOK r.index g := by
  intro g hg
  obtain ⟨-, rows, hm, -⟩ := gatesToSparseR1CS_eq hr
  obtain ⟨row, -, he⟩ := (mapM_mem hm).1 g hg
  exact gateOK_of hw ha hn hc hi h1 h2 hg (rowSparse_has (hw.forms g hg).shape he)

theorem names_pos {publics inputs : List Name} {gates : List Gate} {rand : Bool} {m : IndexMap}
    (hi : IndexSpec publics inputs gates rand m) (hp : publics ≠ []) : 0 < m.length := by
  cases publics with
  | nil => exact absurd rfl hp
  | cons a l =>
    have := hi.inv.good.lt a ((hi.names a).mpr (Or.inl List.mem_cons_self))
    omega

/-- a satisfying assignment of the names extends to a witness vector (the part independent of dense/sparse) -/
theorem witness_exists [Fact q.Prime] {I : List Name} {f : Factors} {s : St} {gx : ZMod q → ZMod q}
    {vals : Name → ZMod q} {v : ZMod q} (hw : WF I s) (hkf : KnownF (I ++ s.c.computed) f) (ha : SplitAtt I s)
    (haf : AttF I s f) (hn : NoConfusion s) (hc : NoConstSplit s)
    (hv : ∃ ν : Name → ZMod q, (∀ n ∈ I, ν n = vals n) ∧ (∀ g ∈ s.c.gates, GateHolds gx ν g) ∧ formVal ν f = v) {one : Name} {P : List Name}
    {rand : Bool} {m : IndexMap} (hi : IndexSpec (one :: P) I s.c.gates rand m)
    (h1 : one ∉ I) (h2 : one ∉ s.c.computed)
    (hr : rand = true → ∀ n, n = randIn ∨ n = randOut → n ≠ one ∧ n ∉ I ∧ n ∉ s.c.computed)
    (hall : ∀ g ∈ s.c.gates, GateHas m g ∧ (g.noNew = false → m.has g.ident = true)) :
    ∃ w : List Int, w.length = m.length ∧ ((w.getD 0 0 : Int) : ZMod q) = 1 ∧ (∀ n ∈ I, valsOf q m w n = vals n) ∧
      (∀ g ∈ s.c.gates, GateHolds gx (valsOf q m w) g) ∧ (rand = true → RandHolds gx (valsOf q m w)) ∧
      formVal (valsOf q m w) f = v := by
  have hall' : ∀ n, some n ∈ f.map Factor.key → m.has n = true := fun n hn' => att_has hn hi (haf n hn')
  haveI : NeZero q := ⟨(Fact.out : q.Prime).ne_zero⟩
  obtain ⟨ν, n1, n2, n3⟩ := hv
  let ν1 : Name → ZMod q := fun n => if n = one then 1 else if rand = true ∧ n = randIn then 0
    else if rand = true ∧ n = randOut then gx 0 else ν n
  have hν1 : ∀ n ∈ I ++ s.c.computed, ν n = ν1 n := by
    intro n hn
    have e1 : n ≠ one := by
      rintro rfl
      rcases List.mem_append.mp hn with hn | hn
      exacts [h1 hn, h2 hn]
    have e2 : ∀ x, rand = true → (x = randIn ∨ x = randOut) → n ≠ x := by
      rintro x hx hx' rfl
      obtain ⟨-, a, b⟩ := hr hx n hx'
      rcases List.mem_append.mp hn with hn | hn
      exacts [a hn, b hn]
    have e3 : ¬ (rand = true ∧ n = randIn) := fun hh => e2 randIn hh.1 (Or.inl rfl) hh.2
    have e4 : ¬ (rand = true ∧ n = randOut) := fun hh => e2 randOut hh.1 (Or.inr rfl) hh.2
    simp only [ν1, if_neg e1, if_neg e3, if_neg e4]
  have hin : ∀ n ∈ I, m.has n = true := fun n hn => (hi.names n).mpr (Or.inr (Or.inl hn))
  have hvals : ∀ n, m.has n = true → valsOf q m (witnessOf q m ν1) n = ν1 n := fun n hn => valsOf_witnessOf hi.inv ν1 hn
  have hone : m.get one = 0 := hi.pub 0 one rfl
  refine ⟨witnessOf q m ν1, by simp [witnessOf], ?_, ?_, ?_, ?_, ?_⟩
  · have := hvals one ((hi.names one).mpr (Or.inl List.mem_cons_self))
    rw [valsOf, hone] at this
    rw [this]; simp [ν1]
  · intro n hn
    rw [hvals n (hin n hn), ← hν1 n (List.mem_append_left _ hn), n1 n hn]
  · intro g hg
    have hk := hw.known g hg
    have hb : g.typ = .sumCheck ∨ g.typ = .zeroOrOne → g.arith.isNum = false := hc g hg
    have hg1 : GateHolds gx ν1 g := gateHolds_congr hk hb hν1 (n2 g hg)
    -- the names the gate uses all have positions
    have hsp : g.typ = .sumCheck → m.has g.arith.ident = true := fun ht =>
      att_has hn hi ((ha g (Or.inl hg)).arith (Or.inl ht) (hb (Or.inl ht)))
    have hsh := (hw.forms g hg).shape
    obtain ⟨a1, a2⟩ := hall g hg
    have hF : ∀ F : Factors, (∀ n, some n ∈ F.map Factor.key → m.has n = true) →
        formVal (valsOf q m (witnessOf q m ν1)) F = formVal ν1 F := fun F hF => formVal_congr fun n hn => hvals n (hF n hn)
    have fl := hF g.left fun n hn => a1 n (Or.inl hn)
    have fr := hF g.right fun n hn => a1 n (Or.inr (Or.inl hn))
    have fe := hF g.expo fun n hn => a1 n (Or.inr (Or.inr (Or.inl hn)))
    have fo := hF g.out fun n hn => a1 n (Or.inr (Or.inr (Or.inr hn)))
    unfold GateHolds at hg1 ⊢
    unfold GateShape at hsh
    cases ht : g.typ <;> rw [ht] at hsh <;> simp only [ht] at hg1 ⊢
    · rw [fl, fr, fo]; exact hg1
    · rw [fe, hvals _ (a2 hsh.2.2.2)]; exact hg1
    · rw [fl, fr]; exact hg1
    · rw [fl, fo]; exact hg1
    · rw [fl, hvals _ (hsp ht)]; exact hg1
    · rw [hvals _ (a2 hsh.2.2.2.2)]; exact hg1
  · intro hrt
    have hI := hvals randIn ((hi.names _).mpr (Or.inr (Or.inr (Or.inr ⟨hrt, Or.inl rfl⟩))))
    have hO := hvals randOut ((hi.names _).mpr (Or.inr (Or.inr (Or.inr ⟨hrt, Or.inr rfl⟩))))
    rw [RandHolds, hI, hO]
    have q1 := (hr hrt randIn (Or.inl rfl)).1
    have q2 := (hr hrt randOut (Or.inr rfl)).1
    simp [ν1, q1, q2, hrt, show randOut ≠ randIn by decide]
  · rw [formVal_congr fun n hn => hvals n (hall' n hn), ← formVal_congr (ν := ν) fun n hn => hν1 n (hkf n hn), n3]

end APS.Circuit
