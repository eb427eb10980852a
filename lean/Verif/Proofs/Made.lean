import Verif.Proofs.WitnessSound
import Verif.Proofs.WitnessSolution

/-! Constraint rows and witness calculation for whatever satisfies `Made`: shared by the straight-line programs (C33 - C38, C70)
and the programs with functions, loops and arrays. -/
namespace APS.Circuit
open APS.Spec APS.Avl APS.Avl.Tree

variable {q : Nat} {I P : List Name} {rand : Bool} {f : Factors} {s : St}

theorem _root_.APS.Spec.RunOK.indexSpec (hr : RunOK I P rand s)
    (hcomp : s.c.computed = s.c.gates.map (·.ident)) {m : IndexMap} {sp : SplitMap}
    (hb : buildIndex (oneName :: P) I s.c.gates rand = some (m, sp)) :
    IndexSpec (oneName :: P) I s.c.gates rand m := by
  refine buildIndex_spec hb hr.publics fun hrt n hn => ?_
  obtain ⟨a, b, c⟩ := hr.rnd hrt n (by simpa using hn)
  refine ⟨a, b, fun g hg _ he => c ?_⟩
  rw [hcomp, ← he]
  exact List.mem_map.mpr ⟨g, hg, rfl⟩

theorem Made.rows_dense [Fact q.Prime] {gx : ZMod q → ZMod q} (hgx : gx 0 = 0) (hM : Made q I f s)
    (hr : RunOK I P rand s) {r : R1CS (List Int)} (hR : gatesToR1CS (oneName :: P) I s.c.gates rand = some r) 
    {w : List Int} (hw : w.length = r.witnessLength) (h1 : ((w.getD 0 0 : Int) : ZMod q) = 1) :
    (∀ row ∈ r.rows, SatD q gx w row) ↔
      (∀ g ∈ s.c.gates, GateHolds gx (valsOf q r.index w) g) ∧ (rand = true → RandHolds gx (valsOf q r.index w)) := by
  have hi := RunOK.indexSpec hr hM.wf.comp (gatesToR1CS_eq hR).1
  have hgo := gateOK_dense hM.wf hM.att hr.conf hr.const hR hi hr.one.1 hr.one.2
  exact dense_sat hgx hR hi.inv.good (names_pos hi (by simp)) hgo hw h1

theorem Made.rows_dense_complete [Fact q.Prime] {gx : ZMod q → ZMod q} (hgx : gx 0 = 0) (hM : Made q I f s)
    (hr : RunOK I P rand s) {r : R1CS (List Int)} (hR : gatesToR1CS (oneName :: P) I s.c.gates rand = some r) 
    {vals : Name → ZMod q} {v : ZMod q}
    (hv : ∃ ν : Name → ZMod q, (∀ n ∈ I, ν n = vals n) ∧ (∀ g ∈ s.c.gates, GateHolds gx ν g) ∧ formVal ν f = v) :
    ∃ w : List Int, w.length = r.witnessLength ∧ ((w.getD 0 0 : Int) : ZMod q) = 1 ∧
      (∀ n ∈ I, ((w.getD (r.index.get n) 0 : Int) : ZMod q) = vals n) ∧
      (∀ row ∈ r.rows, SatD q gx w row) ∧ formVal (valsOf q r.index w) f = v := by
  have hi := RunOK.indexSpec hr hM.wf.comp (gatesToR1CS_eq hR).1
  obtain ⟨-, rows, hm, -⟩ := gatesToR1CS_eq hR
  obtain ⟨w, w1, w2, w3, w4, w5, w6⟩ := witness_exists hM.wf hM.known hM.att hM.attF hr.conf hr.const hv hi hr.one.1 hr.one.2
    (fun hrt n hn => by
      obtain ⟨a, b, c⟩ := hr.rnd hrt n (by simpa using hn)
      exact ⟨fun he => a (by simp [he]), b, c⟩)
    (fun g hg => by
      obtain ⟨row, -, he⟩ := (mapM_mem hm).1 g hg
      exact ⟨rowDense_has (hM.wf.forms g hg).shape he,
        fun hnn => (hi.names _).mpr (Or.inr (Or.inr (Or.inl ⟨g, hg, hnn, rfl⟩)))⟩)
  exact ⟨w, w1, w2, w3, (hM.rows_dense hgx hr hR w1 w2).mpr ⟨w4, w5⟩, w6⟩

theorem Made.compiled_dense (hM : Made q I f s) (hr : RunOK I P rand s) (hrin : NoRandName I P s) {r : R1CS (List Int)}
    (hR : gatesToR1CS (oneName :: P) I s.c.gates rand = some r) : Compiled (q := q) I P rand s r.index r.split := by
  have hi := RunOK.indexSpec hr hM.wf.comp (gatesToR1CS_eq hR).1
  exact compiled_of_run hM hr hrin (gatesToR1CS_eq hR).1 hi (gateOK_dense hM.wf hM.att hr.conf hr.const hR hi hr.one.1 hr.one.2)

theorem Made.rows_sparse [Fact q.Prime] {gx : ZMod q → ZMod q} (hgx : gx 0 = 0) (hM : Made q I f s)
    (hr : RunOK I P rand s) {r : R1CS Tree} (hR : gatesToSparseR1CS q (oneName :: P) I s.c.gates rand = some r) (hnum : ∀ g ∈ s.c.gates, NumsOK r.index g)
    {w : List Int} (hw : w.length = r.witnessLength) (h1 : ((w.getD 0 0 : Int) : ZMod q) = 1) :
    (∀ row ∈ r.rows, SatS q gx w row) ↔
      (∀ g ∈ s.c.gates, GateHolds gx (valsOf q r.index w) g) ∧ (rand = true → RandHolds gx (valsOf q r.index w)) := by
  have hi := RunOK.indexSpec hr hM.wf.comp (gatesToSparseR1CS_eq hR).1
  have hgo := gateOK_sparse hM.wf hM.att hr.conf hr.const hR hi hr.one.1 hr.one.2
  exact sparse_sat hgx hR hi.inv.good (names_pos hi (by simp)) hgo hnum hw h1

theorem Made.rows_sparse_complete [Fact q.Prime] {gx : ZMod q → ZMod q} (hgx : gx 0 = 0) (hM : Made q I f s)
    (hr : RunOK I P rand s) {r : R1CS Tree} (hR : gatesToSparseR1CS q (oneName :: P) I s.c.gates rand = some r) (hnum : ∀ g ∈ s.c.gates, NumsOK r.index g)
    {vals : Name → ZMod q} {v : ZMod q}
    (hv : ∃ ν : Name → ZMod q, (∀ n ∈ I, ν n = vals n) ∧ (∀ g ∈ s.c.gates, GateHolds gx ν g) ∧ formVal ν f = v) :
    ∃ w : List Int, w.length = r.witnessLength ∧ ((w.getD 0 0 : Int) : ZMod q) = 1 ∧
      (∀ n ∈ I, ((w.getD (r.index.get n) 0 : Int) : ZMod q) = vals n) ∧
      (∀ row ∈ r.rows, SatS q gx w row) ∧ formVal (valsOf q r.index w) f = v := by
  have hi := RunOK.indexSpec hr hM.wf.comp (gatesToSparseR1CS_eq hR).1
  obtain ⟨-, rows, hm, -⟩ := gatesToSparseR1CS_eq hR
  obtain ⟨w, w1, w2, w3, w4, w5, w6⟩ := witness_exists hM.wf hM.known hM.att hM.attF hr.conf hr.const hv hi hr.one.1 hr.one.2
    (fun hrt n hn => by
      obtain ⟨a, b, c⟩ := hr.rnd hrt n (by simpa using hn)
      exact ⟨fun he => a (by simp [he]), b, c⟩)
    (fun g hg => by
      obtain ⟨row, -, he⟩ := (mapM_mem hm).1 g hg
      exact ⟨rowSparse_has (hM.wf.forms g hg).shape he,
        fun hnn => (hi.names _).mpr (Or.inr (Or.inr (Or.inl ⟨g, hg, hnn, rfl⟩)))⟩)
  exact ⟨w, w1, w2, w3, (hM.rows_sparse hgx hr hR hnum w1 w2).mpr ⟨w4, w5⟩, w6⟩

theorem Made.compiled_sparse (hM : Made q I f s) (hr : RunOK I P rand s) (hrin : NoRandName I P s) {r : R1CS Tree}
    (hR : gatesToSparseR1CS q (oneName :: P) I s.c.gates rand = some r) : Compiled (q := q) I P rand s r.index r.split := by
  have hi := RunOK.indexSpec hr hM.wf.comp (gatesToSparseR1CS_eq hR).1
  exact compiled_of_run hM hr hrin (gatesToSparseR1CS_eq hR).1 hi (gateOK_sparse hM.wf hM.att hr.conf hr.const hR hi hr.one.1 hr.one.2)

theorem ssp_lt {n : Nat} (hq : 0 < q) {o k : Tree} (ho : OkTree n o) (hk : OkTree n k) (h1 : o.ascendingNodes.length ≤ 1)
    (he : ∀ j, sparseEntry k j = sparseEntry o j) {w : List Int} {r : Int} (h : Sparse.sparseScalarProduct q k w = some r) :
    r < q := by
  have hmem : ∀ a ∈ k.ascendingNodes, a ∈ o.ascendingNodes := by
    rintro ⟨i, v⟩ ha
    obtain ⟨b1, b2⟩ := (mem_toList_iff hk.1 i v).mp ha
    exact (mem_toList_iff ho.1 i v).mpr ⟨b1, by rw [← b2]; exact (he i).symm⟩
  have hd := Sparse.distinct_asc hk.1
  unfold Sparse.sparseScalarProduct at h
  cases hl : k.ascendingNodes with
  | nil =>
    rw [hl] at h
    simp at h
    subst h
    exact_mod_cast hq
  | cons a rest =>
    cases rest with
    | cons b rest =>
      exfalso
      rw [hl] at hmem hd
      have ha := hmem a (by simp)
      have hb := hmem b (by simp)
      have hab : a.1 ≠ b.1 := (List.pairwise_cons.mp hd).1 b (by simp)
      match ho' : o.ascendingNodes, h1 with
      | [], _ => rw [ho'] at ha; simp at ha
      | [c], _ =>
        rw [ho'] at ha hb
        simp at ha hb
        exact hab (by rw [ha, hb])
    | nil =>
      rw [hl] at h
      rw [List.foldlM_cons] at h
      obtain ⟨x, hx, h⟩ := Option.bind_eq_some_iff.mp h
      cases h
      obtain ⟨y, -, rfl⟩ := Option.map_eq_some_iff.mp hx
      rw [zero_add]
      exact Int.emod_lt_of_pos _ (by exact_mod_cast hq)

theorem Made.witness_dense_sound [Fact q.Prime] {gxI : Int → Int}
    {gx : ZMod q → ZMod q} (hgx : GxRep gxI gx) (hgx0 : gx 0 = 0) (hM : Made q I f s)
    (hr : RunOK I P rand s) (hrin : NoRandName I P s) {r : R1CS (List Int)}
    (hR : gatesToR1CS (oneName :: P) I s.c.gates rand = some r)
    {rnd : Int} {inputs : List (Name × Int)} (hin : ∀ e ∈ inputs, e.1 ∈ I) (hnd : (inputs.map Prod.fst).Nodup)
    {w : List Int} (hw : calculateWitness q gxI r rnd inputs = some w) :
    w.length = r.witnessLength ∧ w.getD 0 0 = 1 ∧ (∀ e ∈ inputs, w.getD (r.index.get e.1) 0 = e.2) ∧
      (rand = true → w.getD (r.index.get randIn) 0 = rnd) ∧ (∀ row ∈ r.rows, SatD q gx w row) := by
  have hC := hM.compiled_dense hr hrin hR
  obtain ⟨-, rows, hm, hrr⟩ := gatesToR1CS_eq hR
  obtain ⟨hp, hrect⟩ := hC.plain (forall₂_of_mapM hm fun _ _ _ h => h) hrr
  obtain ⟨hl, hs, w0, inv, hI, hk⟩ := calculateWitness_sound hgx hrect hp hw
  obtain ⟨a, b, c⟩ := hC.init_vals hI hin hnd hk
  exact ⟨hl, a, b, c, hs⟩

theorem Made.witness_sparse_sound [Fact q.Prime] {gxI : Int → Int}
    {gx : ZMod q → ZMod q} (hgx : GxRep gxI gx) (hgx0 : gx 0 = 0) (hM : Made q I f s)
    (hr : RunOK I P rand s) (hrin : NoRandName I P s) {r : R1CS Tree}
    (hR : gatesToSparseR1CS q (oneName :: P) I s.c.gates rand = some r) (hnum : ∀ g ∈ s.c.gates, NumsOK r.index g)
    {rnd : Int} {inputs : List (Name × Int)} (hin : ∀ e ∈ inputs, e.1 ∈ I) (hnd : (inputs.map Prod.fst).Nodup)
    {w : List Int} (hw : calculateSparseWitness q gxI r rnd inputs = some w) :
    w.length = r.witnessLength ∧ w.getD 0 0 = 1 ∧ (∀ e ∈ inputs, w.getD (r.index.get e.1) 0 = e.2) ∧
      (rand = true → w.getD (r.index.get randIn) 0 = rnd) ∧ (∀ row ∈ r.rows, SatS q gx w row) := by
  have hC := hM.compiled_sparse hr hrin hR
  have hgood := hC.idx.inv.good
  have h0 : 0 < r.index.length := names_pos hC.idx (by simp)
  obtain ⟨-, rows, hm, hrr⟩ := gatesToSparseR1CS_eq hR
  have hrows : ∀ row ∈ rows, OkRow (OkTree r.index.length) row := fun row hrow => by
    obtain ⟨g, hg, he⟩ := (mapM_mem hm).2 row hrow
    exact (rowSparse_is hgood h0 (hC.gok g hg) (hnum g hg) he).ok
  have hall : ∀ row ∈ r.rows, OkRow (OkTree r.index.length) row := by
    rcases hrr with ⟨-, he⟩ | ⟨-, rr, hrr, he⟩
    · rw [he]; exact hrows
    · rw [he]
      intro row hrow
      rcases List.mem_append.mp hrow with hrow | hrow
      · exact hrows row hrow
      · simp at hrow; subst hrow
        exact (randSparse_is hgood h0 hrr).ok
  obtain ⟨hl, hs, w0, inv, hI, hk⟩ := calculateSparseWitness_sound hgx hall hw
  obtain ⟨a, b, c⟩ := hC.init_vals hI hin hnd hk
  exact ⟨hl, a, b, c, hs⟩

theorem Made.witness_dense_complete [Fact q.Prime] {gxI : Int → Int}
    {gx : ZMod q → ZMod q} (hgx : GxRep gxI gx) (hgx0 : gx 0 = 0) (hM : Made q I f s)
    (hr : RunOK I P rand s) (hrin : NoRandName I P s) {r : R1CS (List Int)}
    (hR : gatesToR1CS (oneName :: P) I s.c.gates rand = some r)
    {vals : Name → ZMod q} {v : ZMod q} (hv : ∃ ν : Name → ZMod q, (∀ n ∈ I, ν n = vals n) ∧ Models gx ν s ∧ formVal ν f = v)
    {inputs : List (Name × Int)} (hin : InputsFor I vals inputs) {rnd : Int} (hr0 : 0 ≤ rnd) (hr1 : rnd < q) :
    ∃ w, calculateWitness q gxI r rnd inputs = some w ∧ w.length = r.witnessLength ∧ w.getD 0 0 = 1 ∧
      (∀ e ∈ inputs, w.getD (r.index.get e.1) 0 = e.2) ∧ (∀ row ∈ r.rows, SatD q gx w row) ∧
      formVal (valsOf q r.index w) f = v := by
  have hC := hM.compiled_dense hr hrin hR
  have hgood := hC.idx.inv.good
  have h0 : 0 < r.index.length := names_pos hC.idx (by simp)
  obtain ⟨t, ht, htin, htf⟩ := hC.solution hM hv hr0 hr1
  have hsat := (dense_sat hgx0 hR hgood h0 hC.gok ht.len (by rw [ht.one]; simp)).mpr ⟨ht.models.holds, ht.randHolds⟩
  obtain ⟨-, rows, hm, hrr⟩ := gatesToR1CS_eq hR
  have hrows : List.Forall₂ (fun g row => RowIs q r.index (rowForms (swapLonger g)) denseEntry (fun a => a.length = r.index.length)
      row) s.c.gates rows := forall₂_of_mapM hm fun g hg row he => rowDense_is hgood h0 (hC.gok g hg) he
  have hall : (rand = false ∧ r.rows = rows) ∨ (rand = true ∧ ∃ rr, RowIs q r.index randForms denseEntry
      (fun a => a.length = r.index.length) rr ∧ r.rows = rows ++ [rr]) := by
    rcases hrr with h | ⟨a, rr, b, c⟩
    · exact Or.inl h
    · exact Or.inr ⟨a, rr, randDense_is hgood h0 b, c⟩
  have hok' : ∀ row ∈ r.rows, OkRow (fun a : List Int => a.length = r.index.length) row := by
    obtain ⟨-, hrect⟩ := hC.plain (forall₂_of_mapM hm fun _ _ _ h => h) hrr
    intro row hrow
    obtain ⟨a, b, c, d⟩ := hrect row hrow
    exact ⟨a, b, c, d⟩
  obtain ⟨w, h1, h2, h3, h4, h5, h6⟩ := hC.complete ht hin.all
    (fun e he => ⟨(hin.val e he).1, by rw [htin _ (hin.val e he).1, (hin.val e he).2]⟩)
    (step := fun inv row s => stepD q gxI inv row s) hrows hall hsat
    (fun inv row hrow w hl ha hrd => stepD_complete hgx (hok' row hrow) hl ht.len ht.can ha (hsat row hrow) hrd)
  refine ⟨w.w, ?_, h2, h3, h4, h5, ?_⟩
  · unfold calculateWitness
    simp only [Option.bind_eq_bind] at h1 ⊢
    obtain ⟨x, e1, e2⟩ := Option.bind_eq_some_iff.mp h1
    rw [e1, Option.bind_some]
    obtain ⟨x1, x2⟩ := x
    simp only [] at e2 ⊢
    rw [e2]; rfl
  · rw [← htf]
    exact formVal_congr fun n hn => by
      unfold valsOf
      rw [h6 n (hM.attF n hn)]

theorem Made.witness_sparse_complete [Fact q.Prime] {gxI : Int → Int}
    {gx : ZMod q → ZMod q} (hgx : GxRep gxI gx) (hgx0 : gx 0 = 0) (hM : Made q I f s)
    (hr : RunOK I P rand s) (hrin : NoRandName I P s) {r : R1CS Tree}
    (hR : gatesToSparseR1CS q (oneName :: P) I s.c.gates rand = some r) (hnum : ∀ g ∈ s.c.gates, NumsOK r.index g)
    (hout : ∀ row ∈ r.rows, row.O.ascendingNodes.length ≤ 1)
    {vals : Name → ZMod q} {v : ZMod q} (hv : ∃ ν : Name → ZMod q, (∀ n ∈ I, ν n = vals n) ∧ Models gx ν s ∧ formVal ν f = v)
    {inputs : List (Name × Int)} (hin : InputsFor I vals inputs) {rnd : Int} (hr0 : 0 ≤ rnd) (hr1 : rnd < q) :
    ∃ w, calculateSparseWitness q gxI r rnd inputs = some w ∧ w.length = r.witnessLength ∧ w.getD 0 0 = 1 ∧
      (∀ e ∈ inputs, w.getD (r.index.get e.1) 0 = e.2) ∧ (∀ row ∈ r.rows, SatS q gx w row) ∧
      formVal (valsOf q r.index w) f = v := by
  have hC := hM.compiled_sparse hr hrin hR
  have hgood := hC.idx.inv.good
  have h0 : 0 < r.index.length := names_pos hC.idx (by simp)
  obtain ⟨t, ht, htin, htf⟩ := hC.solution hM hv hr0 hr1
  have hsat := (sparse_sat hgx0 hR hgood h0 hC.gok hnum ht.len (by rw [ht.one]; simp)).mpr ⟨ht.models.holds, ht.randHolds⟩
  obtain ⟨-, rows, hm, hrr⟩ := gatesToSparseR1CS_eq hR
  have hrows : List.Forall₂ (fun g row => RowIs q r.index (rowForms (swapLonger g)) sparseEntry (OkTree r.index.length)
      row) s.c.gates rows := forall₂_of_mapM hm fun g hg row he => rowSparse_is hgood h0 (hC.gok g hg) (hnum g hg) he
  have hall : (rand = false ∧ r.rows = rows) ∨ (rand = true ∧ ∃ rr, RowIs q r.index randForms sparseEntry
      (OkTree r.index.length) rr ∧ r.rows = rows ++ [rr]) := by
    rcases hrr with h | ⟨a, rr, b, c⟩
    · exact Or.inl h
    · exact Or.inr ⟨a, rr, randSparse_is hgood h0 b, c⟩
  have hok' : ∀ row ∈ r.rows, OkRow (OkTree r.index.length) row := by
    have hrows' : ∀ row ∈ rows, OkRow (OkTree r.index.length) row := fun row hrow => by
      obtain ⟨g, hg, he⟩ := (mapM_mem hm).2 row hrow
      exact (rowSparse_is hgood h0 (hC.gok g hg) (hnum g hg) he).ok
    rcases hall with ⟨-, he⟩ | ⟨-, rr, hrr, he⟩
    · rw [he]; exact hrows'
    · rw [he]
      intro row hrow
      rcases List.mem_append.mp hrow with hrow | hrow
      · exact hrows' row hrow
      · simp at hrow; subst hrow
        exact hrr.ok
  obtain ⟨w, h1, h2, h3, h4, h5, h6⟩ := hC.complete ht hin.all
    (fun e he => ⟨(hin.val e he).1, by rw [htin _ (hin.val e he).1, (hin.val e he).2]⟩)
    (step := fun inv row s => stepS q gxI inv row s) hrows hall hsat
    (fun inv row hrow w hl ha hrd => stepS_complete hgx (hok' row hrow) hl
      (fun k hk he w r hr => ssp_lt (Fact.out : q.Prime).pos (hok' row hrow).O hk (hout row hrow) he hr)
      ht.len ht.can ha (hsat row hrow) hrd)
  refine ⟨w.w, ?_, h2, h3, h4, h5, ?_⟩
  · unfold calculateSparseWitness
    simp only [Option.bind_eq_bind] at h1 ⊢
    obtain ⟨x, e1, e2⟩ := Option.bind_eq_some_iff.mp h1
    rw [e1, Option.bind_some]
    obtain ⟨x1, x2⟩ := x
    simp only [] at e2 ⊢
    rw [e2]; rfl
  · rw [← htf]
    exact formVal_congr fun n hn => by
      unfold valsOf
      rw [h6 n (hM.attF n hn)]

end APS.Circuit
