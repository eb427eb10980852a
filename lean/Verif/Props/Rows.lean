import Verif.Proofs.EndToEnd
import Verif.Props.Circuit

/-! Properties C30 - C32, C41 and the row part of C38: witness positions, constraint rows, whole programs. -/
namespace APS
open APS.Spec APS.Circuit APS.Avl APS.Avl.Tree

variable {q : Nat}

/-! ### C30 witness positions -/

/-- C30a: provided the public inputs are distinct (and the reserved randomizer names are not used), every public input,
main input and gate output gets its own position; the positions are exactly `0 … length-1`; the i-th public input is at
position i. -/
theorem C30_positions {publics inputs : List Name} {gates : List Gate} {rand : Bool} {m : IndexMap} {sp : SplitMap}
    (h : buildIndex publics inputs gates rand = some (m, sp)) (hp : publics.Nodup)
    (hr : rand = true → ∀ n ∈ [randIn, randOut], n ∉ publics ∧ n ∉ inputs ∧ ∀ g ∈ gates, g.noNew = false → g.ident ≠ n) :
    GoodIndex m ∧
    (∀ n, m.has n = true ↔ n ∈ publics ∨ n ∈ inputs ∨ (∃ g ∈ gates, g.noNew = false ∧ g.ident = n) ∨
      (rand = true ∧ (n = randIn ∨ n = randOut))) ∧
    (∀ (i : Nat) (n : Name), publics[i]? = some n → m.get n = i) := by
  have := buildIndex_spec h hp (fun hr' n hn => hr hr' n (by simpa using hn))
  exact ⟨this.inv.good, this.names, this.pub⟩

/-- C30b: a gate output never silently takes the position of an input or of another gate: the construction aborts. -/
theorem C30_no_shadowing {publics inputs : List Name} {gates : List Gate} {rand : Bool} {m : IndexMap} {sp : SplitMap}
    (h : buildIndex publics inputs gates rand = some (m, sp)) (hp : publics.Nodup)
    (hr : rand = true → ∀ n ∈ [randIn, randOut], n ∉ publics ∧ n ∉ inputs ∧ ∀ g ∈ gates, g.noNew = false → g.ident ≠ n) :
    ∀ g ∈ gates, g.noNew = false → g.ident ∉ publics ∧ g.ident ∉ inputs :=
  (buildIndex_spec h hp (fun hr' n hn => hr hr' n (by simpa using hn))).fresh

/-- C30 without the hypothesis on the public inputs is refuted: a public input declared twice makes two DIFFERENT later
names share one position. -/
theorem C30_duplicate_publics_refuted :
    ∃ publics inputs : List Name, ∃ m sp, buildIndex publics inputs [] false = some (m, sp) ∧
      m.has ['a'] = true ∧ m.has ['b'] = true ∧ m.get ['a'] = m.get ['b'] :=
  ⟨[['1'], ['a'], ['a'], ['b']], [], _, _, rfl, by decide, by decide, by decide⟩

/-- a multiplication gate and an equality gate (which creates no name) -/
example : buildIndex [['1'], ['a']] [['a'], ['b']]
    [{ typ := .mult, left := [argF ['a'] 1], right := [argF ['b'] 1], ident := ['c'], out := [argF ['c'] 1] },
     { typ := .equality, left := [argF ['a'] 1], right := [argF ['b'] 1], ident := ['d'], noNew := true }] true =
    some ([(['1'], 0), (['a'], 1), (['b'], 2), (['c'], 3), (randIn, 4), (randOut, 5)], []) := by decide

/-! ### C41 public signal order -/

/-- C41a: `CombineInputs` pairs position by position. -/
theorem C41_combine (abs : List Name) (conc : List Int) (r : List (Name × Int)) (h : combineInputs abs conc = some r) :
    r.length = abs.length ∧ ∀ (i : Nat) (n : Name) (v : Int), r[i]? = some (n, v) ↔ abs[i]? = some n ∧ conc[i]? = some v := by
  unfold combineInputs at h
  split at h
  · cases h
  · rename_i hl
    simp only [ne_eq, not_not] at hl
    cases h
    refine ⟨by simp [hl], fun i n v => ?_⟩
    rw [List.getElem?_zip_eq_some]

/-- C41b: it aborts exactly on a length mismatch. -/
theorem C41_mismatch (abs : List Name) (conc : List Int) : combineInputs abs conc = none ↔ abs.length ≠ conc.length := by
  unfold combineInputs
  split <;> simp_all

/-- C41c: in the constraint system of a program the constant wire has position 0 and the i-th public input position i+1;
no other name has one of these positions. -/
theorem C41_public_positions {P inputs : List Name} {gates : List Gate} {rand : Bool} {r : R1CS (List Int)}
    (h : gatesToR1CS (oneName :: P) inputs gates rand = some r) (hp : (oneName :: P).Nodup)
    (hr : rand = true → ∀ n ∈ [randIn, randOut], n ∉ oneName :: P ∧ n ∉ inputs ∧ ∀ g ∈ gates, g.noNew = false → g.ident ≠ n) :
    r.index.get oneName = 0 ∧ (∀ (i : Nat) (n : Name), P[i]? = some n → r.index.get n = i + 1) ∧
    (∀ n, r.index.has n = true → r.index.get n ≤ P.length → n ∈ oneName :: P) := by
  obtain ⟨hb, -⟩ := gatesToR1CS_eq h
  obtain ⟨g1, g2, g3⟩ := C30_positions hb hp hr
  refine ⟨g3 0 _ rfl, fun i n hi => g3 (i + 1) n (by simpa using hi), fun n hn hle => ?_⟩
  have hlt : r.index.get n < (oneName :: P).length := by simp; omega
  have hx := g3 (r.index.get n) (oneName :: P)[r.index.get n] (List.getElem?_eq_getElem hlt)
  have hmem : (oneName :: P)[r.index.get n] ∈ oneName :: P := List.getElem_mem hlt
  have : n = (oneName :: P)[r.index.get n] := g1.inj _ _ hn ((g2 _).mpr (Or.inl hmem)) hx.symm
  rw [this]; exact hmem

example : combineInputs [['a'], ['b']] [5, 7] = some [(['a'], 5), (['b'], 7)] := by decide

/-! ### C31 rows mean what the gates say -/

/-- C31a (dense): a witness that starts with 1 satisfies all rows of `GatesToR1CS` iff every gate's equation holds for the
named values (and the randomizer's equation, if requested). -/
theorem C31_dense [Fact q.Prime] {gx : ZMod q → ZMod q} (hgx : gx 0 = 0) {publics inputs : List Name}
    {gates : List Gate} {rand : Bool} {r : R1CS (List Int)} (h : gatesToR1CS publics inputs gates rand = some r)
    (hp : publics.Nodup) (hne : publics ≠ [])
    (hr : rand = true → ∀ n ∈ [randIn, randOut], n ∉ publics ∧ n ∉ inputs ∧ ∀ g ∈ gates, g.noNew = false → g.ident ≠ n)
    (hok : ∀ g ∈ gates, GateOK r.index g) {w : List Int}
    (hw : w.length = r.witnessLength) (h1 : ((w.getD 0 0 : Int) : ZMod q) = 1) :
    (∀ row ∈ r.rows, SatD q gx w row) ↔
      (∀ g ∈ gates, GateHolds gx (valsOf q r.index w) g) ∧ (rand = true → RandHolds gx (valsOf q r.index w)) := by
  have hi := buildIndex_spec (gatesToR1CS_eq h).1 hp (fun hr' n hn => hr hr' n (by simpa using hn))
  exact dense_sat hgx h hi.inv.good (names_pos hi hne) hok hw h1

/-- C31b (sparse): the same for `GatesToSparseR1CS`, provided no constant is written like a name with its own position. -/
theorem C31_sparse [Fact q.Prime] {gx : ZMod q → ZMod q} (hgx : gx 0 = 0) {publics inputs : List Name}
    {gates : List Gate} {rand : Bool} {r : R1CS Tree} (h : gatesToSparseR1CS q publics inputs gates rand = some r)
    (hp : publics.Nodup) (hne : publics ≠ [])
    (hr : rand = true → ∀ n ∈ [randIn, randOut], n ∉ publics ∧ n ∉ inputs ∧ ∀ g ∈ gates, g.noNew = false → g.ident ≠ n)
    (hok : ∀ g ∈ gates, GateOK r.index g) (hnum : ∀ g ∈ gates, NumsOK r.index g) {w : List Int}
    (hw : w.length = r.witnessLength) (h1 : ((w.getD 0 0 : Int) : ZMod q) = 1) :
    (∀ row ∈ r.rows, SatS q gx w row) ↔
      (∀ g ∈ gates, GateHolds gx (valsOf q r.index w) g) ∧ (rand = true → RandHolds gx (valsOf q r.index w)) := by
  have hi := buildIndex_spec (gatesToSparseR1CS_eq h).1 hp (fun hr' n hn => hr hr' n (by simpa using hn))
  exact sparse_sat hgx h hi.inv.good (names_pos hi hne) hok hnum hw h1

/-- C31c: there is one row per gate, in order, plus the randomizer. -/
theorem C31_row_count {publics inputs : List Name} {gates : List Gate} {rand : Bool} {r : R1CS (List Int)}
    (h : gatesToR1CS publics inputs gates rand = some r) : r.numberOfGates = gates.length + (if rand then 1 else 0) := by
  obtain ⟨-, rows, hm, hrr⟩ := gatesToR1CS_eq h
  have hl : ∀ (l : List Gate) (rs : List (Row (List Int))), l.mapM (rowDense r.index) = some rs → rs.length = l.length := by
    intro l
    induction l with
    | nil => intro rs h; simp at h; subst h; rfl
    | cons a l ih =>
      intro rs h
      rw [List.mapM_cons] at h
      cases ha : rowDense r.index a with
      | none => simp [ha] at h
      | some y =>
        cases hb : l.mapM (rowDense r.index) with
        | none => simp [ha, hb] at h
        | some ys => simp [ha, hb] at h; subst h; simp [ih ys hb]
  rcases hrr with ⟨rfl, he⟩ | ⟨rfl, rr, -, he⟩ <;> simp [R1CS.numberOfGates, he, hl _ _ hm]

/-- The hypothesis on constants in C31b is needed: with a main input called `5`, the sparse generator puts the constant 5
on that input's wire (the dense one does not). -/
theorem C31_sparse_number_name_refuted :
    ∃ (inputs : List Name) (g : Gate) (r : R1CS Tree) (w : List Int),
      gatesToSparseR1CS 7 [oneName] inputs [g] false = some r ∧ GateOK r.index g ∧ w.length = r.witnessLength ∧
      w.getD 0 0 = 1 ∧ (∀ row ∈ r.rows, SatS 7 (fun _ => 0) w row) ∧
      ¬ GateHolds (q := 7) (fun _ => 0) (valsOf 7 r.index w) g := by
  refine ⟨[['5'], ['x']], { typ := .equality, left := [argF ['x'] 1], right := [numF 5], ident := ['g'], noNew := true },
    ⟨[(['1'], 0), (['5'], 1), (['x'], 2)], [], [⟨.node .nil 2 1 1 .nil, .node .nil 0 1 1 .nil, .nil, .node .nil 1 5 1 .nil⟩]⟩,
    [1, 3, 1], by decide +kernel, ?_, rfl, rfl, ?_, ?_⟩
  · refine ⟨?_, ?_, ?_, ?_, ?_, ?_, ?_⟩ <;> simp [Distinct]
  · intro row hrow
    simp at hrow; subst hrow
    simp [SatS, RowSat, dot, Finset.sum_range_succ, sparseEntry, Tree.get]
    decide
  · simp [GateHolds, valsOf, formVal, factorVal, argF, numF, IndexMap.get]
    decide

/-! ### C32 dense and sparse generation agree -/

/-- C32: the matrices describe the same entries modulo `q`. -/
theorem C32_agree {publics inputs : List Name} {gates : List Gate} {rand : Bool} {d : R1CS (List Int)} {t : R1CS Tree}
    (h : gatesToR1CS publics inputs gates rand = some d) (h' : gatesToSparseR1CS q publics inputs gates rand = some t)
    (hp : publics.Nodup) (hne : publics ≠ [])
    (hr : rand = true → ∀ n ∈ [randIn, randOut], n ∉ publics ∧ n ∉ inputs ∧ ∀ g ∈ gates, g.noNew = false → g.ident ≠ n)
    (hok : ∀ g ∈ gates, GateOK d.index g) (hnum : ∀ g ∈ gates, NumsOK d.index g) :
    t.index = d.index ∧ t.split = d.split ∧ t.rows.length = d.rows.length ∧
    ∀ (i : Nat) (rd : Row (List Int)) (rt : Row Tree), d.rows[i]? = some rd → t.rows[i]? = some rt → ∀ j,
      ((denseEntry rd.L j : Int) : ZMod q) = (sparseEntry rt.L j : ZMod q) ∧
      ((denseEntry rd.R j : Int) : ZMod q) = (sparseEntry rt.R j : ZMod q) ∧
      ((denseEntry rd.E j : Int) : ZMod q) = (sparseEntry rt.E j : ZMod q) ∧
      ((denseEntry rd.O j : Int) : ZMod q) = (sparseEntry rt.O j : ZMod q) := by
  obtain ⟨hb, rows, hm, hrr⟩ := gatesToR1CS_eq h
  obtain ⟨hb', rows', hm', hrr'⟩ := gatesToSparseR1CS_eq h'
  rw [hb] at hb'
  simp only [Option.some.injEq, Prod.mk.injEq] at hb'
  obtain ⟨e1, e2⟩ := hb'
  have hi := buildIndex_spec hb hp (fun hr' n hn => hr hr' n (by simpa using hn))
  have hpos := names_pos hi hne
  rw [← e1] at hm' hrr'
  have key : ∀ (l : List Gate), (∀ g ∈ l, GateOK d.index g) → (∀ g ∈ l, NumsOK d.index g) →
      ∀ (rs : List (Row (List Int))) (rs' : List (Row Tree)),
      l.mapM (rowDense d.index) = some rs → l.mapM (rowSparse q d.index) = some rs' → rs'.length = rs.length ∧
      ∀ (i : Nat) (rd : Row (List Int)) (rt : Row Tree), rs[i]? = some rd → rs'[i]? = some rt → ∀ j,
      ((denseEntry rd.L j : Int) : ZMod q) = (sparseEntry rt.L j : ZMod q) ∧
      ((denseEntry rd.R j : Int) : ZMod q) = (sparseEntry rt.R j : ZMod q) ∧
      ((denseEntry rd.E j : Int) : ZMod q) = (sparseEntry rt.E j : ZMod q) ∧
      ((denseEntry rd.O j : Int) : ZMod q) = (sparseEntry rt.O j : ZMod q) := by
    intro l
    induction l with
    | nil => intro _ _ rs rs' h h'; simp at h h'; subst h h'; simp
    | cons a l ih =>
      intro ho hn rs rs' h h'
      rw [List.mapM_cons] at h h'
      cases ha : rowDense d.index a with
      | none => simp [ha] at h
      | some y =>
        cases hc : l.mapM (rowDense d.index) with
        | none => simp [ha, hc] at h
        | some ys =>
          cases ha' : rowSparse q d.index a with
          | none => simp [ha'] at h'
          | some y' =>
            cases hc' : l.mapM (rowSparse q d.index) with
            | none => simp [ha', hc'] at h'
            | some ys' =>
              simp [ha, hc] at h; simp [ha', hc'] at h'; subst h h'
              obtain ⟨i1, i2⟩ := ih (fun g hg => ho g (List.mem_cons_of_mem _ hg))
                (fun g hg => hn g (List.mem_cons_of_mem _ hg)) ys ys' hc hc'
              refine ⟨by simp [i1], fun i rd rt h1 h2 j => ?_⟩
              cases i with
              | zero =>
                simp at h1 h2; subst h1 h2
                obtain ⟨-, a1, a2, a3, a4⟩ := rowDense_coef hi.inv.good hpos (ho a List.mem_cons_self) ha
                obtain ⟨-, b1, b2, b3, b4⟩ := rowSparse_coef (q := q) hi.inv.good hpos (hn a List.mem_cons_self) ha'
                rw [a1 j, a2 j, a3 j, a4 j, b1 j, b2 j, b3 j, b4 j]
                exact ⟨rfl, rfl, rfl, rfl⟩
              | succ i => exact i2 i rd rt (by simpa using h1) (by simpa using h2) j
  obtain ⟨k1, k2⟩ := key gates hok hnum rows rows' hm hm'
  refine ⟨e1.symm, e2.symm, ?_⟩
  rcases hrr with ⟨r0, he⟩ | ⟨r0, rr, hR, he⟩ <;> rcases hrr' with ⟨r0', he'⟩ | ⟨r0', rr', hR', he'⟩
  · rw [he, he']; exact ⟨k1, k2⟩
  · rw [r0] at r0'; cases r0'
  · rw [r0] at r0'; cases r0'
  · rw [he, he']
    refine ⟨by simp [k1], fun i rd rt h1 h2 j => ?_⟩
    by_cases hlt : i < rows.length
    · rw [List.getElem?_append_left hlt] at h1
      rw [List.getElem?_append_left (by omega)] at h2
      exact k2 i rd rt h1 h2 j
    · have hi' : i = rows.length := by
        have := (List.getElem?_eq_some_iff.mp h1).1
        simp at this; omega
      subst hi'
      rw [List.getElem?_append_right (le_refl _)] at h1
      rw [List.getElem?_append_right (by omega)] at h2
      simp [k1] at h1 h2
      subst h1 h2
      unfold randRowDense at hR
      unfold randRowSparse at hR'
      cases hI : formDense d.index [argF randIn 1] with
      | none => simp [hI] at hR
      | some a =>
        cases hO : formDense d.index [argF randOut 1] with
        | none => simp [hI, hO] at hR
        | some b =>
          cases hI' : formSparse q d.index [argF randIn 1] with
          | none => simp [hI'] at hR'
          | some a' =>
            cases hO' : formSparse q d.index [argF randOut 1] with
            | none => simp [hI', hO'] at hR'
            | some b' =>
              simp [hI, hO] at hR; simp [hI', hO'] at hR'; subst hR hR'
              have key : ∀ n a a', formDense d.index [argF n 1] = some a → formSparse q d.index [argF n 1] = some a' →
                  ∀ j, ((denseEntry a j : Int) : ZMod q) = (sparseEntry a' j : ZMod q) := by
                intro n a a' ha ha' j
                rw [formDense_entry (randPos_lt hi.inv.good (formDense_argF ha)) (by simp [Distinct]) ha,
                  (formSparse_entry (by simp [NumAtZero, argF]) ha').2]
              exact ⟨key _ _ _ hI hI' j, key _ _ _ hI hI' j, key _ _ _ hI hI' j, key _ _ _ hO hO' j⟩

end APS
