import Verif.Props.Program
import Verif.Proofs.WitnessSound

/-! Properties C33 - C35, C69, C70: `CalculateWitness` and `CalculateSparseWitness`. -/
namespace APS
open APS.Spec APS.Circuit APS.Avl APS.Avl.Tree

variable {q : Nat}

/-! ### C33 the dense calculation on compiled programs -/

/-- C33: if the calculation on the constraints of a compiled program succeeds for a list of input values, then the witness has
the right length, starts with 1, carries the given inputs, satisfies every constraint row, and the source program evaluates
on these inputs to the value of the returned form (or divides by zero). -/
theorem C33_witness_sound [Fact q.Prime] {H : Name → Nat} {p : Prog} {f : Factors} {s : St} {gxI : Int → Int}
    {gx : ZMod q → ZMod q} (hgx : GxRep gxI gx) (hgx0 : gx 0 = 0) (hok : ProgOK p) (h : execute H q p = some (f, s))
    {P : List Name} {rand : Bool} (hr : RunOK p.inputs P rand s) (hrin : NoRandName p.inputs P s) {r : R1CS (List Int)}
    (hR : gatesToR1CS (oneName :: P) p.inputs s.c.gates rand = some r)
    {rnd : Int} {inputs : List (Name × Int)} (hin : ∀ e ∈ inputs, e.1 ∈ p.inputs) (hnd : (inputs.map Prod.fst).Nodup)
    {w : List Int} (hw : calculateWitness q gxI r rnd inputs = some w) :
    w.length = r.witnessLength ∧ w.getD 0 0 = 1 ∧ (∀ e ∈ inputs, w.getD (r.index.get e.1) 0 = e.2) ∧
      (rand = true → w.getD (r.index.get randIn) 0 = rnd) ∧ (∀ row ∈ r.rows, SatD q gx w row) ∧
      (evalProg gx p (valsOf q r.index w) = .ok (formVal (valsOf q r.index w) f) ∨
        evalProg gx p (valsOf q r.index w) = .error .divByZero) := by
  obtain ⟨hl, a, b, c, hs⟩ := (execute_made hok h).witness_dense_sound hgx hgx0 hr hrin hR hin hnd hw
  exact ⟨hl, a, b, c, hs, C38_rows_sound gx hgx0 hok h hr hR hl (by rw [a]; simp) hs⟩

/-! ### C34 the sparse calculation on compiled programs -/

/-- C34: the same for `CalculateSparseWitness` (no constant may be spelled like an input, see C31). -/
theorem C34_sparse_witness_sound [Fact q.Prime] {H : Name → Nat} {p : Prog} {f : Factors} {s : St} {gxI : Int → Int}
    {gx : ZMod q → ZMod q} (hgx : GxRep gxI gx) (hgx0 : gx 0 = 0) (hok : ProgOK p) (h : execute H q p = some (f, s))
    {P : List Name} {rand : Bool} (hr : RunOK p.inputs P rand s) (hrin : NoRandName p.inputs P s) {r : R1CS Tree}
    (hR : gatesToSparseR1CS q (oneName :: P) p.inputs s.c.gates rand = some r) (hnum : ∀ g ∈ s.c.gates, NumsOK r.index g)
    {rnd : Int} {inputs : List (Name × Int)} (hin : ∀ e ∈ inputs, e.1 ∈ p.inputs) (hnd : (inputs.map Prod.fst).Nodup)
    {w : List Int} (hw : calculateSparseWitness q gxI r rnd inputs = some w) :
    w.length = r.witnessLength ∧ w.getD 0 0 = 1 ∧ (∀ e ∈ inputs, w.getD (r.index.get e.1) 0 = e.2) ∧
      (rand = true → w.getD (r.index.get randIn) 0 = rnd) ∧ (∀ row ∈ r.rows, SatS q gx w row) ∧
      (evalProg gx p (valsOf q r.index w) = .ok (formVal (valsOf q r.index w) f) ∨
        evalProg gx p (valsOf q r.index w) = .error .divByZero) := by
  obtain ⟨hl, a, b, c, hs⟩ := (execute_made hok h).witness_sparse_sound hgx hgx0 hr hrin hR hnum hin hnd hw
  exact ⟨hl, a, b, c, hs, C38_rows_sound_sparse gx hgx0 hok h hr hR hnum hl (by rw [a]; simp) hs⟩

/-! ### C35 completeness of the dense calculation -/

/-- C35: if the source program evaluates to `v` on some inputs, then `CalculateWitness`, given these inputs in canonical form,
succeeds - whatever randomizer is drawn - and the witness carries the inputs, satisfies every row, and gives the returned form
the value `v`. -/
theorem C35_witness_complete [Fact q.Prime] {H : Name → Nat} {p : Prog} {f : Factors} {s : St} {gxI : Int → Int}
    {gx : ZMod q → ZMod q} (hgx : GxRep gxI gx) (hgx0 : gx 0 = 0) (hok : ProgOK p) (h : execute H q p = some (f, s))
    {P : List Name} {rand : Bool} (hr : RunOK p.inputs P rand s) (hrin : NoRandName p.inputs P s) {r : R1CS (List Int)}
    (hR : gatesToR1CS (oneName :: P) p.inputs s.c.gates rand = some r)
    {vals : Name → ZMod q} {v : ZMod q} (hv : evalProg gx p vals = .ok v)
    {inputs : List (Name × Int)} (hin : InputsFor p.inputs vals inputs) {rnd : Int} (hr0 : 0 ≤ rnd) (hr1 : rnd < q) :
    ∃ w, calculateWitness q gxI r rnd inputs = some w ∧ w.length = r.witnessLength ∧ w.getD 0 0 = 1 ∧
      (∀ e ∈ inputs, w.getD (r.index.get e.1) 0 = e.2) ∧ (∀ row ∈ r.rows, SatD q gx w row) ∧
      formVal (valsOf q r.index w) f = v :=
  (execute_made hok h).witness_dense_complete hgx hgx0 hr hrin hR (execute_models hok h hr.conf hr.const hr.disj hv) hin hr0 hr1

/-! ### C70 completeness of the sparse calculation -/

/-- C70: `CalculateSparseWitness` succeeds whenever the source program evaluates.
(Partial: proved when the output side of every row has at most one entry; with two or more the code compares a reduced with an
unreduced number and may reject, see `C70_complete_refuted`.) -/
theorem C70_sparse_complete_partial [Fact q.Prime] {H : Name → Nat} {p : Prog} {f : Factors} {s : St} {gxI : Int → Int}
    {gx : ZMod q → ZMod q} (hgx : GxRep gxI gx) (hgx0 : gx 0 = 0) (hok : ProgOK p) (h : execute H q p = some (f, s))
    {P : List Name} {rand : Bool} (hr : RunOK p.inputs P rand s) (hrin : NoRandName p.inputs P s) {r : R1CS Tree}
    (hR : gatesToSparseR1CS q (oneName :: P) p.inputs s.c.gates rand = some r) (hnum : ∀ g ∈ s.c.gates, NumsOK r.index g)
    (hout : ∀ row ∈ r.rows, row.O.ascendingNodes.length ≤ 1)
    {vals : Name → ZMod q} {v : ZMod q} (hv : evalProg gx p vals = .ok v)
    {inputs : List (Name × Int)} (hin : InputsFor p.inputs vals inputs) {rnd : Int} (hr0 : 0 ≤ rnd) (hr1 : rnd < q) :
    ∃ w, calculateSparseWitness q gxI r rnd inputs = some w ∧ w.length = r.witnessLength ∧ w.getD 0 0 = 1 ∧
      (∀ e ∈ inputs, w.getD (r.index.get e.1) 0 = e.2) ∧ (∀ row ∈ r.rows, SatS q gx w row) ∧
      formVal (valsOf q r.index w) f = v :=
  (execute_made hok h).witness_sparse_complete hgx hgx0 hr hrin hR hnum hout (execute_models hok h hr.conf hr.const hr.disj hv) hin
    hr0 hr1

/-- `main(x,y,z){ equal(z + 1, x + y) return x*z }` -/
def sumProg : Prog :=
  { inputs := [['x'], ['y'], ['z']]
    body := [.equal (.add (.var ['z']) (.num ['1'])) (.add (.var ['x']) (.var ['y']))]
    ret := .mul (.var ['x']) (.var ['z']) }

/-- the constraints of `sumProg` -/
def sumGates : List Gate := ((execute H0 7 sumProg).map fun x => x.2.c.gates).getD []

/-- C70 is refuted: `sumProg` evaluates for x = y = 6, z = 4 modulo 7 (all conditions on the run hold, and the dense calculation
succeeds), but the sparse calculation fails; for x = 1, y = 2, z = 2 it succeeds. -/
theorem C70_complete_refuted :
    (∃ f s, execute H0 7 sumProg = some (f, s) ∧ RunOK sumProg.inputs [] false s ∧ NoRandName sumProg.inputs [] s ∧ s.c.gates = sumGates) ∧
    (evalProg (fun _ => 0) sumProg (fun n => if n = ['z'] then 4 else (6 : ZMod 7))).toOption = some 3 ∧
    ((gatesToR1CS [oneName] sumProg.inputs sumGates false).bind fun r =>
      calculateWitness 7 (fun _ => 0) r 0 [(['x'], 6), (['y'], 6), (['z'], 4)]) = some [1, 6, 6, 4, 3] ∧
    ((gatesToSparseR1CS 7 [oneName] sumProg.inputs sumGates false).map fun r =>
      calculateSparseWitness 7 (fun _ => 0) r 0 [(['x'], 6), (['y'], 6), (['z'], 4)]) = some none ∧
    ((gatesToSparseR1CS 7 [oneName] sumProg.inputs sumGates false).bind fun r =>
      calculateSparseWitness 7 (fun _ => 0) r 0 [(['x'], 1), (['y'], 2), (['z'], 2)]) = some [1, 1, 2, 2, 2] := by
  refine ⟨?_, by decide +kernel⟩
  have h : ((execute H0 7 sumProg).map fun x => decide (RunOK sumProg.inputs [] false x.2 ∧ NoRandName sumProg.inputs [] x.2)) = some true := by
    decide +kernel
  obtain ⟨⟨f, s⟩, h1, h2⟩ := Option.map_eq_some_iff.mp h
  simp only [decide_eq_true_eq] at h2
  exact ⟨f, s, h1, h2.1, h2.2, by simp only [sumGates, h1, Option.map_some, Option.getD_some]⟩

/-! ### the hypotheses of C33 - C35 hold for `demoProg` -/

instance (m : IndexMap) (f : Factors) : Decidable (NumAtZero m f) := by unfold NumAtZero; infer_instance
instance (m : IndexMap) (g : Gate) : Decidable (NumsOK m g) :=
  decidable_of_iff (NumAtZero m g.left ∧ NumAtZero m g.right ∧ NumAtZero m g.expo ∧ NumAtZero m g.out)
    ⟨fun ⟨a, b, c, d⟩ => ⟨a, b, c, d⟩, fun ⟨a, b, c, d⟩ => ⟨a, b, c, d⟩⟩

/-- all conditions on the run hold, both calculations succeed on the inputs x = 2, y = 36 (for which the source program evaluates),
and every row of the sparse system meets the condition of C70 -/
example : GxRep (q := 101) (fun k => 3 * k) (fun k => 3 * k) := fun k _ => by push_cast; rfl

example : ((execute H0 101 demoProg).map fun x => decide (RunOK demoProg.inputs [['x']] true x.2 ∧ NoRandName demoProg.inputs [['x']] x.2))
      = some true ∧
    (((execute H0 101 demoProg).bind fun x => gatesToR1CS [oneName, ['x']] demoProg.inputs x.2.c.gates true).bind fun r =>
      calculateWitness 101 (fun k => 3 * k) r 5 [(['x'], 2), (['y'], 36)]).isSome ∧
    (((execute H0 101 demoProg).bind fun x => gatesToR1CS [oneName, ['x']] demoProg.inputs x.2.c.gates true).bind fun r =>
      calculateWitness 101 (fun k => 3 * k) r 5 [(['x'], 2), (['y'], 35)]) = none ∧
    (((execute H0 101 demoProg).bind fun x => gatesToSparseR1CS 101 [oneName, ['x']] demoProg.inputs x.2.c.gates true).bind fun r =>
      calculateSparseWitness 101 (fun k => 3 * k) r 5 [(['x'], 2), (['y'], 36)]).isSome ∧
    ((execute H0 101 demoProg).bind fun x => (gatesToSparseR1CS 101 [oneName, ['x']] demoProg.inputs x.2.c.gates true).map fun r =>
      decide ((∀ row ∈ r.rows, row.O.ascendingNodes.length ≤ 1) ∧ ∀ g ∈ x.2.c.gates, NumsOK r.index g)) = some true := by
  decide +kernel

instance : Fact (Nat.Prime 101) := ⟨by norm_num⟩

/-- the source program evaluates to 30 on these inputs -/
example : evalProg (fun k => 3 * k) demoProg (fun n => if n = ['x'] then 2 else (36 : ZMod 101)) = .ok 30 := by
  have h3 : (2 + 1 : ZMod 101) ≠ 0 := by decide
  have hd : (36 : ZMod 101) / (2 + 1) = 12 := by rw [div_eq_iff h3]; decide
  have e1 : Nat.ofDigitChars 10 ['3'] 0 = 3 := by decide
  have e2 : Nat.ofDigitChars 10 ['2'] 0 = 2 := by decide
  have e3 : Nat.ofDigitChars 10 ['1'] 0 = 1 := by decide
  have e4 : Nat.ofDigitChars 10 ['4'] 0 = 4 := by decide
  have h4 : (3 * 2 * 36 - 2 : ZMod 101) = 12 := by decide
  simp [evalProg, evalBody, evalStmt, evalExpr, demoProg, e1, e2, e3, e4, bind, Except.bind, pure, Except.pure, h3, hd, h4]
  decide

/-! ### C69 arbitrary constraint systems -/

/-- C69a (dense): whatever system and inputs: if the calculation succeeds, the witness has the right length and satisfies every
row.  (Partial: the first row that reads a bit must read it with coefficient 1, see `C69_bit_coefficient_refuted`; that the
witness starts with 1 needs known input names, see `C69_unknown_input_refuted`.) -/
theorem C69_dense_partial [Fact q.Prime] {gxI : Int → Int} {gx : ZMod q → ZMod q} (hgx : GxRep gxI gx)
    {r : R1CS (List Int)} {rnd : Int} {inputs : List (Name × Int)} {w : List Int}
    (hrect : Rectangular List.length r.witnessLength r.rows) (hplain : BitsReadPlain q r.split r.rows)
    (h : calculateWitness q gxI r rnd inputs = some w) :
    w.length = r.witnessLength ∧ (∀ row ∈ r.rows, SatD q gx w row) ∧
      ((∀ e ∈ inputs, r.index.get e.1 ≠ 0) → ¬ IsBitPos r.split 0 → w.getD 0 0 = 1) := by
  obtain ⟨h1, h2, s, inv, hI, hk⟩ := calculateWitness_sound hgx hrect hplain h
  refine ⟨h1, h2, fun a b => ?_⟩
  obtain ⟨c, d⟩ := hI.one a b
  rw [hk 0 c, d]

/-- C69b (sparse): the same without the condition on bits, because each row is checked after it was solved. -/
theorem C69_sparse [Fact q.Prime] {gxI : Int → Int} {gx : ZMod q → ZMod q} (hgx : GxRep gxI gx)
    {r : R1CS Tree} {rnd : Int} {inputs : List (Name × Int)} {w : List Int}
    (hok : ∀ row ∈ r.rows, ∀ t ∈ [row.L, row.R, row.E, row.O], Inv t ∧ ∀ i, sparseEntry t i ≠ 0 → i < r.witnessLength)
    (h : calculateSparseWitness q gxI r rnd inputs = some w) :
    w.length = r.witnessLength ∧ (∀ row ∈ r.rows, SatS q gx w row) ∧
      ((∀ e ∈ inputs, r.index.get e.1 ≠ 0) → ¬ IsBitPos r.split 0 → w.getD 0 0 = 1) := by
  obtain ⟨h1, h2, s, inv, hI, hk⟩ := calculateSparseWitness_sound hgx
    (fun row hr => ⟨hok row hr row.L (by simp), hok row hr row.R (by simp), hok row hr row.E (by simp), hok row hr row.O (by simp)⟩) h
  refine ⟨h1, h2, fun a b => ?_⟩
  obtain ⟨c, d⟩ := hI.one a b
  rw [hk 0 c, d]

/-- `y*y = x` and `2*b*1 = z`, where b is the lowest bit of x -/
def bitSystem : R1CS (List Int) :=
  { index := [(oneName, 0), (['y'], 1), (['x'], 2), (['b'], 3), (['z'], 4)]
    split := [(['x'], [3])]
    rows := [⟨[0,1,0,0,0], [0,1,0,0,0], [0,0,0,0,0], [0,0,1,0,0]⟩, ⟨[0,0,0,2,0], [1,0,0,0,0], [0,0,0,0,0], [0,0,0,0,1]⟩] }

/-- C69 is refuted (dense): for y = 1 the calculation returns b = 1, z = 1, which violates `2*b = z`. -/
theorem C69_bit_coefficient_refuted :
    calculateWitness 7 (fun _ => 0) bitSystem 0 [(['y'], 1)] = some [1, 1, 1, 1, 1] ∧
      ∃ row ∈ bitSystem.rows, ¬ SatD 7 (fun _ => 0) [1, 1, 1, 1, 1] row := by
  refine ⟨by decide +kernel, ⟨[0,0,0,2,0], [1,0,0,0,0], [0,0,0,0,0], [0,0,0,0,1]⟩, by simp [bitSystem], ?_⟩
  unfold SatD RowSat dot
  decide +kernel

/-- C69 is refuted: an input whose name is not in the system overwrites the constant wire. -/
theorem C69_unknown_input_refuted :
    calculateWitness 7 (fun _ => 0) { index := [(oneName, 0), (['x'], 1)], split := [], rows := [] } 0 [(['y'], 5)] = some [5, 0] := by
  decide +kernel

/-- the hypotheses of C69a hold for the system in which the bit has coefficient 1 -/
example : Rectangular List.length 5 bitSystem.rows ∧
    calculateWitness 7 (fun _ => 0) { bitSystem with rows := [⟨[0,1,0,0,0], [0,1,0,0,0], [0,0,0,0,0], [0,0,1,0,0]⟩,
      ⟨[0,0,0,1,0], [1,0,0,0,0], [0,0,0,0,0], [0,0,0,0,3]⟩] } 0 [(['y'], 3)] = some [1, 3, 2, 0, 0] := by
  refine ⟨?_, by decide +kernel⟩
  simp [Rectangular, bitSystem]

end APS
