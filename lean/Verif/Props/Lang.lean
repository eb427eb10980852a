import Verif.Proofs.Clean
import Verif.Proofs.Names
import Verif.Props.Witness
import Verif.Proofs.BnOrder

/-!
C84 - C88: programs with functions, loops and arrays.  The source language and its interpreter are in Spec/Lang.lean, the
constraints that the parser hands over in Spec/Emit.lean, the conditions on a run of the compiler in Spec/Run.lean.
-/
namespace APS.Prog
open APS.Circuit hiding execute compile Prog
open APS.LangSpec (Fun Stm Program runMain)
open APS.ParseSpec (Ex)
open APS.Spec hiding Err

variable {H : Name → Nat} {q : Nat}

/-- the result of a program is unique -/
theorem Returns.unique [Fact q.Prime] {gx : ZMod q → ZMod q} {p : Program} {vals : Name → ZMod q} {v v' : ZMod q}
    (h : Returns gx p vals v) (h' : Returns gx p vals v') : v = v' := by
  obtain ⟨k, h⟩ := h
  obtain ⟨k', h'⟩ := h'
  have a := (runMain_le gx p.funs p.main (Nat.le_max_left k k') vals).resolve_left (by rw [h]; simp)
  have b := (runMain_le gx p.funs p.main (Nat.le_max_right k k') vals).resolve_left (by rw [h']; simp)
  rw [← a, h, h'] at b
  cases b; rfl

/-- a program that returns does not stop with an error -/
theorem Returns.not_stops [Fact q.Prime] {gx : ZMod q → ZMod q} {p : Program} {vals : Name → ZMod q} {v : ZMod q} {e : LangSpec.Err}
    (h : Returns gx p vals v) (h' : Stops gx p vals e) : False := by
  obtain ⟨k, h⟩ := h
  obtain ⟨he, k', h'⟩ := h'
  have a := (runMain_le gx p.funs p.main (Nat.le_max_left k k') vals).resolve_left (by rw [h]; simp)
  have b := (runMain_le gx p.funs p.main (Nat.le_max_right k k') vals).resolve_left (by rw [h']; simpa using he)
  rw [← a, h, h'] at b
  cases b

/-! ### C84: the gates force the value of the program -/

/-- C84: whatever values the wires have, if they satisfy all gates of a compiled program with functions, loops and arrays, then
the source program, interpreted on the values of the input wires, returns the value of the returned form - or divides by zero. -/
theorem C84_gates_sound [Fact q.Prime] (hq : 2 ^ 63 ≤ q) {p : Program} (hp : p.ok) {m : Mem} (hm : program p.emit = some m) {n : Nat}
    {f : Factors} {w : W} (hx : execute H q n m = some (f, w)) (hc : CleanRun q w) (hn : NoConfusion w.s) {gx : ZMod q → ZMod q}
    {ν : Name → ZMod q} (hh : ∀ g ∈ w.s.c.gates, GateHolds gx ν g) :
    Returns gx p ν (formVal ν f) ∨ Stops gx p ν .divByZero := by
  rcases exec_sound hq hp hm hx (fin_of_clean hp hx hc) hn hh with ⟨v, rfl, k, h⟩ | ⟨k, h⟩
  · exact Or.inl ⟨k, h k (le_refl k)⟩
  · exact Or.inr ⟨by simp, k, h k (le_refl k)⟩

/-! ### C85: every evaluation satisfies the gates -/

/-- C85: if the source program returns `v` on some inputs, then there are values for the wires that agree with the inputs, satisfy all
gates and give the returned form the value `v`. -/
theorem C85_gates_complete [Fact q.Prime] (hq : 2 ^ 63 ≤ q) {p : Program} (hp : p.ok) {m : Mem} (hm : program p.emit = some m) {n : Nat}
    {f : Factors} {w : W} (hx : execute H q n m = some (f, w)) (hc : CleanRun q w) (hn : NoConfusion w.s) (hs : NoConstSplit w.s)
    {gx : ZMod q → ZMod q} {vals : Name → ZMod q} {v : ZMod q} (hv : Returns gx p vals v) :
    ∃ ν, (∀ x ∈ p.main.names, ν x = vals x) ∧ (∀ g ∈ w.s.c.gates, GateHolds gx ν g) ∧ formVal ν f = v := by
  obtain ⟨k, hv⟩ := hv
  obtain ⟨ν, h1, h2, h3⟩ := exec_models hq hp hm hx (fin_of_clean hp hx hc) hn hs (inputs_fresh hp hx) hv
  exact ⟨ν, h1, h2.holds, h3⟩

/-- the names of a program never clash -/
theorem _root_.APS.Spec.NoClash.run [Fact q.Prime] (hq : 2 ^ 63 ≤ q) {p : Program} (hp : p.ok) {m : Mem} (hm : program p.emit = some m) {n : Nat}
    {f : Factors} {w : W} (hx : execute H q n m = some (f, w)) (hc : CleanRun q w) (hr : NoClash p w.s) {rand : Bool} :
    RunOK p.main.names p.publics rand w.s :=
  (runOK_of hq hp hm hx (fin_of_clean hp hx hc) hr.conf hr.const hr.publics rand).1

theorem _root_.APS.Spec.NoClash.rand [Fact q.Prime] (hq : 2 ^ 63 ≤ q) {p : Program} (hp : p.ok) {m : Mem} (hm : program p.emit = some m) {n : Nat}
    {f : Factors} {w : W} (hx : execute H q n m = some (f, w)) (hc : CleanRun q w) (hr : NoClash p w.s) :
    NoRandName p.main.names p.publics w.s :=
  (runOK_of hq hp hm hx (fin_of_clean hp hx hc) hr.conf hr.const hr.publics true).2

/-! ### C86: the rows -/

/-- C86 (dense): a witness that satisfies all rows of `GatesToR1CS` determines the result of the source program. -/
theorem C86_rows_sound [Fact q.Prime] (hq : 2 ^ 63 ≤ q) {p : Program} (hp : p.ok) {m : Mem} (hm : program p.emit = some m) {n : Nat}
    {f : Factors} {w : W} (hx : execute H q n m = some (f, w)) (hc : CleanRun q w) {rand : Bool} (hr : NoClash p w.s)
    {gx : ZMod q → ZMod q} (hgx : gx 0 = 0) {r : R1CS (List Int)}
    (hR : gatesToR1CS (oneName :: p.publics) p.main.names w.s.c.gates rand = some r) {u : List Int} (hu : u.length = r.witnessLength)
    (h1 : ((u.getD 0 0 : Int) : ZMod q) = 1) (hs : ∀ row ∈ r.rows, SatD q gx u row) :
    Returns gx p (valsOf q r.index u) (formVal (valsOf q r.index u) f) ∨ Stops gx p (valsOf q r.index u) .divByZero :=
  C84_gates_sound hq hp hm hx hc hr.conf
    (((exec_made hq hp hm hx (fin_of_clean hp hx hc)).rows_dense hgx (hr.run hq hp hm hx hc) hR hu h1).mp hs).1

/-- C86 (sparse): the same for `GatesToSparseR1CS`, provided no constant is written like a name with its own position (C31). -/
theorem C86_rows_sound_sparse [Fact q.Prime] (hq : 2 ^ 63 ≤ q) {p : Program} (hp : p.ok) {m : Mem} (hm : program p.emit = some m) {n : Nat}
    {f : Factors} {w : W} (hx : execute H q n m = some (f, w)) (hc : CleanRun q w) {rand : Bool} (hr : NoClash p w.s)
    {gx : ZMod q → ZMod q} (hgx : gx 0 = 0) {r : R1CS Avl.Tree}
    (hR : gatesToSparseR1CS q (oneName :: p.publics) p.main.names w.s.c.gates rand = some r) (hnum : ∀ g ∈ w.s.c.gates, NumsOK r.index g)
    {u : List Int} (hu : u.length = r.witnessLength) (h1 : ((u.getD 0 0 : Int) : ZMod q) = 1) (hs : ∀ row ∈ r.rows, SatS q gx u row) :
    Returns gx p (valsOf q r.index u) (formVal (valsOf q r.index u) f) ∨ Stops gx p (valsOf q r.index u) .divByZero :=
  C84_gates_sound hq hp hm hx hc hr.conf
    (((exec_made hq hp hm hx (fin_of_clean hp hx hc)).rows_sparse hgx (hr.run hq hp hm hx hc) hR hnum hu h1).mp hs).1

/-- C86 (dense): if the source program returns `v`, some witness carries the inputs, satisfies all rows and gives the returned
form the value `v`. -/
theorem C86_rows_complete [Fact q.Prime] (hq : 2 ^ 63 ≤ q) {p : Program} (hp : p.ok) {m : Mem} (hm : program p.emit = some m) {n : Nat}
    {f : Factors} {w : W} (hx : execute H q n m = some (f, w)) (hc : CleanRun q w) {rand : Bool} (hr : NoClash p w.s)
    {gx : ZMod q → ZMod q} (hgx : gx 0 = 0) {r : R1CS (List Int)}
    (hR : gatesToR1CS (oneName :: p.publics) p.main.names w.s.c.gates rand = some r) {vals : Name → ZMod q} {v : ZMod q}
    (hv : Returns gx p vals v) :
    ∃ u : List Int, u.length = r.witnessLength ∧ ((u.getD 0 0 : Int) : ZMod q) = 1 ∧
      (∀ x ∈ p.main.names, ((u.getD (r.index.get x) 0 : Int) : ZMod q) = vals x) ∧
      (∀ row ∈ r.rows, SatD q gx u row) ∧ formVal (valsOf q r.index u) f = v :=
  (exec_made hq hp hm hx (fin_of_clean hp hx hc)).rows_dense_complete hgx (hr.run hq hp hm hx hc) hR (C85_gates_complete hq hp hm hx hc hr.conf hr.const hv)

/-- C86 (sparse). -/
theorem C86_rows_complete_sparse [Fact q.Prime] (hq : 2 ^ 63 ≤ q) {p : Program} (hp : p.ok) {m : Mem} (hm : program p.emit = some m) {n : Nat}
    {f : Factors} {w : W} (hx : execute H q n m = some (f, w)) (hc : CleanRun q w) {rand : Bool} (hr : NoClash p w.s)
    {gx : ZMod q → ZMod q} (hgx : gx 0 = 0) {r : R1CS Avl.Tree}
    (hR : gatesToSparseR1CS q (oneName :: p.publics) p.main.names w.s.c.gates rand = some r) (hnum : ∀ g ∈ w.s.c.gates, NumsOK r.index g)
    {vals : Name → ZMod q} {v : ZMod q} (hv : Returns gx p vals v) :
    ∃ u : List Int, u.length = r.witnessLength ∧ ((u.getD 0 0 : Int) : ZMod q) = 1 ∧
      (∀ x ∈ p.main.names, ((u.getD (r.index.get x) 0 : Int) : ZMod q) = vals x) ∧
      (∀ row ∈ r.rows, SatS q gx u row) ∧ formVal (valsOf q r.index u) f = v :=
  (exec_made hq hp hm hx (fin_of_clean hp hx hc)).rows_sparse_complete hgx (hr.run hq hp hm hx hc) hR hnum (C85_gates_complete hq hp hm hx hc hr.conf hr.const hv)

/-! ### C87, C88: the calculation of the witness -/

/-- C87 (dense): a witness that `CalculateWitness` returns is right. -/
theorem C87_witness_sound [Fact q.Prime] (hq : 2 ^ 63 ≤ q) {p : Program} (hp : p.ok) {m : Mem} (hm : program p.emit = some m) {n : Nat}
    {f : Factors} {w : W} (hx : execute H q n m = some (f, w)) (hc : CleanRun q w) {rand : Bool} (hr : NoClash p w.s)
    {gxI : Int → Int} {gx : ZMod q → ZMod q} (hgx : GxRep gxI gx) (hgx0 : gx 0 = 0)
    {r : R1CS (List Int)} (hR : gatesToR1CS (oneName :: p.publics) p.main.names w.s.c.gates rand = some r) {rnd : Int}
    {inputs : List (Name × Int)} (hin : ∀ e ∈ inputs, e.1 ∈ p.main.names) (hnd : (inputs.map Prod.fst).Nodup) {u : List Int}
    (hu : calculateWitness q gxI r rnd inputs = some u) :
    u.length = r.witnessLength ∧ u.getD 0 0 = 1 ∧ (∀ e ∈ inputs, u.getD (r.index.get e.1) 0 = e.2) ∧
      (rand = true → u.getD (r.index.get randIn) 0 = rnd) ∧ (∀ row ∈ r.rows, SatD q gx u row) ∧
      (Returns gx p (valsOf q r.index u) (formVal (valsOf q r.index u) f) ∨ Stops gx p (valsOf q r.index u) .divByZero) := by
  obtain ⟨hl, a, b, c, hs⟩ := (exec_made hq hp hm hx (fin_of_clean hp hx hc)).witness_dense_sound hgx hgx0 (hr.run hq hp hm hx hc) (hr.rand hq hp hm hx hc) hR hin hnd hu
  exact ⟨hl, a, b, c, hs, C86_rows_sound hq hp hm hx hc hr hgx0 hR hl (by rw [a]; simp) hs⟩

/-- C87 (sparse). -/
theorem C87_witness_sound_sparse [Fact q.Prime] (hq : 2 ^ 63 ≤ q) {p : Program} (hp : p.ok) {m : Mem} (hm : program p.emit = some m) {n : Nat}
    {f : Factors} {w : W} (hx : execute H q n m = some (f, w)) (hc : CleanRun q w) {rand : Bool} (hr : NoClash p w.s)
    {gxI : Int → Int} {gx : ZMod q → ZMod q} (hgx : GxRep gxI gx) (hgx0 : gx 0 = 0)
    {r : R1CS Avl.Tree} (hR : gatesToSparseR1CS q (oneName :: p.publics) p.main.names w.s.c.gates rand = some r)
    (hnum : ∀ g ∈ w.s.c.gates, NumsOK r.index g) {rnd : Int}
    {inputs : List (Name × Int)} (hin : ∀ e ∈ inputs, e.1 ∈ p.main.names) (hnd : (inputs.map Prod.fst).Nodup) {u : List Int}
    (hu : calculateSparseWitness q gxI r rnd inputs = some u) :
    u.length = r.witnessLength ∧ u.getD 0 0 = 1 ∧ (∀ e ∈ inputs, u.getD (r.index.get e.1) 0 = e.2) ∧
      (rand = true → u.getD (r.index.get randIn) 0 = rnd) ∧ (∀ row ∈ r.rows, SatS q gx u row) ∧
      (Returns gx p (valsOf q r.index u) (formVal (valsOf q r.index u) f) ∨ Stops gx p (valsOf q r.index u) .divByZero) := by
  obtain ⟨hl, a, b, c, hs⟩ := (exec_made hq hp hm hx (fin_of_clean hp hx hc)).witness_sparse_sound hgx hgx0 (hr.run hq hp hm hx hc) (hr.rand hq hp hm hx hc) hR hnum hin hnd hu
  exact ⟨hl, a, b, c, hs, C86_rows_sound_sparse hq hp hm hx hc hr hgx0 hR hnum hl (by rw [a]; simp) hs⟩

/-- C88: whenever the source program returns, `CalculateWitness` finds a witness, whatever randomizer is drawn. -/
theorem C88_witness_complete [Fact q.Prime] (hq : 2 ^ 63 ≤ q) {p : Program} (hp : p.ok) {m : Mem} (hm : program p.emit = some m) {n : Nat}
    {f : Factors} {w : W} (hx : execute H q n m = some (f, w)) (hc : CleanRun q w) {rand : Bool} (hr : NoClash p w.s)
    {gxI : Int → Int} {gx : ZMod q → ZMod q} (hgx : GxRep gxI gx) (hgx0 : gx 0 = 0)
    {r : R1CS (List Int)} (hR : gatesToR1CS (oneName :: p.publics) p.main.names w.s.c.gates rand = some r)
    {vals : Name → ZMod q} {v : ZMod q} (hv : Returns gx p vals v) {inputs : List (Name × Int)} (hin : InputsFor p.main.names vals inputs)
    {rnd : Int} (hr0 : 0 ≤ rnd) (hr1 : rnd < q) :
    ∃ u, calculateWitness q gxI r rnd inputs = some u ∧ u.length = r.witnessLength ∧ u.getD 0 0 = 1 ∧
      (∀ e ∈ inputs, u.getD (r.index.get e.1) 0 = e.2) ∧ (∀ row ∈ r.rows, SatD q gx u row) ∧ formVal (valsOf q r.index u) f = v := by
  obtain ⟨k, hv⟩ := hv
  exact (exec_made hq hp hm hx (fin_of_clean hp hx hc)).witness_dense_complete hgx hgx0 (hr.run hq hp hm hx hc) (hr.rand hq hp hm hx hc) hR
    (exec_models hq hp hm hx (fin_of_clean hp hx hc) hr.conf hr.const (inputs_fresh hp hx) hv) hin hr0 hr1

/-- C88 (sparse).  Partial as C70: proved when the output side of every row has at most one entry. -/
theorem C88_witness_complete_sparse_partial [Fact q.Prime] (hq : 2 ^ 63 ≤ q) {p : Program} (hp : p.ok) {m : Mem} (hm : program p.emit = some m)
    {n : Nat} {f : Factors} {w : W} (hx : execute H q n m = some (f, w)) (hc : CleanRun q w) {rand : Bool}
    (hr : NoClash p w.s)
    {gxI : Int → Int} {gx : ZMod q → ZMod q} (hgx : GxRep gxI gx) (hgx0 : gx 0 = 0)
    {r : R1CS Avl.Tree} (hR : gatesToSparseR1CS q (oneName :: p.publics) p.main.names w.s.c.gates rand = some r)
    (hnum : ∀ g ∈ w.s.c.gates, NumsOK r.index g) (hout : ∀ row ∈ r.rows, row.O.ascendingNodes.length ≤ 1)
    {vals : Name → ZMod q} {v : ZMod q} (hv : Returns gx p vals v) {inputs : List (Name × Int)} (hin : InputsFor p.main.names vals inputs)
    {rnd : Int} (hr0 : 0 ≤ rnd) (hr1 : rnd < q) :
    ∃ u, calculateSparseWitness q gxI r rnd inputs = some u ∧ u.length = r.witnessLength ∧ u.getD 0 0 = 1 ∧
      (∀ e ∈ inputs, u.getD (r.index.get e.1) 0 = e.2) ∧ (∀ row ∈ r.rows, SatS q gx u row) ∧ formVal (valsOf q r.index u) f = v := by
  obtain ⟨k, hv⟩ := hv
  exact (exec_made hq hp hm hx (fin_of_clean hp hx hc)).witness_sparse_complete hgx hgx0 (hr.run hq hp hm hx hc) (hr.rand hq hp hm hx hc) hR hnum hout
    (exec_models hq hp hm hx (fin_of_clean hp hx hc) hr.conf hr.const (inputs_fresh hp hx) hv) hin hr0 hr1

/-! ### a program that meets all conditions -/

namespace Demo
open APS.Pairing (Order)

def op (c : Char) : APS.Lex.Token := ⟨.arithmetic, [c]⟩

/-- `func square(a) { return a*a }
func main(x, y[2]) { public{x} var s = 0 var i = 0 for (i < 2; i = i+1) { s = s + square(y[i]) } equal(s, x) return s * y[0] }` -/
def prog : Program where
  before := [⟨"square".toList, [(['a'], [])], [], .bin (op '*') (.var ['a']) (.var ['a'])⟩]
  pubs := [(['x'], [])]
  main := ⟨"main".toList, [(['x'], []), (['y'], [2])],
    [.decl ['s'] (.num ['0']), .decl ['i'] (.num ['0']),
     .loop (.var ['i']) ['<'] (.num ['2']) ['i'] (.bin (op '+') (.var ['i']) (.num ['1']))
       [.assign ['s'] [] (.bin (op '+') (.var ['s']) (.call "square".toList [.arr ['y'] [.var ['i']]]))],
     .call "equal".toList [.var ['s'], .var ['x']]],
    .bin (op '*') (.var ['s']) (.arr ['y'] [.num ['0']])⟩
  after := []

theorem prog_ok : prog.ok := by
  refine ⟨rfl, ?_, ?_, ?_, ?_, ?_⟩
  · decide
  · decide +kernel
  · intro F hF
    simp [prog, Program.funs] at hF
    subst hF
    refine ⟨by decide, by decide +kernel, ?_, ?_⟩ <;>
      simp [LangSpec.okStms, LangSpec.okEx, Fun.top, LangSpec.declared, op]
  · refine ⟨by decide, by decide +kernel, ?_, ?_⟩
    · refine ⟨?_, ?_, ⟨?_, ?_, ?_, ?_, ?_, ?_, ?_, ?_, ?_⟩, ?_, trivial⟩
      · show Spec.IsLit _; decide
      · show Spec.IsLit _; decide
      · show _ ∈ _; decide
      · show Spec.IsLit _; decide
      · decide
      · refine ⟨rfl, by decide, ?_, ?_⟩
        · show _ ∈ _; decide
        · show Spec.IsLit _; decide
      · decide
      · decide
      · intro y hy; simp [LangSpec.declared, Stm.declares] at hy
      · decide
      · refine ⟨⟨by decide, trivial, rfl, by decide, ?_, ⟨⟨by decide, by simp, ?_, trivial⟩, trivial⟩, Or.inr ⟨by decide +kernel, _, List.mem_singleton.mpr rfl, rfl, rfl⟩⟩, trivial⟩
        · show _ ∈ _; decide
        · show _ ∈ _; decide
      · simp only [Stm.ok]
        rw [if_pos (show "equal".toList = LangSpec.kwEqual from rfl)]
        refine ⟨rfl, ?_, ?_, trivial⟩
        · show _ ∈ _; decide
        · show _ ∈ _; decide
    · simp [LangSpec.okEx, LangSpec.okExs, Fun.top, LangSpec.declared, Stm.declares, op, prog, Spec.IsLit]
  · decide +kernel

/-- a run of the compiler over the scalar field of bn256: all conditions of C84 - C88 hold, and the rows can be built -/
theorem prog_run : ∃ m n f w, program prog.emit = some m ∧ execute H0 Order n m = some (f, w) ∧ CleanRun Order w ∧
    NoClash prog w.s ∧ w.s.c.gates.length = 4 ∧
    (gatesToR1CS (oneName :: prog.publics) prog.main.names w.s.c.gates true).isSome = true := by
  have h : (((program prog.emit).bind fun m => (execute H0 Order 20 m).map fun x => (m, x)).map fun x =>
      decide (CleanRun Order x.2.2 ∧ NoClash prog x.2.2.s ∧
        x.2.2.s.c.gates.length = 4 ∧ (gatesToR1CS (oneName :: prog.publics) prog.main.names x.2.2.s.c.gates true).isSome = true)) = some true := by
    decide +kernel
  obtain ⟨⟨m, f, w⟩, h1, h2⟩ := Option.map_eq_some_iff.mp h
  obtain ⟨m', h3, h4⟩ := Option.bind_eq_some_iff.mp h1
  obtain ⟨⟨f', w'⟩, h5, h6⟩ := Option.map_eq_some_iff.mp h4
  cases h6
  simp only [decide_eq_true_eq] at h2
  exact ⟨m, 20, f, w, h3, h5, h2⟩

/-- and it returns something: 3² + 4² = 25, the result is 25 · 3 -/
theorem prog_returns : Returns (q := Order) (fun _ => 0) prog (fun x => if x = ['x'] then 25 else if x = "y[0]".toList then 3 else 4) 75 := by
  have h : (runMain (q := Order) (fun _ => 0) prog.funs prog.main 10 (fun x => if x = ['x'] then 25 else if x = "y[0]".toList then 3 else 4)).toOption
      = some 75 := by decide +kernel
  refine ⟨10, ?_⟩
  revert h
  cases runMain (q := Order) (fun _ => 0) prog.funs prog.main 10 (fun x => if x = ['x'] then 25 else if x = "y[0]".toList then 3 else 4) with
  | ok v => intro h; simpa [Except.toOption] using h
  | error e => intro h; simp [Except.toOption] at h

end Demo
end APS.Prog
