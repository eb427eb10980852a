import Verif.Proofs.HeapCalm
import Verif.Props.Text

/-!
C39: numbers are shared, subtraction negates in place.  Model/Heap.lean follows the pointers.  These theorems say when that is not
visible - then everything proved about the model with values (C84-C90 and the others about `execute`) is true of the program with
pointers - and that it is visible in general.
-/
namespace APS.Alias
open APS.Circuit hiding execute compile Prog
open APS.Prog
open APS.Parse (Constraint)
open APS.Lex (Token stackAllTokens)
open APS.LexSpec (TokenizesTo)
open APS.LangSpec (Fun Stm Program)
open APS.ParseSpec (Ex)
open APS.Spec hiding Err

variable {H : Name → Nat} {q : Nat}

/-! ### runs that damage nothing -/

/-- C39: if no subtraction negated a constant variable or `bigOne`, the execution with pointers did what an execution with values
does, and no number that existed before it has changed - in particular the package variables, so the next program starts intact. -/
theorem C39_clean {cs : List Constraint} {m : Mem} (hm : program cs = some m) {cells : Cells} (h0 : cells0 <+: cells) {n : Nat} {f : Factors} {w : HW}
    (h : hExecute H q n m cells = some (f, w)) (hc : w.clean = true) :
    Prog.execute H q n m = some (rdFs w.cells f, w.rd) ∧ cells <+: w.cells :=
  execute_sim (none_program hm) h0 h hc

/-- C39: a program that subtracts only what it computes on the spot damages nothing, whatever it consists of. -/
theorem C39_calm {p : Program} (hp : p.calm = true) {m : Mem} (hm : program p.emit = some m) {cells : Cells} (h0 : cells0 <+: cells) {n : Nat}
    {f : Factors} {w : HW} (h : hExecute H q n m cells = some (f, w)) (hf : w.full = true) :
    Prog.execute H q n m = some (rdFs w.cells f, w.rd) ∧ cells <+: w.cells :=
  C39_clean hm h0 h (execute_tidy (none_program hm) (smem_program (safe_program hp) hm) h0 h hf)

/-- C39: two such programs one after the other in the same process: the second one runs as if it was the first. -/
theorem C39_calm_next {p p' : Program} (hp : p.calm = true) (hp' : p'.calm = true) {m m' : Mem} (hm : program p.emit = some m)
    (hm' : program p'.emit = some m') {n n' : Nat} {f f' : Factors} {w w' : HW} (h : hExecute H q n m = some (f, w))
    (h' : hExecute H q n' m' w.cells = some (f', w')) (hf : w.full = true) (hf' : w'.full = true) :
    Prog.execute H q n' m' = some (rdFs w'.cells f', w'.rd) :=
  (C39_calm hp' hm' (C39_calm hp hm List.prefix_rfl h hf).2 h' hf').1

/-! ### from the text to the rows, with pointers -/

/-- The results of compiling a text in a process with these package variables: `Parse`, `Execute`, the parameters of `main`, and
`GatesToR1CS` on the gates as they are at the end. -/
structure Compiled (H : Name → Nat) (q : Nat) (cells : Cells) (src : List Char) (rand : Bool) (pubs ins : List Name) (f : Factors) (w : HW)
    (r : R1CS (List Int)) : Prop where
  steps : ∃ toks rf n k m, TokenizesTo src toks ∧ (stackAllTokens toks).length + 1 < n ∧ parse H q n rf (stackAllTokens toks) = some (pubs, m) ∧
    hExecute H q k m cells = some (f, w)
  params : mainInputs w.m = some ins
  rows : gatesToR1CS pubs ins (rdSt w.cells w.s).c.gates rand = some r

theorem mainInputs_rd {w : HW} : mainInputs w.rd.m = mainInputs w.m := by
  simp only [mainInputs, HW.rd, ownFunction_rd, rdMem_objs]
  cases w.m.ownFunction 0 "main".toList with
  | none => rfl
  | some a =>
    simp only [Option.bind_eq_bind, Option.bind_some]
    cases w.m.objs[a]? with
    | none => rfl
    | some o =>
      simp only [Option.map_some, Option.bind_some, Option.pure_def, Option.some.injEq, rdObj]
      split <;> rfl

/-- C39, C90: if a calm program is spelled by the text, its compilation with pointers is one with values. -/
theorem C39_compiles {p : Program} (hw : p.written) (hcalm : p.calm = true) {src : List Char} {toks : List Token} (ht : TokenizesTo src toks)
    (hs : p.spelled (stackAllTokens toks)) {cells : Cells} (h0 : cells0 <+: cells) {rand : Bool} {pubs ins : List Name} {f : Factors} {w : HW}
    {r : R1CS (List Int)} (h : Compiled H q cells src rand pubs ins f w r) (hf : w.full = true) :
    Compiles H q src rand pubs ins (rdFs w.cells f) w.rd r ∧ cells <+: w.cells := by
  obtain ⟨⟨toks', rf, n, k, m, h1, h2, h3, h4⟩, h5, h6⟩ := h
  have : toks' = toks := by
    obtain ⟨a, ha⟩ := h1
    obtain ⟨b, hb⟩ := ht
    have := APS.Lex.RunsTo.det ⟨a, ha⟩ ⟨b, hb⟩
    cases this
    rfl
  subst this
  have hp : program p.emit = some m := by
    obtain ⟨n, rfl⟩ : ∃ n', n = n' + 1 := ⟨n - 1, by omega⟩
    rw [parse_spelled hw rf hs (by omega)] at h3
    obtain ⟨m', hm, e⟩ := Option.map_eq_some_iff.mp h3
    cases e
    exact hm
  obtain ⟨a1, a2⟩ := C39_calm hcalm hp h0 h4 hf
  exact ⟨⟨⟨toks', rf, n, k, m, h1, h2, h3, a1⟩, mainInputs_rd.trans h5, h6⟩, a2⟩

/-- C90 (soundness) with pointers: a witness for the rows compiled from the text of a calm program fixes the result of the program. -/
theorem C39_text_sound [Fact q.Prime] (hq : 2 ^ 63 ≤ q) {p : Program} (hp : p.ok) (hw : p.written) (hcalm : p.calm = true) {src : List Char}
    {toks : List Token} (ht : TokenizesTo src toks) (hs : p.spelled (stackAllTokens toks)) {cells : Cells} (h0 : cells0 <+: cells) {rand : Bool}
    {pubs ins : List Name} {f : Factors} {w : HW} {r : R1CS (List Int)} (h : Compiled H q cells src rand pubs ins f w r) (hf : w.full = true)
    (hc : CleanRun q w.rd) (hr : NoClash p w.rd.s) {gx : ZMod q → ZMod q} (hgx : gx 0 = 0)
    {u : List Int} (hu : u.length = r.witnessLength) (h1 : ((u.getD 0 0 : Int) : ZMod q) = 1) (hsat : ∀ row ∈ r.rows, SatD q gx u row) :
    Returns gx p (valsOf q r.index u) (formVal (valsOf q r.index u) (rdFs w.cells f)) ∨ Stops gx p (valsOf q r.index u) .divByZero :=
  C90_text_sound hq hp hw ht hs (C39_compiles hw hcalm ht hs h0 h hf).1 hc hr hgx hu h1 hsat

/-- C90 (completeness) with pointers. -/
theorem C39_text_complete [Fact q.Prime] (hq : 2 ^ 63 ≤ q) {p : Program} (hp : p.ok) (hw : p.written) (hcalm : p.calm = true) {src : List Char}
    {toks : List Token} (ht : TokenizesTo src toks) (hs : p.spelled (stackAllTokens toks)) {cells : Cells} (h0 : cells0 <+: cells) {rand : Bool}
    {pubs ins : List Name} {f : Factors} {w : HW} {r : R1CS (List Int)} (h : Compiled H q cells src rand pubs ins f w r) (hf : w.full = true)
    (hc : CleanRun q w.rd) (hr : NoClash p w.rd.s) {gx : ZMod q → ZMod q} (hgx : gx 0 = 0)
    {vals : Name → ZMod q} {v : ZMod q} (hv : Returns gx p vals v) :
    ∃ u : List Int, u.length = r.witnessLength ∧ ((u.getD 0 0 : Int) : ZMod q) = 1 ∧
      (∀ x ∈ p.main.names, ((u.getD (r.index.get x) 0 : Int) : ZMod q) = vals x) ∧
      (∀ row ∈ r.rows, SatD q gx u row) ∧ formVal (valsOf q r.index u) (rdFs w.cells f) = v :=
  C90_text_complete hq hp hw ht hs (C39_compiles hw hcalm ht hs h0 h hf).1 hc hr hgx hv

/-! ### the damage -/

namespace Demo
open APS.Pairing (Order)

/-- an operator -/
def op (c : Char) : Token := ⟨.arithmetic, [c]⟩

/-- `func main(x) { var c = 0  c = 5  return (x - c) - c }` -/
def twice : Program :=
  ⟨[], [], ⟨"main".toList, [(['x'], [])], [.decl ['c'] (.num ['0']), .assign ['c'] [] (.num ['5'])],
    .bin (op '-') (.paren (.bin (op '-') (.var ['x']) (.var ['c']))) (.var ['c'])⟩, []⟩

/-- the same with `(x - c*1) - c*1` -/
def twice' : Program :=
  ⟨[], [], ⟨"main".toList, [(['x'], [])], [.decl ['c'] (.num ['0']), .assign ['c'] [] (.num ['5'])],
    .bin (op '-') (.paren (.bin (op '-') (.var ['x']) (.paren (.bin (op '*') (.var ['c']) (.num ['1'])))))
      (.paren (.bin (op '*') (.var ['c']) (.num ['1'])))⟩, []⟩

/-- `func main(x) { return x - scalarBaseMultiply(x) }` -/
def base : Program :=
  ⟨[], [], ⟨"main".toList, [(['x'], [])], [], .bin (op '-') (.var ['x']) (.call "scalarBaseMultiply".toList [.var ['x']])⟩, []⟩

theorem twice_ok : twice.ok := by
  refine ⟨rfl, by decide, by decide, by simp [twice, Program.funs], ?_, by decide⟩
  refine ⟨by decide, by decide +kernel, ?_, ?_⟩
  · refine ⟨?_, ⟨?_, trivial, ?_⟩, trivial⟩
    · show Spec.IsLit _; decide
    · decide
    · show Spec.IsLit _; decide
  · simp [LangSpec.okEx, Fun.top, LangSpec.declared, Stm.declares, op, twice]

theorem twice'_calm : twice'.calm = true := by decide

/-- what a program does in a fresh process: the form it returns, read at the end, `bigOne` at the end, the number of gates, the ghosts -/
def outcome (p : Program) : Option (Factors × Int × Nat × Bool × Bool) :=
  (program p.emit).bind fun m => (hExecute H0 Order 30 m).map fun x =>
    (rdFs x.2.cells x.1, val x.2.cells bigOne, x.2.s.c.gates.length, x.2.clean, x.2.full)

theorem outcome_run {p : Program} {l : Factors} {b : Int} {g : Nat} {c u : Bool} (h : outcome p = some (l, b, g, c, u)) :
    ∃ m f w, program p.emit = some m ∧ hExecute H0 Order 30 m = some (f, w) ∧ rdFs w.cells f = l ∧ val w.cells bigOne = b ∧
      w.s.c.gates.length = g ∧ w.clean = c ∧ w.full = u := by
  simp only [outcome, Option.bind_eq_some_iff, Option.map_eq_some_iff, Prod.exists, Prod.mk.injEq] at h
  obtain ⟨m, h1, f, w, h2, h3⟩ := h
  exact ⟨m, f, w, h1, h2, h3⟩

theorem twice_outcome : outcome twice = some ([argF ['x'] 1, numF 10], 1, 1, false, true) := by decide +kernel
theorem twice'_outcome : outcome twice' = some ([argF ['x'] 1, numF (Order - 10)], 1, 1, true, true) := by decide +kernel
theorem base_outcome : (outcome base).map (fun x => (x.2.1, x.2.2.2)) = some (-1, false, true) := by decide +kernel

/-- the source program: `x - 10` -/
theorem twice_returns [Fact q.Prime] (gx : ZMod q → ZMod q) (vals : Name → ZMod q) : Returns gx twice vals (vals ['x'] - 10) := by
  refine ⟨10, ?_⟩
  have h : LangSpec.runMain gx [] twice.main 10 vals =
      .ok (vals ['x'] - ((Nat.ofDigitChars 10 ['5'] 0 : Nat) : ZMod q) - ((Nat.ofDigitChars 10 ['5'] 0 : Nat) : ZMod q)) := rfl
  have e : Nat.ofDigitChars 10 ['5'] 0 = 5 := by decide
  rw [e] at h
  refine h.trans ?_
  push_cast
  congr 1
  ring

end Demo

open APS.Pairing (Order) in
/-- C39 is false in general: the well-formed program `var c = 0  c = 5  return (x - c) - c` returns `x + 10` for every `x`, although
its result is `x - 10`.  (Its gates say nothing about it.) -/
theorem C39_refuted : ∃ (p : Program) (m : Mem) (f : Factors) (w : HW), p.ok ∧ program p.emit = some m ∧ hExecute H0 Order 30 m = some (f, w) ∧
    ∀ ν : Name → ZMod Order, formVal ν (rdFs w.cells f) = ν ['x'] + 10 ∧ Returns (fun _ => 0) p ν (ν ['x'] - 10) := by
  obtain ⟨m, f, w, h1, h2, h3, -⟩ := Demo.outcome_run Demo.twice_outcome
  refine ⟨Demo.twice, m, f, w, Demo.twice_ok, h1, h2, fun ν => ⟨?_, Demo.twice_returns _ ν⟩⟩
  rw [h3]
  simp [formVal, factorVal, argF, numF]

open APS.Pairing (Order) in
/-- C39 is false in general: `return x - scalarBaseMultiply(x)` leaves the package variable `bigOne` at -1, for all programs that the
process compiles afterwards. -/
theorem C39_refuted_package : ∃ (p : Program) (m : Mem) (f : Factors) (w : HW), program p.emit = some m ∧ hExecute H0 Order 30 m = some (f, w) ∧
    val w.cells bigOne = -1 := by
  have h := Demo.base_outcome
  simp only [Option.map_eq_some_iff, Prod.exists, Prod.mk.injEq] at h
  obtain ⟨l, b, g, c, u, h, rfl, -⟩ := h
  obtain ⟨m, f, w, h1, h2, -, h4, -⟩ := Demo.outcome_run h
  exact ⟨Demo.base, m, f, w, h1, h2, h4⟩

open APS.Pairing (Order) in
/-- the remedy: with `c*1` in place of `c` the same program is calm, and returns `x - 10` -/
theorem C39_remedy : Demo.twice'.calm = true ∧ ∃ (m : Mem) (f : Factors) (w : HW), program Demo.twice'.emit = some m ∧
    hExecute H0 Order 30 m = some (f, w) ∧ w.full = true ∧ ∀ ν : Name → ZMod Order, formVal ν (rdFs w.cells f) = ν ['x'] - 10 := by
  obtain ⟨m, f, w, h1, h2, h3, h4, h5, h6, h7⟩ := Demo.outcome_run Demo.twice'_outcome
  refine ⟨Demo.twice'_calm, m, f, w, h1, h2, h7, fun ν => ?_⟩
  rw [h3]
  simp [formVal, factorVal, argF, numF, sub_eq_add_neg]

/-! ### the program of Props/Text.lean -/

open APS.Pairing (Order) in
open APS.Prog.Demo (prog src src_tokens prog_written) in
/-- the text of Props/Text.lean is calm and compiles with pointers over the scalar field of bn256, with all conditions above -/
theorem src_compiled : prog.calm = true ∧ ∃ pubs ins f w r, Compiled H0 Order cells0 src true pubs ins f w r ∧ w.full = true ∧ CleanRun Order w.rd ∧
    NoClash prog w.rd.s := by
  refine ⟨by decide, ?_⟩
  have h : (((program prog.emit).bind fun m => (hExecute H0 Order 20 m).map fun x => (m, x)).map fun x =>
      decide (x.2.2.full = true ∧ CleanRun Order x.2.2.rd ∧ NoClash prog x.2.2.rd.s ∧ mainInputs x.2.2.m = some prog.main.names ∧
        (gatesToR1CS (oneName :: prog.publics) prog.main.names (rdSt x.2.2.cells x.2.2.s).c.gates true).isSome = true)) = some true := by
    decide +kernel
  obtain ⟨⟨m, f, w⟩, h1, h2⟩ := Option.map_eq_some_iff.mp h
  obtain ⟨m', h3, h4⟩ := Option.bind_eq_some_iff.mp h1
  obtain ⟨⟨f', w'⟩, h5, h6⟩ := Option.map_eq_some_iff.mp h4
  cases h6
  simp only [decide_eq_true_eq] at h2
  obtain ⟨a1, a2, a3, a4, a5⟩ := h2
  obtain ⟨toks, t1, t2⟩ := src_tokens
  obtain ⟨r, hr⟩ := Option.isSome_iff_exists.mp a5
  refine ⟨_, _, f, w, r, ⟨⟨toks, fun _ => none, (stackAllTokens toks).length + 2 + 1, 20, m, t1, by omega, ?_, h5⟩, a4, hr⟩, a1, a2, a3⟩
  rw [parse_spelled prog_written _ t2 (by omega), h3]
  rfl

end APS.Alias
