import Verif.Props.BareReturn

/-!
C109: names of functions.  The compiler looks for its own functions (BREAK, SPLIT, AND, NAND, OR, NOT, addGateConstraint, scalarBaseMultiply, equal;
Programm.go:350-486) before those of the program; AND, NAND, OR and NOT are not implemented.
-/
namespace APS.Prog
open APS.Circuit hiding execute compile Prog
open APS.Lex (Token stackAllTokens)
open APS.Pairing (Order)
open APS.Spec hiding Err

set_option linter.unusedSimpArgs false

namespace Builtin
open Bare (mem no_run)

/-- a function with the name AND -/
def srcAnd : List Char := "func main(x,y){\nreturn AND(x,y)\n}\nfunc AND(a,b){\nreturn a*b\n}\n".toList
/-- the same function with another name -/
def srcOther : List Char := "func main(x,y){\nreturn and(x,y)\n}\nfunc and(a,b){\nreturn a*b\n}\n".toList
/-- a function with the name equal -/
def srcEqual : List Char := "func main(x,y){\nequal(x,y)\nreturn x\n}\nfunc equal(a,b){\nreturn a*b\n}\n".toList
/-- an operator that the lexer knows -/
def srcOp : List Char := "func main(x,y){\nreturn x && y\n}\n".toList

theorem and_panics (n : Nat) : ((mem srcAnd).bind fun x => execute H0 Order (n + 60) x.2) = none := by
  run_tac do -- left to the kernel
    let g ← Lean.Elab.Tactic.getMainGoal
    let some (_, _, r) := (← g.getType).eq? | throwError "an equation is expected"
    g.assign (← Lean.Meta.mkEqRefl r)

theorem op_panics (n : Nat) : ((mem srcOp).bind fun x => execute H0 Order (n + 60) x.2) = none := by
  run_tac do -- left to the kernel
    let g ← Lean.Elab.Tactic.getMainGoal
    let some (_, _, r) := (← g.getType).eq? | throwError "an equation is expected"
    g.assign (← Lean.Meta.mkEqRefl r)

/-- the rows of `srcOther`, with and without the randomizer -/
def rowsOther1 : R1CS (List Int) := ⟨[("1".toList, 0), ("x".toList, 1), ("y".toList, 2), ("8700191105447653".toList, 3), ("1@randomIn".toList, 4),
  ("1@randomOut".toList, 5)], [], [⟨[0, 1, 0, 0, 0, 0], [0, 0, 1, 0, 0, 0], [0, 0, 0, 0, 0, 0], [0, 0, 0, 1, 0, 0]⟩,
    ⟨[0, 0, 0, 0, 1, 0], [0, 0, 0, 0, 1, 0], [0, 0, 0, 0, 1, 0], [0, 0, 0, 0, 0, 1]⟩]⟩
def rowsOther0 : R1CS (List Int) := ⟨[("1".toList, 0), ("x".toList, 1), ("y".toList, 2), ("8700191105447653".toList, 3)], [],
  [⟨[0, 1, 0, 0], [0, 0, 1, 0], [0, 0, 0, 0], [0, 0, 0, 1]⟩]⟩
def formOther : Factors := [⟨⟨false, "8700191105447653".toList⟩, 1⟩]

theorem runOther : compiled H0 Order 3000 600 60 srcOther = some (["1".toList], ["x".toList, "y".toList], formOther, rowsOther1, rowsOther0) := by decide +kernel

/-- the rows of `srcEqual`, with and without the randomizer -/
def rowsEqual1 : R1CS (List Int) := ⟨[("1".toList, 0), ("x".toList, 1), ("y".toList, 2), ("1@randomIn".toList, 3), ("1@randomOut".toList, 4)], [],
  [⟨[0, 1, 0, 0, 0], [1, 0, 0, 0, 0], [0, 0, 0, 0, 0], [0, 0, 1, 0, 0]⟩, ⟨[0, 0, 0, 1, 0], [0, 0, 0, 1, 0], [0, 0, 0, 1, 0], [0, 0, 0, 0, 1]⟩]⟩
def rowsEqual0 : R1CS (List Int) := ⟨[("1".toList, 0), ("x".toList, 1), ("y".toList, 2)], [], [⟨[0, 1, 0], [1, 0, 0], [0, 0, 0], [0, 0, 1]⟩]⟩

theorem runEqual : compiled H0 Order 3000 600 60 srcEqual = some (["1".toList], ["x".toList, "y".toList], [⟨⟨false, "x".toList⟩, 1⟩], rowsEqual1, rowsEqual0) := by
  decide +kernel

theorem rowsOther1_compute : RowsCompute ["x".toList, "y".toList] formOther rowsOther1 (fun v => v "x".toList * v "y".toList) := by
  have i0 : rowsOther1.index.get "x".toList = 1 := by decide +kernel
  have i1 : rowsOther1.index.get "y".toList = 2 := by decide +kernel
  have i2 : rowsOther1.index.get "8700191105447653".toList = 3 := by decide +kernel
  have hf : ∀ vs : List (ZMod Order), formVal (nameVal rowsOther1 vs) formOther = vs.getD 3 0 := by
    intro vs
    simp only [formOther, formVal, factorVal, List.map_cons, List.map_nil, List.sum_cons, List.sum_nil, add_zero, nameVal, i2, reduceIte, Bool.false_eq_true,
      Int.cast_one, one_mul]
  constructor
  · intro gx hgx vs hl h1 hs
    rw [hf]
    match vs, hl with
    | [u0, u1, u2, u3, u4, u5], _ =>
      obtain rfl : u0 = 1 := h1
      simp only [rowsOther1, SatV, List.forall_mem_cons, List.not_mem_nil, List.map_cons, List.map_nil, dotL, hgx, reduceIte, add_zero, zero_add, one_ne_zero, mul_zero, zero_mul, IsEmpty.forall_iff, implies_true, and_true, Int.cast_one] at hs
      simp only [nameVal, i0, i1, List.getD_cons_succ, List.getD_cons_zero]
      exact hs.1.symm
  · intro gx hgx vals
    refine ⟨[1, vals "x".toList, vals "y".toList, vals "x".toList * vals "y".toList, 0, 0], rfl, rfl, ?_, ?_, ?_⟩
    · simp only [nameVal, List.forall_mem_cons, i0, i1, List.getD_cons_succ, List.getD_cons_zero, List.not_mem_nil, IsEmpty.forall_iff, implies_true, and_true]
    · simp only [rowsOther1, SatV, List.forall_mem_cons, List.not_mem_nil, List.map_cons, List.map_nil, dotL, hgx, reduceIte, add_zero, zero_add, one_ne_zero, mul_zero, zero_mul, IsEmpty.forall_iff, implies_true, and_true, Int.cast_one, true_and]
    · rw [hf]
      rfl

theorem rowsOther0_compute : RowsCompute ["x".toList, "y".toList] formOther rowsOther0 (fun v => v "x".toList * v "y".toList) := by
  have i0 : rowsOther0.index.get "x".toList = 1 := by decide +kernel
  have i1 : rowsOther0.index.get "y".toList = 2 := by decide +kernel
  have i2 : rowsOther0.index.get "8700191105447653".toList = 3 := by decide +kernel
  have hf : ∀ vs : List (ZMod Order), formVal (nameVal rowsOther0 vs) formOther = vs.getD 3 0 := by
    intro vs
    simp only [formOther, formVal, factorVal, List.map_cons, List.map_nil, List.sum_cons, List.sum_nil, add_zero, nameVal, i2, reduceIte, Bool.false_eq_true,
      Int.cast_one, one_mul]
  constructor
  · intro gx hgx vs hl h1 hs
    rw [hf]
    match vs, hl with
    | [u0, u1, u2, u3], _ =>
      obtain rfl : u0 = 1 := h1
      simp only [rowsOther0, SatV, List.forall_mem_cons, List.not_mem_nil, List.map_cons, List.map_nil, dotL, hgx, reduceIte, add_zero, zero_add, one_ne_zero, mul_zero, zero_mul, IsEmpty.forall_iff, implies_true, and_true, Int.cast_one] at hs
      simp only [nameVal, i0, i1, List.getD_cons_succ, List.getD_cons_zero]
      exact hs.symm
  · intro gx hgx vals
    refine ⟨[1, vals "x".toList, vals "y".toList, vals "x".toList * vals "y".toList], rfl, rfl, ?_, ?_, ?_⟩
    · simp only [nameVal, List.forall_mem_cons, i0, i1, List.getD_cons_succ, List.getD_cons_zero, List.not_mem_nil, IsEmpty.forall_iff, implies_true, and_true]
    · simp only [rowsOther0, SatV, List.forall_mem_cons, List.not_mem_nil, List.map_cons, List.map_nil, dotL, hgx, reduceIte, add_zero, zero_add, one_ne_zero, mul_zero, zero_mul, IsEmpty.forall_iff, implies_true, and_true, Int.cast_one, true_and]
    · rw [hf]
      rfl

theorem rowsEqual1_check : RowsCheck ["x".toList, "y".toList] rowsEqual1 (fun _ v => v "x".toList = v "y".toList) := by
  have i0 : rowsEqual1.index.get "x".toList = 1 := by decide +kernel
  have i1 : rowsEqual1.index.get "y".toList = 2 := by decide +kernel
  constructor
  · intro gx hgx vs hl h1 hs
    match vs, hl with
    | [u0, u1, u2, u3, u4], _ =>
      obtain rfl : u0 = 1 := h1
      simp only [rowsEqual1, SatV, List.forall_mem_cons, List.not_mem_nil, List.map_cons, List.map_nil, dotL, hgx, reduceIte, add_zero, zero_add, one_ne_zero, mul_zero, zero_mul, IsEmpty.forall_iff, implies_true, and_true, Int.cast_one, mul_one] at hs
      simp only [nameVal, i0, i1, List.getD_cons_succ, List.getD_cons_zero]
      exact hs.1
  · intro gx hgx vals hrel
    refine ⟨[1, vals "x".toList, vals "y".toList, 0, 0], rfl, rfl, ?_, ?_⟩
    · simp only [nameVal, List.forall_mem_cons, i0, i1, List.getD_cons_succ, List.getD_cons_zero, List.not_mem_nil, IsEmpty.forall_iff, implies_true, and_true]
    · simp only [rowsEqual1, SatV, List.forall_mem_cons, List.not_mem_nil, List.map_cons, List.map_nil, dotL, hgx, reduceIte, add_zero, zero_add, one_ne_zero, mul_zero, zero_mul, IsEmpty.forall_iff, implies_true, and_true, Int.cast_one, mul_one, hrel, true_and]

theorem rowsEqual0_check : RowsCheck ["x".toList, "y".toList] rowsEqual0 (fun _ v => v "x".toList = v "y".toList) := by
  have i0 : rowsEqual0.index.get "x".toList = 1 := by decide +kernel
  have i1 : rowsEqual0.index.get "y".toList = 2 := by decide +kernel
  constructor
  · intro gx hgx vs hl h1 hs
    match vs, hl with
    | [u0, u1, u2], _ =>
      obtain rfl : u0 = 1 := h1
      simp only [rowsEqual0, SatV, List.forall_mem_cons, List.not_mem_nil, List.map_cons, List.map_nil, dotL, hgx, reduceIte, add_zero, zero_add, one_ne_zero, mul_zero, zero_mul, IsEmpty.forall_iff, implies_true, and_true, Int.cast_one, mul_one] at hs
      simp only [nameVal, i0, i1, List.getD_cons_succ, List.getD_cons_zero]
      exact hs
  · intro gx hgx vals hrel
    refine ⟨[1, vals "x".toList, vals "y".toList], rfl, rfl, ?_, ?_⟩
    · simp only [nameVal, List.forall_mem_cons, i0, i1, List.getD_cons_succ, List.getD_cons_zero, List.not_mem_nil, IsEmpty.forall_iff, implies_true, and_true]
    · simp only [rowsEqual0, SatV, List.forall_mem_cons, List.not_mem_nil, List.map_cons, List.map_nil, dotL, hgx, reduceIte, add_zero, zero_add, one_ne_zero, mul_zero, zero_mul, IsEmpty.forall_iff, implies_true, and_true, Int.cast_one, mul_one, hrel, true_and]

/-- C109 is FALSE: a program that declares and calls a function AND does not compile; with the name `and` it computes the product, for all inputs. -/
theorem C109_and_refuted : (∀ rand, ¬ ∃ pubs ins f w r, Compiles H0 Order srcAnd rand pubs ins f w r) ∧
    Computes srcOther (fun v => v "x".toList * v "y".toList) :=
  ⟨fun _ => no_run (by decide +kernel) and_panics, computes_text runOther rowsOther1_compute rowsOther0_compute⟩

/-- C109 is FALSE: a program that declares a function `equal` as a product and calls it gets a constraint instead: its rows can be satisfied exactly when the
arguments are equal. -/
theorem C109_equal_refuted : Checks srcEqual (fun _ v => v "x".toList = v "y".toList) := checks_text runEqual rowsEqual1_check rowsEqual0_check

/-- C109: the Boolean operators, which the lexer reads, are not compiled either. -/
theorem C109_operator_refuted : ∀ rand, ¬ ∃ pubs ins f w r, Compiles H0 Order srcOp rand pubs ins f w r := fun _ => no_run (by decide +kernel) op_panics

end Builtin

/-- C109: AND, NAND, OR and NOT panic in every program, whatever their arguments, the functions declared and the state of the compiler. -/
theorem C109_boolean_panics (H : Name → Nat) (q n cur : Nat) (args : List APS.Parse.Constraint) (w : W) {f : Name}
    (hf : f ∈ ["AND", "NAND", "OR", "NOT"].map String.toList) : compile H q n cur (node .functionCall f args) w = none := by
  cases n with
  | zero => rfl
  | succ n =>
    have key : callFunction H q (compile H q n) cur f args w = none := by
      unfold callFunction
      have h1 : f ≠ "BREAK".toList := by rintro rfl; exact absurd hf (by decide +kernel)
      have h2 : f ≠ "SPLIT".toList := by rintro rfl; exact absurd hf (by decide +kernel)
      rw [if_neg h1, if_neg h2, if_pos]
      simpa using hf
    exact key

end APS.Prog
