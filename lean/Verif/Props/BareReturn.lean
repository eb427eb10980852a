import Verif.Props.RepoRows

/-!
C108: the value of a function that ends with `return` alone.  The code gives the number 1 with an empty text (Programm.go:276-282); a form with this
number that is stored in a variable and read again is parsed from its text, and the compiler panics.
-/
namespace APS.Prog
open APS.Circuit hiding execute compile Prog
open APS.Lex (Token stackAllTokens)
open APS.Pairing (Order)
open APS.Spec hiding Err

namespace Bare

/-- used on the spot -/
def srcDirect : List Char := "func main(x){\nreturn g(x)*x\n}\nfunc g(a){\nreturn\n}\n".toList
/-- stored alone -/
def srcAlone : List Char := "func main(x){\nvar y = g(x)\nreturn y*x\n}\nfunc g(a){\nreturn\n}\n".toList
/-- stored in a sum -/
def srcSum : List Char := "func main(x){\nvar y = x+g(x)\nreturn y*x\n}\nfunc g(a){\nreturn\n}\n".toList
/-- the same with the number 1 -/
def srcOne : List Char := "func main(x){\nvar y = x+g(x)\nreturn y*x\n}\nfunc g(a){\nreturn 1\n}\n".toList

/-- the program of a text, without imports -/
def mem (src : List Char) : Option (List Name × Mem) :=
  match APS.Lex.tokenize 3000 src with
  | some (.closed toks) => parse H0 Order 600 (fun _ => none) (stackAllTokens toks)
  | _ => none

theorem sum_panics (n : Nat) : ((mem srcSum).bind fun x => execute H0 Order (n + 60) x.2) = none := by
  run_tac do -- left to the kernel
    let g ← Lean.Elab.Tactic.getMainGoal
    let some (_, _, r) := (← g.getType).eq? | throwError "an equation is expected"
    g.assign (← Lean.Meta.mkEqRefl r)

/-- the rows, with and without the randomizer -/
def rows1 : R1CS (List Int) := ⟨[("1".toList, 0), ("x".toList, 1), ("1@randomIn".toList, 2), ("1@randomOut".toList, 3)], [],
  [⟨[0, 0, 1, 0], [0, 0, 1, 0], [0, 0, 1, 0], [0, 0, 0, 1]⟩]⟩
def rows0 : R1CS (List Int) := ⟨[("1".toList, 0), ("x".toList, 1)], [], []⟩

theorem runDirect : compiled H0 Order 3000 600 60 srcDirect = some (["1".toList], ["x".toList], [⟨⟨false, "x".toList⟩, 1⟩], rows1, rows0) := by decide +kernel
theorem runAlone : compiled H0 Order 3000 600 60 srcAlone = some (["1".toList], ["x".toList], [⟨⟨false, "x".toList⟩, 1⟩], rows1, rows0) := by decide +kernel
theorem runOne : (compiled H0 Order 3000 600 60 srcOne).isSome = true := by decide +kernel

theorem compute1 : RowsCompute ["x".toList] [⟨⟨false, "x".toList⟩, 1⟩] rows1 (fun v => v "x".toList) := by
  have i0 : rows1.index.get "x".toList = 1 := by decide +kernel
  refine ⟨fun gx hgx vs hl h1 hs => by simp [formVal, factorVal], fun gx hgx vals => ⟨[1, vals "x".toList, 0, 0], rfl, rfl, ?_, ?_, ?_⟩⟩
  · simp only [nameVal, List.forall_mem_cons, i0, List.getD_cons_succ, List.getD_cons_zero, List.not_mem_nil, IsEmpty.forall_iff, implies_true, and_true]
  · simp [rows1, SatV, dotL, hgx]
  · simp only [formVal, factorVal, nameVal, List.map_cons, List.map_nil, List.sum_cons, List.sum_nil, i0, List.getD_cons_succ, List.getD_cons_zero,
      Bool.false_eq_true, reduceIte, Int.cast_one, one_mul, add_zero]

theorem compute0 : RowsCompute ["x".toList] [⟨⟨false, "x".toList⟩, 1⟩] rows0 (fun v => v "x".toList) := by
  have i0 : rows0.index.get "x".toList = 1 := by decide +kernel
  refine ⟨fun gx hgx vs hl h1 hs => by simp [formVal, factorVal], fun gx hgx vals => ⟨[1, vals "x".toList], rfl, rfl, ?_, ?_, ?_⟩⟩
  · simp only [nameVal, List.forall_mem_cons, i0, List.getD_cons_succ, List.getD_cons_zero, List.not_mem_nil, IsEmpty.forall_iff, implies_true, and_true]
  · simp [rows0]
  · simp only [formVal, factorVal, nameVal, List.map_cons, List.map_nil, List.sum_cons, List.sum_nil, i0, List.getD_cons_succ, List.getD_cons_zero,
      Bool.false_eq_true, reduceIte, Int.cast_one, one_mul, add_zero]

/-- C108, what holds: used on the spot, or stored alone, the value is 1 (`g(x)*x` is x, for all inputs). -/
theorem C108_alone_partial : Computes srcDirect (fun v => v "x".toList) ∧ Computes srcAlone (fun v => v "x".toList) :=
  ⟨computes_text runDirect compute1 compute0, computes_text runAlone compute1 compute0⟩

/-- a text that panics at all larger depths does not compile -/
theorem no_run {src : List Char} {c : Nat} (hm : (mem src).isSome = true) (hp : ∀ n, ((mem src).bind fun x => execute H0 Order (n + c) x.2) = none) {rand : Bool} :
    ¬ ∃ pubs ins f w r, Compiles H0 Order src rand pubs ins f w r := by
  rintro ⟨pubs, ins, f, w, r, ⟨⟨toks, rf, n, k, m, h1, h2, h3, h4⟩, -, -⟩⟩
  obtain ⟨⟨pubs', m'⟩, hm⟩ := Option.isSome_iff_exists.mp hm
  have hp := hp k
  rw [hm] at hp
  unfold mem at hm
  split at hm
  · rename_i toks' ht
    have : toks = toks' := by
      obtain ⟨a, ha⟩ := h1
      have := APS.Lex.RunsTo.det ⟨a, ha⟩ ⟨_, ht⟩
      cases this
      rfl
    subst this
    cases parse_det_files hm h3
    have := execute_le (Nat.le_add_right k c) m _ h4
    simp only [Option.bind_some] at hp
    rw [hp] at this
    cases this
  · cases hm

/-- C108 is FALSE: stored in a sum, `var y = x+g(x)`, the value cannot be read: the text does not compile, whatever depth and imported files, while the same
text with `return 1` does. -/
theorem C108_refuted (rand : Bool) : (¬ ∃ pubs ins f w r, Compiles H0 Order srcSum rand pubs ins f w r) ∧
    ∃ pubs ins f w r, Compiles H0 Order srcOne rand pubs ins f w r := by
  refine ⟨no_run (by decide +kernel) sum_panics, ?_⟩
  obtain ⟨⟨pubs, ins, f, r1, r0⟩, h⟩ := Option.isSome_iff_exists.mp runOne
  obtain ⟨w, hw⟩ := compiled_exists h rand
  exact ⟨_, _, _, _, _, hw⟩

end Bare

/-- C108: the reason, for every modulus: a stored sum of a name and the value of such a call cannot be read. -/
theorem C108_unreadable (q : Nat) (f : Factor) (hf : f.tok.isNum = false) : rereadSum q [f, ⟨⟨true, []⟩, 1⟩] = none ∧ rereadSum q [⟨⟨true, []⟩, 1⟩, f] = none := by
  have h : rereadOne q ⟨⟨true, []⟩, 1⟩ = none := by
    simp [rereadOne, compileNum, Fq.stringToField, parseInt]
  constructor
  · simp [rereadSum, hf, h]
  · simp [rereadSum, hf, h]

end APS.Prog
