import Verif.Proofs.Check
import Verif.Proofs.Fuel
import Mathlib.Data.Nat.Fib.Basic
import Verif.Props.Accept

/-!
C104: `Parse`, `Execute` and `GatesToR1CS` give one result for a text.
C105: test programs of the repository (testPrograms/codes.go), taken over character by character.  For ALL inputs the constraint rows compiled
from the text fix the result to the value of a formula, and have a witness with these inputs.
-/
namespace APS.Prog
open APS.Circuit hiding execute compile Prog
open APS.Lex (Token stackAllTokens)
open APS.LexSpec (TokenizesTo)
open APS.ParseSpec (Ex)
open APS.LangSpec (Fun Stm Program runMain)
open APS.Pairing (Order)
open APS.Spec hiding Err

/-! ### C104: one result -/

/-- C104: the recursion depth allowed to `Execute` does not matter: all depths that suffice give the same form, gates and heap. -/
theorem C104_execute {H : Name → Nat} {q n k : Nat} {m : Mem} {x y : Factors × W} (h1 : execute H q n m = some x) (h2 : execute H q k m = some y) :
    x = y := execute_det h1 h2

/-- C104: a larger depth never turns a result into a failure. -/
theorem C104_depth {H : Name → Nat} {q n k : Nat} (hnk : n ≤ k) {m : Mem} {x : Factors × W} (h : execute H q n m = some x) : execute H q k m = some x :=
  execute_le hnk m x h

/-- C104: what is compiled from the text of a program is determined by the text: public inputs, parameters, returned form, gates and rows. -/
theorem C104_one_result {H : Name → Nat} {q : Nat} {p : Program} (hw : p.written) {src : List Char} {toks : List Token} (ht : TokenizesTo src toks)
    (hs : p.spelled (stackAllTokens toks)) {rand : Bool} {pubs ins pubs' ins' : List Name} {f f' : Factors} {w w' : W} {r r' : R1CS (List Int)}
    (h : Compiles H q src rand pubs ins f w r) (h' : Compiles H q src rand pubs' ins' f' w' r') :
    pubs = pubs' ∧ ins = ins' ∧ f = f' ∧ w = w' ∧ r = r' := by
  have key : ∀ {pubs ins : List Name} {f : Factors} {w : W} {r : R1CS (List Int)}, Compiles H q src rand pubs ins f w r →
      ∃ m k, program p.emit = some m ∧ execute H q k m = some (f, w) ∧ pubs = oneName :: p.publics := by
    intro pubs ins f w r h
    obtain ⟨⟨toks', rf, n, k, m, h1, h2, h3, h4⟩, -, -⟩ := h
    have : toks' = toks := by
      obtain ⟨a, ha⟩ := h1
      obtain ⟨b, hb⟩ := ht
      have := APS.Lex.RunsTo.det ⟨a, ha⟩ ⟨b, hb⟩
      cases this
      rfl
    subst this
    obtain ⟨n, rfl⟩ : ∃ n', n = n' + 1 := ⟨n - 1, by omega⟩
    rw [parse_spelled hw rf hs (by omega)] at h3
    obtain ⟨m', hm, e⟩ := Option.map_eq_some_iff.mp h3
    cases e
    exact ⟨m, k, hm, h4, rfl⟩
  obtain ⟨m, k, a1, a2, rfl⟩ := key h
  obtain ⟨m', k', b1, b2, rfl⟩ := key h'
  rw [a1] at b1
  cases b1
  cases execute_det a2 b2
  have e1 := h.params
  rw [h'.params] at e1
  cases e1
  have e2 := h.rows
  rw [h'.rows] at e2
  cases e2
  exact ⟨rfl, rfl, rfl, rfl, rfl⟩

/-! ### C105: test programs of the repository -/

/-- The text compiles, and what it compiles to computes `form` for all inputs: every witness of the rows (of the right length, with the constant 1 in
front) fixes the returned form to `form` of its inputs, and all inputs have such a witness.  `gx` is the function of `scalarBaseMultiply`. -/
structure Computes (src : List Char) (form : (Name → ZMod Order) → ZMod Order) : Prop where
  exist : ∀ rand, ∃ pubs ins f w r, Compiles H0 Order src rand pubs ins f w r
  sound : ∀ rand pubs ins f w r, Compiles H0 Order src rand pubs ins f w r → ∀ gx : ZMod Order → ZMod Order, gx 0 = 0 →
    ∀ u : List Int, u.length = r.witnessLength → ((u.getD 0 0 : Int) : ZMod Order) = 1 → (∀ row ∈ r.rows, SatD Order gx u row) →
      formVal (valsOf Order r.index u) f = form (valsOf Order r.index u)
  complete : ∀ rand pubs ins f w r, Compiles H0 Order src rand pubs ins f w r → ∀ gx : ZMod Order → ZMod Order, gx 0 = 0 → ∀ vals : Name → ZMod Order,
    ∃ u : List Int, u.length = r.witnessLength ∧ ((u.getD 0 0 : Int) : ZMod Order) = 1 ∧ (∀ x ∈ ins, ((u.getD (r.index.get x) 0 : Int) : ZMod Order) = vals x) ∧
      (∀ row ∈ r.rows, SatD Order gx u row) ∧ formVal (valsOf Order r.index u) f = form vals

namespace Repo

def op (c : Char) : Token := ⟨.arithmetic, [c]⟩
def v (c : Char) : Ex := .var [c]
def n (s : String) : Ex := .num s.toList
def call (s : String) (es : List Ex) : Ex := .call s.toList es
def add (l r : Ex) : Ex := .bin (op '+') l r
def sub (l r : Ex) : Ex := .bin (op '-') l r
def mul (l r : Ex) : Ex := .bin (op '*') l r

/-- testPrograms/codes.go:52-74 -/
def srcMany : List Char := "\n\tfunc main( x  ,  z ) {\n\t\treturn do(z) + add(x,x)\n\t}\t\t\n\n\tfunc do(x){\n\t\tvar e = x * 5\n\t\tvar b = e * 6\n\t\tvar c = b * 7\n\t\tvar F = c * 1\n\t\tvar d = c * F\n\t\tvar ll = d * mul(d,e)\n\t\treturn ll\n\t}\n\t\n\tfunc add(x ,k){\n\t\tvar z = k * x\n\t\treturn do(x) + mul(x,z)\n\t}\n\n\tfunc mul(a,b){\n\t\treturn a * b\n\t}".toList

/-- the program of `srcMany` -/
def many : Program where
  before := []
  pubs := []
  main := ⟨"main".toList, [(['x'], []), (['z'], [])], [], add (call "do" [v 'z']) (call "add" [v 'x', v 'x'])⟩
  after := [
    ⟨"do".toList, [(['x'], [])],
      [.decl ['e'] (mul (v 'x') (n "5")), .decl ['b'] (mul (v 'e') (n "6")), .decl ['c'] (mul (v 'b') (n "7")), .decl ['F'] (mul (v 'c') (n "1")),
       .decl ['d'] (mul (v 'c') (v 'F')), .decl "ll".toList (mul (v 'd') (call "mul" [v 'd', v 'e']))], .var "ll".toList⟩,
    ⟨"add".toList, [(['x'], []), (['k'], [])], [.decl ['z'] (mul (v 'k') (v 'x'))], add (call "do" [v 'x']) (call "mul" [v 'x', v 'z'])⟩,
    ⟨"mul".toList, [(['a'], []), (['b'], [])], [], mul (v 'a') (v 'b')⟩]

/-- testPrograms/codes.go:289-304 -/
def srcFib : List Char := "\nfunc main(x){\n\treturn (x*fubunaci(8,x))\n}\n\nfunc fubunaci(a,v){\n\tvar dyn[] = {v,v}\n\tvar i = 2\n\tfor (i<a;i=i+1){\n\t\tvar n = dyn[0]+dyn[1]\n\t\tdyn[0] = dyn[1]\n\t\tdyn[1] = n\n\t}\n    return dyn[1]\n}\n".toList

/-- an element of `dyn` -/
def dyn (s : String) : Ex := .arr "dyn".toList [n s]

/-- the program of `srcFib` -/
def fib : Program where
  before := []
  pubs := []
  main := ⟨"main".toList, [(['x'], [])], [], .paren (mul (v 'x') (call "fubunaci" [n "8", v 'x']))⟩
  after := [⟨"fubunaci".toList, [(['a'], []), (['v'], [])],
    [.declArr "dyn".toList [v 'v', v 'v'], .decl ['i'] (n "2"),
     .loop (v 'i') ['<'] (v 'a') ['i'] (add (v 'i') (n "1"))
       [.decl ['n'] (add (dyn "0") (dyn "1")), .assign "dyn".toList [n "0"] (dyn "1"), .assign "dyn".toList [n "1"] (v 'n')]],
    dyn "1"⟩]

/-- testPrograms/codes.go:311-323 -/
def srcCalc : List Char := "\nfunc main(x,y,z){\n\treturn mul(add(mul(x,y),z)-132,z)\n}\n\nfunc mul(a,b){\n    return a*b\n}\nfunc add(a,b){\n\treturn a+b\n\t}\n\n".toList

/-- the program of `srcCalc` -/
def calcP : Program where
  before := []
  pubs := []
  main := ⟨"main".toList, [(['x'], []), (['y'], []), (['z'], [])], [],
    call "mul" [sub (call "add" [call "mul" [v 'x', v 'y'], v 'z']) (n "132"), v 'z']⟩
  after := [⟨"mul".toList, [(['a'], []), (['b'], [])], [], mul (v 'a') (v 'b')⟩, ⟨"add".toList, [(['a'], []), (['b'], [])], [], add (v 'a') (v 'b')⟩]

/-- the text spells the program, in any number of steps -/
def spells (k : Nat) (src : List Char) (p : Program) : Bool :=
  match APS.Lex.tokenize k src with
  | some (.closed toks) => decide (p.spelled (stackAllTokens toks))
  | _ => false

theorem spells_spec {k : Nat} {src : List Char} {p : Program} (h : spells k src p = true) : ∃ toks, TokenizesTo src toks ∧ p.spelled (stackAllTokens toks) := by
  unfold spells at h
  split at h
  · rename_i toks ht
    exact ⟨toks, ⟨k, ht⟩, by simpa using h⟩
  · cases h

/-- the compiler runs on the program, within `k` steps, without clashes of names -/
def runs (k : Nat) (p : Program) : Bool :=
  match (program p.emit).bind fun m => execute H0 Order k m with
  | some x => decide (CleanRun Order x.2 ∧ NoClash p x.2.s)
  | none => false

theorem many_ok : many.ok := LangSpec.program_test_ok (by decide +kernel)
theorem fib_ok : fib.ok := LangSpec.program_test_ok (by decide +kernel)
theorem calc_ok : calcP.ok := LangSpec.program_test_ok (by decide +kernel)
theorem many_written : many.written := LangSpec.program_testW_ok (by decide +kernel)
theorem fib_written : fib.written := LangSpec.program_testW_ok (by decide +kernel)
theorem calc_written : calcP.written := LangSpec.program_testW_ok (by decide +kernel)

theorem many_spells : spells 2000 srcMany many = true := by decide +kernel
theorem fib_spells : spells 2000 srcFib fib = true := by decide +kernel
theorem calc_spells : spells 2000 srcCalc calcP = true := by decide +kernel
theorem many_runs : runs 30 many = true := by decide +kernel
theorem fib_runs : runs 30 fib = true := by decide +kernel
theorem calc_runs : runs 30 calcP = true := by decide +kernel

theorem computes {src : List Char} {p : Program} (hp : p.ok) (hw : p.written) {k n : Nat} (hs : spells k src p = true) (hr : runs n p = true)
    {form : (Name → ZMod Order) → ZMod Order} (hf : ∀ gx vals, Returns gx p vals (form vals)) : Computes src form := by
  have hq : 2 ^ 63 ≤ Order := by decide +kernel
  obtain ⟨toks, ht, hs⟩ := spells_spec hs
  unfold runs at hr
  split at hr
  · rename_i x hx
    obtain ⟨m, hm, hx⟩ := Option.bind_eq_some_iff.mp hx
    obtain ⟨f0, w0⟩ := x
    simp only [decide_eq_true_eq] at hr
    have hex : ∀ rand, ∃ r, Compiles H0 Order src rand (oneName :: p.publics) p.main.names f0 w0 r := by
      intro rand
      obtain ⟨r, hR⟩ := C101_rows_exist hq hp hm hx hr.1 hr.2 rand
      refine ⟨r, ⟨⟨toks, fun _ => none, (stackAllTokens toks).length + 2 + 1, n, m, ht, by omega, ?_, hx⟩,
        execute_inputs hq hp hm hx (fin_of_clean hp hx hr.1), hR⟩⟩
      rw [parse_spelled hw _ hs (by omega), hm]
      rfl
    have same : ∀ rand pubs ins f w r, Compiles H0 Order src rand pubs ins f w r → CleanRun Order w ∧ NoClash p w.s ∧ ins = p.main.names := by
      intro rand pubs ins f w r h
      obtain ⟨r0, h0⟩ := hex rand
      obtain ⟨-, rfl, -, rfl, -⟩ := C104_one_result hw ht hs h h0
      exact ⟨hr.1, hr.2, rfl⟩
    refine ⟨fun rand => ?_, fun rand pubs ins f w r h gx hgx u hu h1 hsat => ?_, fun rand pubs ins f w r h gx hgx vals => ?_⟩
    · obtain ⟨r, h⟩ := hex rand
      exact ⟨_, _, _, _, r, h⟩
    · obtain ⟨hc, hn, -⟩ := same _ _ _ _ _ _ h
      rcases C90_text_sound hq hp hw ht hs h hc hn hgx hu h1 hsat with h2 | h2
      · exact Returns.unique h2 (hf gx _)
      · exact (Returns.not_stops (hf gx _) h2).elim
    · obtain ⟨hc, hn, rfl⟩ := same _ _ _ _ _ _ h
      exact C90_text_complete hq hp hw ht hs h hc hn hgx (hf gx vals)
  · cases hr

theorem calc_returns {q : Nat} [Fact q.Prime] (gx : ZMod q → ZMod q) (vals : Name → ZMod q) :
    Returns gx calcP vals ((vals ['x'] * vals ['y'] + vals ['z'] - 132) * vals ['z']) := by
  refine ⟨10, ?_⟩
  have h : runMain gx calcP.funs calcP.main 10 vals =
      .ok ((vals ['x'] * vals ['y'] + vals ['z'] - ((Nat.ofDigitChars 10 ['1','3','2'] 0 : Nat) : ZMod q)) * vals ['z']) := by rfl
  have e : Nat.ofDigitChars 10 ['1','3','2'] 0 = 132 := by decide
  rw [e] at h
  exact h

/-- the function `do` -/
def doVal {q : Nat} (n : Char → ZMod q) (x : ZMod q) : ZMod q :=
  let e := x * n '5'
  let c := e * n '6' * n '7'
  let d := c * (c * n '1')
  d * (d * e)

theorem many_returns {q : Nat} [Fact q.Prime] (gx : ZMod q → ZMod q) (vals : Name → ZMod q) :
    Returns gx many vals (9724050000 * vals ['z'] ^ 5 + (9724050000 * vals ['x'] ^ 5 + vals ['x'] ^ 3)) := by
  refine ⟨20, ?_⟩
  let n : Char → ZMod q := fun c => ((Nat.ofDigitChars 10 [c] 0 : Nat) : ZMod q)
  have h : runMain gx many.funs many.main 20 vals =
      .ok (doVal n (vals ['z']) + (doVal n (vals ['x']) + vals ['x'] * (vals ['x'] * vals ['x']))) := by rfl
  have e : Nat.ofDigitChars 10 ['5'] 0 = 5 ∧ Nat.ofDigitChars 10 ['6'] 0 = 6 ∧ Nat.ofDigitChars 10 ['7'] 0 = 7 ∧ Nat.ofDigitChars 10 ['1'] 0 = 1 := by decide
  refine h.trans ?_
  simp only [doVal, n, e.1, e.2.1, e.2.2.1, e.2.2.2]
  push_cast
  congr 1
  ring

theorem fib_returns [Fact Order.Prime] (gx : ZMod Order → ZMod Order) (vals : Name → ZMod Order) :
    Returns gx fib vals (21 * vals ['x'] ^ 2) := by
  refine ⟨20, ?_⟩
  have h : ∀ v, runMain gx fib.funs fib.main 20 vals = v → runMain gx fib.funs fib.main 20 vals = .ok
     (let x := vals ['x']; let a := x + x; let b := x + a; let c := a + b; let d := b + c; let e := c + d; let f := d + e; x * f) := by intro v _; with_unfolding_all rfl
  rw [h _ rfl]
  congr 1
  dsimp only
  ring
end Repo

/-- C105: the program in testPrograms/codes.go:311-323 computes (x·y + z - 132)·z, for all inputs. -/
theorem C105_calc : Computes Repo.srcCalc fun v => (v ['x'] * v ['y'] + v ['z'] - 132) * v ['z'] :=
  Repo.computes Repo.calc_ok Repo.calc_written Repo.calc_spells Repo.calc_runs Repo.calc_returns

/-- C105: the program in testPrograms/codes.go:52-74 (functions that call each other) computes 9724050000·(z⁵ + x⁵) + x³, for all inputs. -/
theorem C105_functions : Computes Repo.srcMany fun v => 9724050000 * v ['z'] ^ 5 + (9724050000 * v ['x'] ^ 5 + v ['x'] ^ 3) :=
  Repo.computes Repo.many_ok Repo.many_written Repo.many_spells Repo.many_runs Repo.many_returns

/-- the result that the repository expects of it for (7, 11) -/
theorem C105_functions_expected : (9724050000 * 11 ^ 5 + (9724050000 * 7 ^ 5 + 7 ^ 3) : ZMod Order) = 1729500084900343 := by norm_num

/-- C105: the program in testPrograms/codes.go:289-304 (a loop and an array) computes 21·x², 21 being the eighth Fibonacci number, for all inputs. -/
theorem C105_fibonacci : Computes Repo.srcFib fun v => Nat.fib 8 * v ['x'] ^ 2 := by
  have e : (Nat.fib 8 : ZMod Order) = 21 := by rw [show Nat.fib 8 = 21 from rfl]; norm_num
  simp only [e]
  exact Repo.computes Repo.fib_ok Repo.fib_written Repo.fib_spells Repo.fib_runs Repo.fib_returns

end APS.Prog
