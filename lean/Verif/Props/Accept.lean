import Verif.Proofs.RowsTotal
import Verif.Proofs.BuildAll
import Verif.Props.Branch

/-!
C100, C101: what the compiler accepts.  A written program (Spec/Write.lean) that meets the conditions of Spec/Emit.lean and in which a name
without an index is never an array (Spec/Plain.lean) is parsed without a panic; and when `Execute` returned, `GatesToR1CS` and
`GatesToSparseR1CS` return as well.
-/
namespace APS.Prog
open APS.Circuit hiding execute compile Prog
open APS.Lex (Token stackAllTokens)
open APS.LexSpec (TokenizesTo)
open APS.LangSpec (Fun Stm Program Readable)
open APS.Spec hiding Err

variable {H : Name → Nat} {q : Nat}

/-! ### C100: the parser accepts -/

/-- C100: `Parse` accepts every text that spells such a program, of any size and nesting, and hands over the public inputs. -/
theorem C100_accepted {p : Program} (hp : p.ok) (hw : p.written) (hpl : p.plain = true) {src : List Char} {toks : List Token}
    (_ht : TokenizesTo src toks) (hs : p.spelled (stackAllTokens toks)) (rf : List Char → Option (List Token)) {n : Nat}
    (hn : (stackAllTokens toks).length + 1 < n) :
    ∃ m, parse H q n rf (stackAllTokens toks) = some (oneName :: p.publics, m) := by
  obtain ⟨m, hm⟩ := program_total hp hpl
  obtain ⟨n, rfl⟩ : ∃ n', n = n' + 1 := ⟨n - 1, by omega⟩
  exact ⟨m, by rw [parse_spelled hw rf hs (by omega), hm]; rfl⟩

/-- C100: such a program has a text, and every text with these tokens is accepted. -/
theorem C100_text_accepted {p : Program} (hp : p.ok) (hw : p.written) (hpl : p.plain = true) (hr : ∀ t ∈ p.tokens, Readable t)
    (rf : List Char → Option (List Token)) :
    ∃ src, ∃! toks, TokenizesTo src toks ∧ ∀ n, p.write.length + 1 < n → ∃ m, parse H q n rf (stackAllTokens toks) = some (oneName :: p.publics, m) := by
  obtain ⟨⟨ts, h1, h2⟩, h3, h4⟩ := C89_text hw hr
  exact ⟨p.text, p.tokens, ⟨h3, fun n hn => C100_accepted hp hw hpl h3 (h4 ▸ p.spelled_write) rf (by rw [h4]; exact hn)⟩, fun t ht => (h2 t ht.1).trans (h2 _ h3).symm⟩

/-! ### C101: the rows exist -/

/-- C101 (dense): after `Execute` returned, `GatesToR1CS` returns for the publics and parameters of the program. -/
theorem C101_rows_exist [Fact q.Prime] (hq : 2 ^ 63 ≤ q) {p : Program} (hp : p.ok) {m : Mem} (hm : program p.emit = some m) {n : Nat}
    {f : Factors} {w : W} (hx : execute H q n m = some (f, w)) (hc : CleanRun q w) (hr : NoClash p w.s) (rand : Bool) :
    ∃ r, gatesToR1CS (oneName :: p.publics) p.main.names w.s.c.gates rand = some r :=
  (exec_made hq hp hm hx (fin_of_clean hp hx hc)).dense_total (hr.run hq hp hm hx hc) hp.pubs

/-- C101 (sparse): and so does `GatesToSparseR1CS`. -/
theorem C101_sparse_rows_exist [Fact q.Prime] (hq : 2 ^ 63 ≤ q) {p : Program} (hp : p.ok) {m : Mem} (hm : program p.emit = some m) {n : Nat}
    {f : Factors} {w : W} (hx : execute H q n m = some (f, w)) (hc : CleanRun q w) (hr : NoClash p w.s) (rand : Bool) :
    ∃ r, gatesToSparseR1CS q (oneName :: p.publics) p.main.names w.s.c.gates rand = some r :=
  (exec_made hq hp hm hx (fin_of_clean hp hx hc)).sparse_total (hr.run hq hp hm hx hc) hp.pubs

/-- C101: from the text on: such a program is parsed, and as soon as `Execute` returns on what was parsed, all of `Compiles` holds. -/
theorem C101_compiles [Fact q.Prime] (hq : 2 ^ 63 ≤ q) {p : Program} (hp : p.ok) (hw : p.written) (hpl : p.plain = true) {src : List Char}
    {toks : List Token} (ht : TokenizesTo src toks) (hs : p.spelled (stackAllTokens toks)) :
    ∃ m, program p.emit = some m ∧ ∀ (k : Nat) (f : Factors) (w : W), execute H q k m = some (f, w) → CleanRun q w → NoClash p w.s →
      ∀ rand, ∃ r, Compiles H q src rand (oneName :: p.publics) p.main.names f w r := by
  obtain ⟨m, hm⟩ := program_total hp hpl
  refine ⟨m, hm, fun k f w hx hc hr rand => ?_⟩
  obtain ⟨r, hR⟩ := C101_rows_exist hq hp hm hx hc hr rand
  refine ⟨r, ⟨⟨toks, fun _ => none, (stackAllTokens toks).length + 2 + 1, k, m, ht, by omega, ?_, hx⟩,
    execute_inputs hq hp hm hx (fin_of_clean hp hx hc), hR⟩⟩
  rw [parse_spelled hw _ hs (by omega), hm]
  rfl

/-! ### examples -/

/-- the hypotheses of C100 and C101 are met by a program with a function, an array, a loop and `equal` -/
theorem C100_demo : Demo.prog.ok ∧ Demo.prog.written ∧ Demo.prog.plain = true ∧ (∃ toks, TokenizesTo Demo.src toks ∧ Demo.prog.spelled (stackAllTokens toks)) ∧
    ∀ t ∈ Demo.prog.tokens, Readable t :=
  ⟨Demo.prog_ok, Demo.prog_written, by decide, Demo.src_tokens, Demo.prog_readable⟩

/-- and by programs with `if`, in and after a loop, with `return`, and recursive -/
theorem C100_demo_if : (Branchy.prog.ok ∧ Branchy.prog.written ∧ Branchy.prog.plain = true) ∧ (Early.prog.ok ∧ Early.prog.written ∧ Early.prog.plain = true) :=
  ⟨⟨Branchy.prog_ok, Branchy.prog_written, by decide⟩, ⟨Early.prog_ok, Early.prog_written, by decide⟩⟩

namespace Bare
open APS.LangSpec

/-- `func main(y[2]){ return y }` -/
def prog : Program where
  before := []
  pubs := []
  main := ⟨"main".toList, [(['y'], [2])], [], .var ['y']⟩
  after := []

end Bare

/-- C100: the condition `plain` is needed: a use of an array parameter without an index makes the parser panic, although the program meets
all other conditions. -/
theorem C100_bare_array_panics : Bare.prog.ok ∧ Bare.prog.plain = false ∧ program Bare.prog.emit = none := by
  refine ⟨⟨rfl, by decide, by decide +kernel, ?_, ⟨by decide, by decide +kernel, trivial, ?_⟩, ?_⟩, by decide, by decide +kernel⟩
  · simp [Bare.prog, Program.funs]
  · show _ ∈ _; decide
  · simp [Bare.prog, LangSpec.Program.publics]

end APS.Prog
