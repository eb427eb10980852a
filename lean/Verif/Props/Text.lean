import Verif.Proofs.Source
import Verif.Proofs.MainInputs
import Verif.Props.Lang
import Verif.Props.Lexer

/-!
C89, C90: from the source text to the constraints, and from there to gates and rows.  How a program is written down as tokens
is in Spec/Write.lean, as text in Spec/Text.lean.
-/
namespace APS.Prog
open APS.Circuit hiding execute compile Prog
open APS.Lex (Token stackAllTokens)
open APS.LexSpec (TokenizesTo)
open APS.Parse (statementMode)
open APS.LangSpec (Fun Stm Program Readable)
open APS.Spec hiding Err

variable {H : Name → Nat} {q : Nat}

/-! ### C89: the parser hands over the program that was written -/

/-- C89: a written program, of any size and nesting, is handed over as its constraints, in order, and the parser finishes. -/
theorem C89_parse (rf : List Char → Option (List Token)) {p : Program} (hp : p.written) {n : Nat} (hn : p.write.length < n) :
    statementMode rf (n + 1) p.write = some ⟨p.emit, true⟩ := APS.Parse.program_reads hp hn

/-- C89: every program has a text from which exactly its tokens are read. -/
theorem C89_text {p : Program} (hp : p.written) (hr : ∀ t ∈ p.tokens, Readable t) :
    (∃! toks, TokenizesTo p.text toks) ∧ TokenizesTo p.text p.tokens ∧ stackAllTokens p.tokens = p.write := by
  have hn := (LangSpec.neat_program hp).1
  have ht : TokenizesTo p.text p.tokens := (LexProps.C42_exact _ _).2 (LangSpec.lexes_render hn hr)
  refine ⟨⟨_, ht, ?_⟩, ht, LangSpec.stackAll_fits hn fun t ht e => ?_⟩
  · rintro ts ⟨k, hk⟩
    obtain ⟨l, hl⟩ := ht
    have := APS.Lex.RunsTo.det ⟨k, hk⟩ ⟨l, hl⟩
    cases this
    rfl
  · have h := hr t ht
    obtain ⟨ty, w⟩ := t
    simp only at e
    subst e
    simp [Readable, LexSpec.operators, LexSpec.keywords] at h

/-- C89: two written programs with the same tokens have the same constraints: the text determines the program. -/
theorem C89_unambiguous {p p' : Program} (hp : p.written) (hp' : p'.written) (h : p.write = p'.write) : p.emit = p'.emit := by
  have a := C89_parse (fun _ => none) hp (n := p.write.length + 1) (by omega)
  have b := C89_parse (fun _ => none) hp' (n := p.write.length + 1) (by rw [h]; omega)
  rw [h] at a b
  rw [b] at a
  simpa using a.symm

/-! ### C90: from the text to the rows -/

/-- The results of compiling a text: `Parse` (public inputs and functions), `Execute` (returned form and gates), the parameters of
`main`, and `GatesToR1CS`. -/
structure Compiles (H : Name → Nat) (q : Nat) (src : List Char) (rand : Bool) (pubs ins : List Name) (f : Factors) (w : W) (r : R1CS (List Int)) : Prop where
  steps : ∃ toks rf n k m, TokenizesTo src toks ∧ (stackAllTokens toks).length + 1 < n ∧ parse H q n rf (stackAllTokens toks) = some (pubs, m) ∧
    execute H q k m = some (f, w)
  params : mainInputs w.m = some ins
  rows : gatesToR1CS pubs ins w.s.c.gates rand = some r

/-- what compiling a text that spells `p` amounts to -/
theorem Compiles.run [Fact q.Prime] (hq : 2 ^ 63 ≤ q) {p : Program} (hp : p.ok) (hw : p.written) {src : List Char} {toks : List Token}
    (ht : TokenizesTo src toks) (hs : p.spelled (stackAllTokens toks)) {rand : Bool} {pubs ins : List Name} {f : Factors} {w : W} {r : R1CS (List Int)}
    (h : Compiles H q src rand pubs ins f w r) (hc : CleanRun q w) :
    ∃ m k, program p.emit = some m ∧ execute H q k m = some (f, w) ∧ pubs = oneName :: p.publics ∧ ins = p.main.names ∧
      gatesToR1CS (oneName :: p.publics) p.main.names w.s.c.gates rand = some r := by
  obtain ⟨⟨toks', rf, n, k, m, h1, h2, h3, h4⟩, h5, h6⟩ := h
  have : toks' = toks := by
    obtain ⟨a, ha⟩ := h1
    obtain ⟨b, hb⟩ := ht
    have := APS.Lex.RunsTo.det ⟨a, ha⟩ ⟨b, hb⟩
    cases this
    rfl
  subst this
  obtain ⟨n, rfl⟩ : ∃ n', n = n' + 1 := ⟨n - 1, by omega⟩
  rw [parse_spelled hw rf hs (by omega)] at h3
  obtain ⟨m', hm, e⟩ := Option.map_eq_some_iff.mp h3
  cases e
  have hin := execute_inputs hq hp hm h4 (fin_of_clean hp h4 hc)
  rw [h5] at hin
  cases hin
  exact ⟨m, k, hm, h4, rfl, rfl, h6⟩

/-- C90 (soundness): a witness for the rows compiled from the text of `p` fixes the result of `p`. -/
theorem C90_text_sound [Fact q.Prime] (hq : 2 ^ 63 ≤ q) {p : Program} (hp : p.ok) (hw : p.written) {src : List Char} {toks : List Token}
    (ht : TokenizesTo src toks) (hs : p.spelled (stackAllTokens toks)) {rand : Bool} {pubs ins : List Name} {f : Factors} {w : W} {r : R1CS (List Int)}
    (h : Compiles H q src rand pubs ins f w r) (hc : CleanRun q w) (hr : NoClash p w.s) {gx : ZMod q → ZMod q} (hgx : gx 0 = 0)
    {u : List Int} (hu : u.length = r.witnessLength) (h1 : ((u.getD 0 0 : Int) : ZMod q) = 1) (hsat : ∀ row ∈ r.rows, SatD q gx u row) :
    Returns gx p (valsOf q r.index u) (formVal (valsOf q r.index u) f) ∨ Stops gx p (valsOf q r.index u) .divByZero := by
  obtain ⟨m, k, hm, hx, rfl, rfl, hR⟩ := h.run hq hp hw ht hs hc
  exact C86_rows_sound hq hp hm hx hc hr hgx hR hu h1 hsat

/-- C90 (completeness): if `p` returns `v`, the rows compiled from its text have a witness with these inputs and this result. -/
theorem C90_text_complete [Fact q.Prime] (hq : 2 ^ 63 ≤ q) {p : Program} (hp : p.ok) (hw : p.written) {src : List Char} {toks : List Token}
    (ht : TokenizesTo src toks) (hs : p.spelled (stackAllTokens toks)) {rand : Bool} {pubs ins : List Name} {f : Factors} {w : W} {r : R1CS (List Int)}
    (h : Compiles H q src rand pubs ins f w r) (hc : CleanRun q w) (hr : NoClash p w.s) {gx : ZMod q → ZMod q} (hgx : gx 0 = 0)
    {vals : Name → ZMod q} {v : ZMod q} (hv : Returns gx p vals v) :
    ∃ u : List Int, u.length = r.witnessLength ∧ ((u.getD 0 0 : Int) : ZMod q) = 1 ∧
      (∀ x ∈ p.main.names, ((u.getD (r.index.get x) 0 : Int) : ZMod q) = vals x) ∧
      (∀ row ∈ r.rows, SatD q gx u row) ∧ formVal (valsOf q r.index u) f = v := by
  obtain ⟨m, k, hm, hx, rfl, rfl, hR⟩ := h.run hq hp hw ht hs hc
  exact C86_rows_complete hq hp hm hx hc hr hgx hR hv

/-! ### the program of Props/Lang.lean as a text -/

namespace Demo
open APS.Pairing (Order)
open APS.LangSpec (FreeWord)

/-- the text, laid out as people write it -/
def src : List Char := "func square(a){
return a*a
}

func main(x,y[2]) {   # sums of squares
  public{x}
  var s = 0
  var i = 0
  for(i<2; i=i+1){
    s = s + square(y[i])
  }
  equal(s,x)
  return s * y[0]
}
".toList

theorem prog_written : prog.written := by
  refine ⟨?_, ?_, ?_⟩
  · intro F hF
    simp [prog, Program.funs] at hF
    subst hF
    refine ⟨by decide, by simp [LangSpec.paramWritten]; decide, trivial, ?_⟩
    simp [ParseSpec.Ex.ok, op, ParseSpec.Ex.closed]; decide
  · refine ⟨by decide, ?_, ?_, ?_⟩
    · simp [prog, LangSpec.paramWritten]; decide
    · simp [prog, LangSpec.writtenAll, Stm.written, ParseSpec.Ex.ok, ParseSpec.okAll, op, ParseSpec.Ex.closed]; decide
    · simp [prog, ParseSpec.Ex.ok, ParseSpec.okAll, op, ParseSpec.Ex.closed]; decide
  · simp [prog]; decide

/-- the text spells the program -/
theorem src_tokens : ∃ toks, TokenizesTo src toks ∧ prog.spelled (stackAllTokens toks) := by
  have h : ((APS.Lex.tokenize 400 src).map fun o => match o with
      | .closed toks => decide (prog.spelled (stackAllTokens toks))
      | .panicked _ => false) = some true := by decide +kernel
  obtain ⟨o, h1, h2⟩ := Option.map_eq_some_iff.mp h
  cases o with
  | closed toks => exact ⟨toks, ⟨400, h1⟩, by simpa using h2⟩
  | panicked toks => simp at h2

/-- all tokens can be written down -/
theorem prog_readable : ∀ t ∈ prog.tokens, Readable t := by
  have h : (prog.tokens.all fun t => match t.type with
      | .number => decide (t.text ≠ [] ∧ ∀ c ∈ t.text, '0' ≤ c ∧ c ≤ '9')
      | .identifier | .functionCall => decide (LangSpec.isWord t.text = true ∧ ∀ e ∈ LexSpec.keywords, e.1 ≠ t.text)
      | .syntax => decide (t.text ∈ [['('], [')'], [':'], [','], [';'], ['\n'], ['{'], ['}'], ['['], [']']])
      | _ => decide ((t.text, t.type) ∈ LexSpec.operators ∨ (t.text, t.type) ∈ LexSpec.keywords)) = true := by decide +kernel
  rw [List.all_eq_true] at h
  intro t ht
  have := h t ht
  revert this
  unfold Readable FreeWord
  cases t.type <;> simp only [decide_eq_true_eq] <;> try exact id
  · simp only [List.mem_cons, List.not_mem_nil, or_false]
    intro h
    unfold LexSpec.Punct
    rcases h with h | h | h | h | h | h | h | h | h | h <;> exact ⟨_, by simp, h⟩
  · exact fun h => ⟨h.1, fun ty hm => h.2 _ hm rfl⟩
  · exact fun h => ⟨h.1, fun ty hm => h.2 _ hm rfl⟩

/-- the text compiles over the scalar field of bn256, with all conditions of C90 -/
theorem src_compiles : ∃ pubs ins f w r, Compiles H0 Order src true pubs ins f w r ∧ CleanRun Order w ∧ NoClash prog w.s := by
  obtain ⟨m, n, f, w, h1, h2, h3, h4, -, h5⟩ := prog_run
  obtain ⟨toks, t1, t2⟩ := src_tokens
  obtain ⟨r, hr⟩ := Option.isSome_iff_exists.mp h5
  have hin := execute_inputs (by decide +kernel) prog_ok h1 h2 (fin_of_clean prog_ok h2 h3)
  refine ⟨_, _, f, w, r, ⟨⟨toks, fun _ => none, (stackAllTokens toks).length + 2 + 1, n, m, t1, by omega, ?_, h2⟩, hin, hr⟩, h3, h4⟩
  rw [parse_spelled prog_written _ t2 (by omega), h1]
  rfl

end Demo
end APS.Prog
