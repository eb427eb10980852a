import Verif.Proofs.ProgressMain
import Verif.Props.Builtins

/-!
C110: the compiler finishes.  A program whose `main` demands equations between expressions of sums and products and returns one (Spec/Positive.lean) compiles
without a panic, whatever the number of the equations, the size of the expressions and the nesting of their operators.
-/
namespace APS.Prog
open APS.Circuit hiding execute compile Prog
open APS.Lex (Token stackAllTokens)
open APS.LexSpec (TokenizesTo)
open APS.LangSpec (Fun Stm Program equations SumProd atOnes valueOf LongHash)
open APS.ParseSpec (Ex)
open APS.Spec hiding Err

variable {H : Name → Nat} {q : Nat}

/-- C110: `Execute` returns, and the conditions of `CleanRun` hold for its result, and no constant was handed to `SPLIT`.  The sum of all coefficients that a form of such an expression can have is
the value of the expression at 1 (in the natural numbers); it must not reach the modulus. -/
theorem C110_executes (hH : LongHash H) {p : Program} (hp : p.ok) {m : Mem} (hm : program p.emit = some m) {eqs : List (Ex × Ex)}
    (hb : p.main.body = equations eqs) (hes : ∀ e ∈ eqs, (SumProd p.main.names e.1 ∧ SumProd p.main.names e.2) ∧ atOnes e.1 < q ∧ atOnes e.2 < q)
    (he : SumProd p.main.names p.main.ret) (hlt : atOnes p.main.ret < q) : ∃ k f w, execute H q k m = some (f, w) ∧ CleanRun q w ∧ NoConstSplit w.s := by
  obtain ⟨k, f, w, h1, h2, h3, h4, -⟩ := execute_total hH hp hm hb hes he hlt
  exact ⟨k, f, w, h1, ⟨h2, by simp [h3]⟩, fun g hg hs => (hs.elim (h4 g hg).1 (h4 g hg).2.1).elim⟩

/-- C111: the list of gates that `Execute` returns is not longer than the source: at most one gate for each multiplication sign and each equation, and one for the
returned form. -/
theorem C111_size (hH : LongHash H) {p : Program} (hp : p.ok) {m : Mem} (hm : program p.emit = some m) {eqs : List (Ex × Ex)}
    (hb : p.main.body = equations eqs) (hes : ∀ e ∈ eqs, (SumProd p.main.names e.1 ∧ SumProd p.main.names e.2) ∧ atOnes e.1 < q ∧ atOnes e.2 < q)
    (he : SumProd p.main.names p.main.ret) (hlt : atOnes p.main.ret < q) {k : Nat} {f : Factors} {w : W} (hx : execute H q k m = some (f, w)) :
    w.s.c.gates.length ≤ LangSpec.equationsSize eqs + LangSpec.muls p.main.ret + 1 := by
  obtain ⟨k', f', w', h1, -, -, -, h2⟩ := execute_total hH hp hm hb hes he hlt
  have a := execute_le (Nat.le_max_left k k') m _ hx
  have b := execute_le (Nat.le_max_right k k') m _ h1
  rw [a] at b
  cases b
  exact h2

theorem mapM_length {α β : Type} {g : α → Option β} : ∀ {l : List α} {r : List β}, l.mapM g = some r → r.length = l.length
  | [], r, h => by cases h; rfl
  | x :: l, r, h => by
    rw [List.mapM_cons] at h
    obtain ⟨y, -, h⟩ := Option.bind_eq_some_iff.mp h
    obtain ⟨ys, h1, h⟩ := Option.bind_eq_some_iff.mp h
    cases h
    simp [mapM_length h1]

/-- C111: `GatesToR1CS` makes one row of each gate, and one more for the randomizer; for all lists of gates. -/
theorem C111_rows {pubs ins : List Name} {gates : List Gate} {rand : Bool} {r : R1CS (List Int)} (h : gatesToR1CS pubs ins gates rand = some r) :
    r.rows.length = gates.length + if rand then 1 else 0 := by
  obtain ⟨⟨m, sp⟩, -, h⟩ := Option.bind_eq_some_iff.mp h
  obtain ⟨rows, h1, h⟩ := Option.bind_eq_some_iff.mp h
  cases rand
  · cases h
    simpa using mapM_length h1
  · obtain ⟨row, -, h⟩ := Option.bind_eq_some_iff.mp h
    cases h
    simp [mapM_length h1]

/-- C111: and so does `GatesToSparseR1CS`. -/
theorem C111_rows_sparse {pubs ins : List Name} {gates : List Gate} {rand : Bool} {r : R1CS APS.Avl.Tree} (h : gatesToSparseR1CS q pubs ins gates rand = some r) :
    r.rows.length = gates.length + if rand then 1 else 0 := by
  obtain ⟨⟨m, sp⟩, -, h⟩ := Option.bind_eq_some_iff.mp h
  obtain ⟨rows, h1, h⟩ := Option.bind_eq_some_iff.mp h
  cases rand
  · cases h
    simpa using mapM_length h1
  · obtain ⟨row, -, h⟩ := Option.bind_eq_some_iff.mp h
    cases h
    simp [mapM_length h1]

/-- C110: from the text to the rows.  The remaining conditions are that no two different gates got the same name, and that no public input is listed twice. -/
theorem C110_compiles [Fact q.Prime] (hq : 2 ^ 63 ≤ q) (hH : LongHash H) {p : Program} (hp : p.ok) (hw : p.written) (hpl : p.plain = true)
    {src : List Char} {toks : List Token} (ht : TokenizesTo src toks) (hs : p.spelled (stackAllTokens toks)) {eqs : List (Ex × Ex)}
    (hb : p.main.body = equations eqs) (hes : ∀ e ∈ eqs, (SumProd p.main.names e.1 ∧ SumProd p.main.names e.2) ∧ atOnes e.1 < q ∧ atOnes e.2 < q)
    (he : SumProd p.main.names p.main.ret) (hlt : atOnes p.main.ret < q) (hpub : p.publics.Nodup) :
    ∃ m k f w, program p.emit = some m ∧ execute H q k m = some (f, w) ∧ CleanRun q w ∧ NoConstSplit w.s ∧
      (NoConfusion w.s → ∀ rand, ∃ r, Compiles H q src rand (oneName :: p.publics) p.main.names f w r) := by
  obtain ⟨m, hm, hall⟩ := C101_compiles (H := H) hq hp hw hpl ht hs
  obtain ⟨k, f, w, h1, h2, h3⟩ := C110_executes hH hp hm hb hes he hlt
  exact ⟨m, k, f, w, hm, h1, h2, h3, fun hn => hall k f w h1 h2 ⟨hn, h3, hpub⟩⟩

/-- `atOnes` is the value at 1 in the natural numbers -/
theorem atOnes_value (e : Ex) : atOnes e = valueOf (fun _ => (1 : Nat)) e := by
  match e with
  | .num _ => rfl
  | .var _ => rfl
  | .paren e => exact atOnes_value e
  | .bin op l r => simp only [atOnes, valueOf, atOnes_value l, atOnes_value r]
  | .call _ _ => rfl
  | .arr _ _ => rfl

/-- the interpreter of Spec/Lang.lean computes that value -/
theorem sums_eval [Fact q.Prime] (hq : 2 ^ 63 ≤ q) {p : Program} (gx : ZMod q → ZMod q) (vals : Name → ZMod q) {e : Ex} (he : SumProd p.main.names e) :
    ∃ n, ∀ k, n ≤ k → LangSpec.eval gx p.funs k (fun x => if x ∈ p.main.names then some (vals x) else none) e = .ok (valueOf vals e) := by
  induction he with
  | num _ _ => exact ⟨1, fun k hk => by obtain ⟨k, rfl⟩ : ∃ i, k = i + 1 := ⟨k - 1, by omega⟩; rfl⟩
  | var hx =>
    refine ⟨1, fun k hk => ?_⟩
    obtain ⟨k, rfl⟩ : ∃ i, k = i + 1 := ⟨k - 1, by omega⟩
    simp only [LangSpec.eval, LangSpec.get, if_pos hx, valueOf]
  | @elem a is _ his hx =>
    refine ⟨2, fun k hk => ?_⟩
    obtain ⟨k, rfl⟩ : ∃ i, k = i + 2 := ⟨k - 2, by omega⟩
    have hl : ∀ {ρ : LangSpec.Store q} {l : List Name}, LangSpec.evalList (LangSpec.eval gx p.funs (k + 1) ρ) (l.map .num) =
        .ok (l.map fun w => ((Nat.ofDigitChars 10 w 0 : Nat) : ZMod q)) := by
      intro ρ l
      induction l with
      | nil => rfl
      | cons w l ih => rw [List.map_cons, LangSpec.evalList, ih]; rfl
    have hv : (is.map fun w => ((Nat.ofDigitChars 10 w 0 : Nat) : ZMod q)).map ZMod.val = (is.map Ex.num).map LangSpec.lit := by
      simp only [List.map_map]
      refine List.map_congr_left fun w hw => ?_
      exact ZMod.val_cast_of_lt (lt_of_lt_of_le (his w hw).2 hq)
    rw [LangSpec.eval, hl]
    simp only [bind, Except.bind, LangSpec.element, hv]
    simp only [LangSpec.get, if_pos hx, valueOf]
  | paren _ ih =>
    obtain ⟨n, h⟩ := ih
    refine ⟨n + 1, fun k hk => ?_⟩
    obtain ⟨k, rfl⟩ : ∃ i, k = i + 1 := ⟨k - 1, by omega⟩
    simpa only [LangSpec.eval, valueOf] using h k (by omega)
  | add _ _ ih1 ih2 =>
    obtain ⟨n1, h1⟩ := ih1
    obtain ⟨n2, h2⟩ := ih2
    refine ⟨n1 + n2 + 1, fun k hk => ?_⟩
    obtain ⟨k, rfl⟩ : ∃ i, k = i + 1 := ⟨k - 1, by omega⟩
    simp only [LangSpec.eval, h1 k (by omega), h2 k (by omega), valueOf, LangSpec.arithOp, bind, Except.bind, if_true]
  | mul _ _ ih1 ih2 =>
    obtain ⟨n1, h1⟩ := ih1
    obtain ⟨n2, h2⟩ := ih2
    refine ⟨n1 + n2 + 1, fun k hk => ?_⟩
    obtain ⟨k, rfl⟩ : ∃ i, k = i + 1 := ⟨k - 1, by omega⟩
    simp [LangSpec.eval, h1 k (by omega), h2 k (by omega), valueOf, LangSpec.arithOp, bind, Except.bind]

/-- the program returns the value if all equations hold, and stops otherwise -/
theorem sums_returns [Fact q.Prime] (hq : 2 ^ 63 ≤ q) {p : Program} {eqs : List (Ex × Ex)} (hb : p.main.body = equations eqs)
    (hes : ∀ e ∈ eqs, SumProd p.main.names e.1 ∧ SumProd p.main.names e.2) (he : SumProd p.main.names p.main.ret) (gx : ZMod q → ZMod q)
    (vals : Name → ZMod q) :
    ((∀ e ∈ eqs, valueOf vals e.1 = valueOf vals e.2) → Returns gx p vals (valueOf vals p.main.ret)) ∧
      ((¬ ∀ e ∈ eqs, valueOf vals e.1 = valueOf vals e.2) → Stops gx p vals .assertionFailed) := by
  have key : ∀ {eqs : List (Ex × Ex)}, (∀ e ∈ eqs, SumProd p.main.names e.1 ∧ SumProd p.main.names e.2) → ∃ n, ∀ k, n ≤ k →
      LangSpec.finish (LangSpec.eval gx p.funs k) (LangSpec.run gx p.funs k) p.main.ret (fun x => if x ∈ p.main.names then some (vals x) else none)
        (equations eqs) = if (∀ e ∈ eqs, valueOf vals e.1 = valueOf vals e.2) then .ok (valueOf vals p.main.ret) else .error .assertionFailed := by
    intro eqs
    induction eqs with
    | nil =>
      intro _
      obtain ⟨n, h⟩ := sums_eval hq gx vals he
      exact ⟨n, fun k hk => by rw [if_pos (by simp)]; exact h k hk⟩
    | cons e eqs ih =>
      intro hes
      obtain ⟨n, h⟩ := ih fun e he => hes e (List.mem_cons_of_mem _ he)
      obtain ⟨n1, h1⟩ := sums_eval hq gx vals (hes e List.mem_cons_self).1
      obtain ⟨n2, h2⟩ := sums_eval hq gx vals (hes e List.mem_cons_self).2
      refine ⟨n + n1 + n2 + 1, fun k hk => ?_⟩
      have hf := h k (by omega)
      obtain ⟨k, rfl⟩ : ∃ i, k = i + 1 := ⟨k - 1, by omega⟩
      have hl : LangSpec.run gx p.funs (k + 1) (fun x => if x ∈ p.main.names then some (vals x) else none) (.call LangSpec.kwEqual [e.1, e.2]) =
          if valueOf vals e.1 = valueOf vals e.2 then .ok (fun x => if x ∈ p.main.names then some (vals x) else none) else .error .assertionFailed := by
        simp only [LangSpec.run, if_true, LangSpec.evalList, h1 k (by omega), h2 k (by omega), bind, Except.bind]
      show LangSpec.finish _ _ _ _ (.call LangSpec.kwEqual [e.1, e.2] :: equations eqs) = _
      rw [LangSpec.finish_step rfl, hl]
      by_cases h0 : valueOf vals e.1 = valueOf vals e.2
      · rw [if_pos h0]
        simp only [bind, Except.bind]
        rw [hf]
        by_cases h3 : ∀ e ∈ eqs, valueOf vals e.1 = valueOf vals e.2
        · rw [if_pos h3, if_pos fun e' he' => by rcases List.mem_cons.mp he' with rfl | h; exacts [h0, h3 _ h]]
        · rw [if_neg h3, if_neg fun h => h3 fun e' he' => h e' (List.mem_cons_of_mem _ he')]
      · rw [if_neg h0, if_neg fun h => h0 (h e List.mem_cons_self)]
        rfl
  obtain ⟨n, h⟩ := key hes
  have := h n (le_refl _)
  constructor
  · intro hall
    rw [if_pos hall] at this
    exact ⟨n, by rw [LangSpec.runMain, hb]; exact this⟩
  · intro hall
    rw [if_neg hall] at this
    exact ⟨by simp, n, by rw [LangSpec.runMain, hb]; exact this⟩

/-- a program stops with one error only -/
theorem Stops.unique [Fact q.Prime] {gx : ZMod q → ZMod q} {p : Program} {vals : Name → ZMod q} {e e' : LangSpec.Err}
    (h : Stops gx p vals e) (h' : Stops gx p vals e') : e = e' := by
  obtain ⟨he, k, h⟩ := h
  obtain ⟨he', k', h'⟩ := h'
  have a := (runMain_le gx p.funs p.main (Nat.le_max_left k k') vals).resolve_left (by rw [h]; simpa using he)
  have b := (runMain_le gx p.funs p.main (Nat.le_max_right k k') vals).resolve_left (by rw [h']; simpa using he')
  rw [← a, h, h'] at b
  cases b; rfl

/-- C110: and the rows say what the program says: in every witness the equations hold and the result is the value of the returned expression; and for all inputs
that satisfy the equations there is a witness. -/
theorem C110_computes [Fact q.Prime] (hq : 2 ^ 63 ≤ q) (hH : LongHash H) {p : Program} (hp : p.ok) (hw : p.written) (hpl : p.plain = true)
    {src : List Char} {toks : List Token} (ht : TokenizesTo src toks) (hs : p.spelled (stackAllTokens toks)) {eqs : List (Ex × Ex)}
    (hb : p.main.body = equations eqs) (hes : ∀ e ∈ eqs, (SumProd p.main.names e.1 ∧ SumProd p.main.names e.2) ∧ atOnes e.1 < q ∧ atOnes e.2 < q)
    (he : SumProd p.main.names p.main.ret) (hlt : atOnes p.main.ret < q) (hpub : p.publics.Nodup) :
    ∃ m k f w, program p.emit = some m ∧ execute H q k m = some (f, w) ∧
      (NoConfusion w.s → ∀ rand, ∃ r, Compiles H q src rand (oneName :: p.publics) p.main.names f w r ∧ ∀ gx : ZMod q → ZMod q, gx 0 = 0 →
        (∀ u : List Int, u.length = r.witnessLength → ((u.getD 0 0 : Int) : ZMod q) = 1 → (∀ row ∈ r.rows, SatD q gx u row) →
          (∀ e ∈ eqs, valueOf (valsOf q r.index u) e.1 = valueOf (valsOf q r.index u) e.2) ∧
            formVal (valsOf q r.index u) f = valueOf (valsOf q r.index u) p.main.ret) ∧
        ∀ vals : Name → ZMod q, (∀ e ∈ eqs, valueOf vals e.1 = valueOf vals e.2) → ∃ u : List Int, u.length = r.witnessLength ∧ ((u.getD 0 0 : Int) : ZMod q) = 1 ∧
          (∀ x ∈ p.main.names, ((u.getD (r.index.get x) 0 : Int) : ZMod q) = vals x) ∧
          (∀ row ∈ r.rows, SatD q gx u row) ∧ formVal (valsOf q r.index u) f = valueOf vals p.main.ret) := by
  obtain ⟨m, k, f, w, h1, h2, h3, h5, h4⟩ := C110_compiles hq hH hp hw hpl ht hs hb hes he hlt hpub
  refine ⟨m, k, f, w, h1, h2, fun hconf rand => ?_⟩
  have hn : NoClash p w.s := ⟨hconf, h5, hpub⟩
  obtain ⟨r, hr⟩ := h4 hconf rand
  have hes' : ∀ e ∈ eqs, SumProd p.main.names e.1 ∧ SumProd p.main.names e.2 := fun e h => (hes e h).1
  refine ⟨r, hr, fun gx hgx => ⟨fun u hu hone hsat => ?_, fun vals hv => C90_text_complete hq hp hw ht hs hr h3 hn hgx ((sums_returns hq hb hes' he gx vals).1 hv)⟩⟩
  obtain ⟨k1, k2⟩ := sums_returns hq hb hes' he gx (valsOf q r.index u)
  by_cases hall : ∀ e ∈ eqs, valueOf (valsOf q r.index u) e.1 = valueOf (valsOf q r.index u) e.2
  · refine ⟨hall, ?_⟩
    rcases C90_text_sound hq hp hw ht hs hr h3 hn hgx hu hone hsat with h | h
    · exact Returns.unique h (k1 hall)
    · exact (Returns.not_stops (k1 hall) h).elim
  · rcases C90_text_sound hq hp hw ht hs hr h3 hn hgx hu hone hsat with h | h
    · exact (Returns.not_stops h (k2 hall)).elim
    · cases Stops.unique h (k2 hall)

/-! ### the conditions are met, and needed -/

/-- a hash whose values are between 2^62 and 2^62 + 2^60 names gates with 19 digits -/
theorem longHash_of {H : Name → Nat} (h : ∀ t, 2 ^ 62 ≤ H t ∧ H t < 2 ^ 62 + 2 ^ 60) : LongHash H := by
  refine ⟨fun t => le_trans (by norm_num) (h t).1, fun a b c => ?_⟩
  have ha := h a
  have hb := h b
  have hc := h c
  have h1 : (H a + H b).testBit 63 = true := by
    have e : (H a + H b) / 2 ^ 63 = 1 := by omega
    rw [Nat.testBit_eq_decide_div_mod_eq, e]; rfl
  have h2 : (H c).testBit 63 = false := Nat.testBit_lt_two_pow (by omega)
  have : 2 ^ 63 ≤ (H a + H b) ^^^ H c := Nat.ge_two_pow_of_testBit (by rw [Nat.testBit_xor, h1, h2]; rfl)
  omega

namespace Sums
open APS.Pairing (Order)

/-- the hash of the examples, between the bounds -/
def H1 (t : Name) : Nat := 2 ^ 62 + H0 t % 2 ^ 60

theorem H1_long : LongHash H1 := longHash_of fun t => ⟨by unfold H1; omega, by unfold H1; omega⟩

def op (c : Char) : Token := ⟨.arithmetic, [c]⟩

/-- `(x*(y[1]+3))+2*x*y[0]` -/
def ret : Ex :=
  .bin (op '+') (.paren (.bin (op '*') (.var ['x']) (.paren (.bin (op '+') (.arr ['y'] [.num ['1']]) (.num ['3'])))))
    (.bin (op '*') (.num ['2']) (.bin (op '*') (.var ['x']) (.arr ['y'] [.num ['0']])))

/-- `x*y[0]` and `y[1]+2` -/
def eqs : List (Ex × Ex) := [(.bin (op '*') (.var ['x']) (.arr ['y'] [.num ['0']]), .bin (op '+') (.arr ['y'] [.num ['1']]) (.num ['2']))]

def prog : Program where
  before := []
  pubs := []
  main := ⟨"main".toList, [(['x'], []), (['y'], [2])], equations eqs, ret⟩
  after := []

def src : List Char := "func main(x,y[2]){\nequal(x*y[0],y[1]+2)\nreturn (x*(y[1]+3))+2*x*y[0]\n}\n".toList

theorem prog_ok : prog.ok := by
  refine ⟨rfl, by decide, by decide +kernel, ?_, ⟨by decide, by decide +kernel, ?_, ?_⟩, ?_⟩
  · simp [prog, Program.funs]
  · refine ⟨?_, trivial⟩
    simp only [Stm.ok]
    rw [if_pos trivial]
    refine ⟨rfl, ?_⟩
    simp [LangSpec.okEx, LangSpec.okExs, Fun.top, LangSpec.declared, Stm.declares, prog, op, Spec.IsLit]
  · simp [LangSpec.okEx, LangSpec.okExs, equations, eqs, Stm.declares, Fun.top, LangSpec.declared, prog, ret, op, Spec.IsLit]
  · simp [prog, LangSpec.Program.publics]

theorem prog_written : prog.written := by
  refine ⟨?_, ?_, ?_⟩
  · intro F hF
    simp [prog, Program.funs] at hF
  · refine ⟨by decide, ?_, ?_, ?_⟩
    · simp [prog, LangSpec.paramWritten]; decide
    · simp [prog, equations, eqs, LangSpec.writtenAll, Stm.written, ParseSpec.Ex.ok, ParseSpec.okAll, op, ParseSpec.Ex.closed]; decide
    · simp [prog, ret, ParseSpec.Ex.ok, ParseSpec.okAll, op, ParseSpec.Ex.closed]; decide
  · simp [prog]

theorem src_tokens : ∃ toks, TokenizesTo src toks ∧ prog.spelled (stackAllTokens toks) := by
  have h : ((APS.Lex.tokenize 400 src).map fun o => match o with
      | .closed toks => decide (prog.spelled (stackAllTokens toks))
      | .panicked _ => false) = some true := by decide +kernel
  obtain ⟨o, h1, h2⟩ := Option.map_eq_some_iff.mp h
  cases o with
  | closed toks => exact ⟨toks, ⟨400, h1⟩, by simpa using h2⟩
  | panicked toks => simp at h2

theorem elem_sums : ∀ c ∈ [['0'], ['1']], SumProd prog.main.names (.arr ['y'] [.num c]) := by
  intro c hc
  exact .elem (is := [c]) (by simp) (by revert hc; revert c; decide) (by revert hc; revert c; decide +kernel)

theorem eqs_sums : ∀ e ∈ eqs, (SumProd prog.main.names e.1 ∧ SumProd prog.main.names e.2) ∧ atOnes e.1 < Order ∧ atOnes e.2 < Order := by
  intro e he
  rw [List.mem_singleton.mp he]
  have hx : (['x'] : Name) ∈ prog.main.names := by decide +kernel
  exact ⟨⟨.mul (.var hx) (elem_sums _ (by decide)), .add (elem_sums _ (by decide)) (.num (by decide) (by decide))⟩, by decide +kernel, by decide +kernel⟩

theorem ret_sums : SumProd prog.main.names prog.main.ret := by
  have hx : (['x'] : Name) ∈ prog.main.names := by decide +kernel
  have hy := elem_sums
  refine .add (.paren (.mul (.var hx) (.paren (.add (hy _ ?_) (.num ?_ ?_))))) (.mul (.num ?_ ?_) (.mul (.var hx) (hy _ ?_))) <;> decide

/-- all hypotheses of C110 hold for a program, and `NoConfusion` as well -/
theorem C110_demo : LongHash H1 ∧ prog.ok ∧ prog.written ∧ prog.plain = true ∧ (∃ toks, TokenizesTo src toks ∧ prog.spelled (stackAllTokens toks)) ∧
    prog.main.body = equations eqs ∧
    (∀ e ∈ eqs, (SumProd prog.main.names e.1 ∧ SumProd prog.main.names e.2) ∧ atOnes e.1 < Order ∧ atOnes e.2 < Order) ∧ SumProd prog.main.names prog.main.ret ∧ atOnes prog.main.ret < Order ∧
    ∃ m f w, program prog.emit = some m ∧ prog.publics.Nodup ∧ execute H1 Order 20 m = some (f, w) ∧ NoConfusion w.s ∧ w.s.c.gates.length = 4 := by
  refine ⟨H1_long, prog_ok, prog_written, by decide, src_tokens, rfl, eqs_sums, ret_sums, by decide +kernel, ?_⟩
  have h : (((program prog.emit).bind fun m => (execute H1 Order 20 m).map fun x => (m, x)).map fun x =>
      decide (NoConfusion x.2.2.s ∧ x.2.2.s.c.gates.length = 4)) = some true := by decide +kernel
  obtain ⟨⟨m, f, w⟩, h1, h2⟩ := Option.map_eq_some_iff.mp h
  obtain ⟨m', h3, h4⟩ := Option.bind_eq_some_iff.mp h1
  obtain ⟨⟨f', w'⟩, h5, h6⟩ := Option.map_eq_some_iff.mp h4
  cases h6
  obtain ⟨k1, k2⟩ := of_decide_eq_true h2
  exact ⟨_, _, _, h3, by decide, h5, k1, k2⟩

/-- `func main(x,y){ return (0*x)*y }` -/
def zero : Program :=
  { prog with main := ⟨"main".toList, [(['x'], []), (['y'], [])], [], .bin (op '*') (.paren (.bin (op '*') (.num ['0']) (.var ['x']))) (.var ['y'])⟩ }

theorem zero_ok : zero.ok := by
  refine ⟨rfl, by decide, by decide +kernel, ?_, ⟨by decide, by decide +kernel, trivial, ?_⟩, ?_⟩
  · simp [zero, prog, Program.funs]
  · simp [LangSpec.okEx, Fun.top, LangSpec.declared, zero, prog, op, Spec.IsLit]
  · simp [zero, prog, LangSpec.Program.publics]

theorem zero_panics (n : Nat) : ((program zero.emit).bind fun m => execute H1 Order (n + 20) m) = none := by
  run_tac do -- left to the kernel
    let g ← Lean.Elab.Tactic.getMainGoal
    let some (_, _, r) := (← g.getType).eq? | throwError "an equation is expected"
    g.assign (← Lean.Meta.mkEqRefl r)

/-- C110 is FALSE with the number 0: `(0*x)*y` makes the compiler panic (extractGCD divides by a greatest common divisor that is 0), with the hash of `C110_demo`
and although the program is well formed and is parsed. -/
theorem C110_zero_refuted : zero.ok ∧ (program zero.emit).isSome = true ∧ ∀ m k, program zero.emit = some m → execute H1 Order k m = none := by
  refine ⟨zero_ok, by decide +kernel, fun m k hm => ?_⟩
  have h := zero_panics k
  rw [hm] at h
  cases hx : execute H1 Order k m with
  | none => rfl
  | some x =>
    have := execute_le (Nat.le_add_right k 20) m _ hx
    simp only [Option.bind_some] at h
    rw [h] at this
    cases this

/-- the bound of C111 in the example: four gates, six at most -/
theorem C111_demo : LangSpec.equationsSize eqs + LangSpec.muls prog.main.ret + 1 = 6 := by decide +kernel

end Sums
end APS.Prog
