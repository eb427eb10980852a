import Verif.Proofs.ParseRound
import Verif.Proofs.ParseArray
import Verif.Spec.Source
import Mathlib.Tactic.LinearCombination

/-! C44–C46 and C82: brackets, expressions, array names. -/
namespace APS.Parse
open APS.Lex (Token TokenType)
open APS.ParseSpec
open APS.Circuit (Expr)

/-! ### C44 -/

/-- C44: on a list that begins with the opening bracket, splitting gives `(l, r)` exactly when the list is the opening
bracket, `l`, a closing bracket, `r`, and the brackets inside `l` are balanced. -/
theorem C44_from_bracket {op cl : List Char} (hne : op ≠ cl) {o : Token} (ho : o.text = op) (ts l r : List Token) :
    splitAtClosing op cl (o :: ts) = some (some (l, r)) ↔ ∃ c, ts = l ++ c :: r ∧ c.text = cl ∧ Balanced op cl l :=
  split_open hne ho l r

/-- C44: on a list that begins inside the brackets, splitting gives `(l, r)` exactly when the list is `l`, the closing
bracket, `r`, and the brackets inside `l` are balanced. -/
theorem C44_from_inside {op cl : List Char} (hne : op ≠ cl) {t : Token} (ht : t.text ≠ op) (ts l r : List Token) :
    splitAtClosing op cl (t :: ts) = some (some (l, r)) ↔ ∃ c, t :: ts = l ++ c :: r ∧ c.text = cl ∧ Balanced op cl l :=
  split_inside hne ht l r

/-- C44: the cut is at the first possible place: there is only one way to cut behind a balanced part. -/
theorem C44_shortest {op cl : List Char} (hne : op ≠ cl) {ts l r l' r' : List Token} {c c' : Token}
    (h : ts = l ++ c :: r) (hc : c.text = cl) (hl : Balanced op cl l)
    (h' : ts = l' ++ c' :: r') (hc' : c'.text = cl) (hl' : Balanced op cl l') : l = l' ∧ r = r' := by
  have a := (closeScan_bal hne ts [] l r).2 ⟨l, c, h, hc, by simp, hl⟩
  have b := (closeScan_bal hne ts [] l' r').2 ⟨l', c', h', hc', by simp, hl'⟩
  rw [a] at b
  simpa using b

/-- C44: otherwise a non-empty list is reported as not closed; only the empty list crashes. -/
theorem C44_not_closed {op cl : List Char} (ts : List Token) :
    (splitAtClosing op cl ts = none ↔ ts = []) ∧
    (ts ≠ [] → (∀ l r, splitAtClosing op cl ts ≠ some (some (l, r))) → splitAtClosing op cl ts = some none) := by
  constructor
  · cases ts with
    | nil => simp [splitAtClosing]
    | cons t ts => simp only [splitAtClosing]; split <;> simp
  · intro hne h
    cases e : splitAtClosing op cl ts with
    | none =>
      cases ts with
      | nil => exact absurd rfl hne
      | cons t ts => simp only [splitAtClosing] at e; split at e <;> simp at e
    | some x =>
      cases x with
      | none => rfl
      | some x => exact absurd e (h x.1 x.2)

/-- the three bracket kinds of the language -/
example : ['('] ≠ [')'] ∧ ['{'] ≠ ['}'] ∧ ['['] ≠ [']'] := by decide

example : splitRound [lpar, lpar, ⟨.identifier, ['a']⟩, rpar, rpar, ⟨.identifier, ['b']⟩] =
    some (some ([lpar, ⟨.identifier, ['a']⟩, rpar], [⟨.identifier, ['b']⟩])) := by decide +kernel

/-- C44: on a well-written expression, stripping removes all the parentheses round it and nothing else. -/
theorem C44_strip (e : Ex) (h : e.ok) : stripOfBrackets (write e) = some (write e.core) := strip_write e h

/-! ### C82: malformed brackets -/

/-- C82 is FALSE: `return x a + b )` is accepted and read as `a + b`: an unmatched closing bracket at the end makes the
first token count as an opening bracket, and both are thrown away. -/
theorem C82_refuted : ∃ ts : List Token, depth ['('] [')'] ts ≠ 0 ∧
    (parseExpression ts).bind denote = some (.add (.var ['a']) (.var ['b'])) ∧
    ts.map Token.text = [['x'], ['a'], ['+'], ['b'], [')']] :=
  ⟨[⟨.identifier, ['x']⟩, ⟨.identifier, ['a']⟩, arith '+', ⟨.identifier, ['b']⟩, rpar], by decide, by decide +kernel, by decide⟩

/-! ### C45 -/

/-- C45: a well-written expression is read as exactly the tree it shows, for every expression with calls, indices and
any nesting. -/
theorem C45_tree (e : Ex) (h : e.ok) : parseExpression (write e) = some (tree e) := parse_write e h

theorem denote_wrap (w : List Char) (c : Constraint) : denote (.mk ⟨.unassigned, w⟩ [c]) = denote c := by
  simp [denote]

theorem denote_tree : ∀ e : Ex, e.shows ≠ none → denote (tree e) = e.shows := by
  intro e
  induction e using Ex.rec (motive_2 := fun _ => True) with
  | num w => intro _; simp [tree, denote, Ex.shows]
  | var w => intro _; simp [tree, denote, Ex.shows]
  | bin op l r ihl ihr =>
    intro h
    have hl : l.shows ≠ none := fun hl => h (by simp [Ex.shows, hl])
    have hr : r.shows ≠ none := fun hr => h (by simp [Ex.shows, hr])
    have e1 : denote (if (!l.single && r.single) = true then .mk ⟨.unassigned, spell (write l.core)⟩ [tree l] else tree l) = l.shows := by
      split
      · rw [denote_wrap, ihl hl]
      · exact ihl hl
    have e2 : denote (if (l.single && !r.single) = true then .mk ⟨.unassigned, spell (write r.core)⟩ [tree r] else tree r) = r.shows := by
      split
      · rw [denote_wrap, ihr hr]
      · exact ihr hr
    simp only [tree, Ex.shows]
    simp only [denote, e1, e2]
    rfl
  | paren e ih => intro h; simp only [tree]; simp only [Ex.shows] at h ⊢; exact ih h
  | call => intro h; simp [Ex.shows] at h
  | arr => intro h; simp [Ex.shows] at h
  | nil => trivial
  | cons => trivial

/-- C45: an arithmetic expression, well written, is read as the operation tree it shows: parentheses are respected, and
an operator takes everything to its right. -/
theorem C45_shows (e : Ex) (h : e.ok) (x : Expr) (hx : e.shows = some x) :
    (parseExpression (write e)).bind denote = some x := by
  rw [parse_write e h, Option.bind_some, denote_tree e (by rw [hx]; simp), hx]

theorem full_ok : ∀ x : Expr, Plain x → (full x).ok ∧ (full x).shows = some x := by
  have hop : ∀ (c : Char), c ∈ ['+', '-', '*', '/'] → isOperator (arith c).type = true ∧ Inert (arith c).text := by
    intro c hc
    simp at hc
    rcases hc with rfl | rfl | rfl | rfl <;> decide
  have hbin : ∀ (c : Char) (a b : Ex), c ∈ ['+', '-', '*', '/'] → a.ok → b.ok → (Ex.bin (arith c) (.paren a) (.paren b)).ok := by
    intro c a b hc ha hb
    unfold Ex.ok
    exact ⟨(hop c hc).1, (hop c hc).2, rfl, by unfold Ex.ok; exact ha, by unfold Ex.ok; exact hb⟩
  intro x
  induction x with
  | num w => intro h; exact ⟨by unfold full Ex.ok; exact h, rfl⟩
  | var w => intro h; exact ⟨by unfold full Ex.ok; exact h, rfl⟩
  | add a b iha ihb =>
    intro h
    obtain ⟨h1, h2⟩ := iha h.1
    obtain ⟨h3, h4⟩ := ihb h.2
    exact ⟨hbin '+' _ _ (by decide) h1 h3, by simp [full, Ex.shows, h2, h4, opExpr, arith]⟩
  | sub a b iha ihb =>
    intro h
    obtain ⟨h1, h2⟩ := iha h.1
    obtain ⟨h3, h4⟩ := ihb h.2
    exact ⟨hbin '-' _ _ (by decide) h1 h3, by simp [full, Ex.shows, h2, h4, opExpr, arith]⟩
  | mul a b iha ihb =>
    intro h
    obtain ⟨h1, h2⟩ := iha h.1
    obtain ⟨h3, h4⟩ := ihb h.2
    exact ⟨hbin '*' _ _ (by decide) h1 h3, by simp [full, Ex.shows, h2, h4, opExpr, arith]⟩
  | div a b iha ihb =>
    intro h
    obtain ⟨h1, h2⟩ := iha h.1
    obtain ⟨h3, h4⟩ := ihb h.2
    exact ⟨hbin '/' _ _ (by decide) h1 h3, by simp [full, Ex.shows, h2, h4, opExpr, arith]⟩
  | baseMul a _ => intro h; exact h.elim
  | addGate a b _ _ => intro h; exact h.elim

/-- C45: every operation tree can be written so that it is read back: with all its parentheses. -/
theorem C45_parenthesised (x : Expr) (h : Plain x) : (parseExpression (write (full x))).bind denote = some x :=
  C45_shows _ (full_ok x h).1 x (full_ok x h).2

/-- names and numbers -/
def atom : Token → Option Expr
  | ⟨.number, w⟩ => some (.num w)
  | ⟨.identifier, w⟩ => some (.var w)
  | _ => none

/-- the expression shown by a chain -/
def chainEx (x : Token) : List (Char × Token) → Ex
  | [] => if x.type = .number then .num x.text else .var x.text
  | (o, y) :: more => .bin (arith o) (if x.type = .number then .num x.text else .var x.text) (chainEx y more)

/-- What is written `x₀ o₁ x₁ … oₙ xₙ` without parentheses is grouped FROM THE RIGHT and without precedence. -/
theorem C45_chain : ∀ (more : List (Char × Token)) (x : Token), (x.type = .number ∨ x.type = .identifier) →
    Inert x.text → (∀ p ∈ more, p.1 ∈ ['+', '-', '*', '/'] ∧ (p.2.type = .number ∨ p.2.type = .identifier) ∧ Inert p.2.text) →
    (parseExpression (chainTokens x more)).bind denote =
      (atom x).bind fun a => (more.mapM fun p => (atom p.2).map fun b => (p.1, b)).bind fun bs => groupRight a bs := by
  have hop : ∀ (c : Char), c ∈ ['+', '-', '*', '/'] → isOperator (arith c).type = true ∧ Inert (arith c).text := by
    intro c hc
    simp at hc
    rcases hc with rfl | rfl | rfl | rfl <;> decide
  have hat : ∀ x : Token, (x.type = .number ∨ x.type = .identifier) → Inert x.text →
      (if x.type = .number then Ex.num x.text else .var x.text).ok ∧
      write (if x.type = .number then Ex.num x.text else .var x.text) = [x] ∧
      (if x.type = .number then Ex.num x.text else .var x.text).closed = true ∧
      ∃ a, (if x.type = .number then Ex.num x.text else .var x.text).shows = some a ∧ atom x = some a := by
    rintro ⟨ty, w⟩ h hi
    rcases h with h | h
    · simp only at h; subst h
      exact ⟨by simp only [if_true]; unfold Ex.ok; exact hi, by simp [write], rfl, _, rfl, rfl⟩
    · simp only at h; subst h
      refine ⟨by rw [if_neg (by simp)]; unfold Ex.ok; exact hi, by simp [write], rfl, _, rfl, rfl⟩
  have key : ∀ (more : List (Char × Token)) (x : Token), (x.type = .number ∨ x.type = .identifier) → Inert x.text →
      (∀ p ∈ more, p.1 ∈ ['+', '-', '*', '/'] ∧ (p.2.type = .number ∨ p.2.type = .identifier) ∧ Inert p.2.text) →
      (chainEx x more).ok ∧ write (chainEx x more) = chainTokens x more ∧ ∃ a bs r, atom x = some a ∧
        (more.mapM fun p => (atom p.2).map fun b => (p.1, b)) = some bs ∧ groupRight a bs = some r ∧
        (chainEx x more).shows = some r := by
    intro more
    induction more with
    | nil =>
      intro x h hi _
      obtain ⟨h1, h2, _, a, h3, h4⟩ := hat x h hi
      exact ⟨h1, h2, a, [], a, h4, rfl, rfl, h3⟩
    | cons p more ih =>
      intro x h hi hm
      obtain ⟨h1, h2, hc, a, h3, h4⟩ := hat x h hi
      obtain ⟨o, y⟩ := p
      obtain ⟨ho, hy, hyi⟩ := hm (o, y) (by simp)
      obtain ⟨g1, g2, b, bs, r, g3, g4, g5, g6⟩ := ih y hy hyi (fun p hp => hm p (by simp [hp]))
      obtain ⟨res, hres⟩ : ∃ res, opExpr (arith o) a r = some res := by
        simp at ho
        rcases ho with rfl | rfl | rfl | rfl <;> simp [opExpr, arith]
      refine ⟨?_, ?_, a, (o, b) :: bs, res, h4, ?_, ?_, ?_⟩
      · unfold chainEx Ex.ok
        exact ⟨(hop o ho).1, (hop o ho).2, hc, h1, g1⟩
      · simp only [chainEx, write, chainTokens, h2, g2]; rfl
      · simp only [List.mapM_cons, g3, g4]; rfl
      · simp only [groupRight, g5, Option.bind_eq_bind, Option.bind_some, hres]
      · simp only [chainEx, Ex.shows, h3, g6, Option.bind_eq_bind, Option.bind_some, hres]
  intro more x h hi hm
  obtain ⟨h1, h2, a, bs, r, h3, h4, h5, h6⟩ := key more x h hi hm
  have := C45_shows _ h1 r h6
  rw [h2] at this
  rw [this, h3, h4]
  simp [h5]

/-- C45 is FALSE: `a - b - c` is read as `a - (b - c)` and `a * b + c` as `a * (b + c)`, and the values differ. -/
theorem C45_refuted :
    (parseExpression (chainTokens ⟨.identifier, ['a']⟩ [('-', ⟨.identifier, ['b']⟩), ('-', ⟨.identifier, ['c']⟩)])).bind denote
      = some (.sub (.var ['a']) (.sub (.var ['b']) (.var ['c']))) ∧
    (parseExpression (chainTokens ⟨.identifier, ['a']⟩ [('*', ⟨.identifier, ['b']⟩), ('+', ⟨.identifier, ['c']⟩)])).bind denote
      = some (.mul (.var ['a']) (.add (.var ['b']) (.var ['c']))) ∧
    (∀ (q : Nat) [Fact q.Prime], q ≠ 2 → ∀ gx : ZMod q → ZMod q, ∃ ρ : APS.Spec.Store q,
      APS.Spec.evalExpr gx ρ (.sub (.var ['a']) (.sub (.var ['b']) (.var ['c']))) ≠
        APS.Spec.evalExpr gx ρ (.sub (.sub (.var ['a']) (.var ['b'])) (.var ['c']))) := by
  refine ⟨by decide +kernel, by decide +kernel, ?_⟩
  intro q hq h2 gx
  refine ⟨fun n => if n = ['c'] then some 1 else some 0, ?_⟩
  simp only [APS.Spec.evalExpr]
  simp only [show (['a'] : List Char) ≠ ['c'] by decide, show (['b'] : List Char) ≠ ['c'] by decide, if_true, if_false]
  intro h
  have h' : (0 : ZMod q) - (0 - 1) = 0 - 0 - 1 := by
    simpa [bind, Except.bind, pure, Except.pure] using h
  have : (2 : ZMod q) = 0 := by linear_combination h'
  have h3 : ((2 : ℕ) : ZMod q) = 0 := by exact_mod_cast this
  rw [ZMod.natCast_eq_zero_iff] at h3
  exact h2 ((Nat.prime_dvd_prime_iff_eq hq.out Nat.prime_two).1 h3)

example : Plain (.sub (.sub (.var ['a']) (.var ['b'])) (.mul (.num ['3']) (.var ['c']))) := by
  unfold Plain Plain Plain; decide

/-- `f((a+b)*3, t[i])/2` -/
def sampleEx : Ex :=
  .bin (arith '/') (.call ['f'] [.bin (arith '*') (.paren (.bin (arith '+') (.var ['a']) (.var ['b']))) (.num ['3']),
    .arr ['t'] [.var ['i']]]) (.num ['2'])

example : sampleEx.ok := by
  unfold sampleEx
  simp only [Ex.ok, okAll, Ex.closed]
  decide

/-! ### C46 -/

/-- C46: the names of an array with the given dimensions are its name followed by the index tuples below the dimensions,
in lexicographic order (the last index runs fastest), each once; there are as many as the product of the dimensions. -/
theorem C46_names (ds : List Nat) (name : List Char) :
    arrayStringBuild ds name = (tuples ds).map (fun is => name ++ indexText is) ∧
    (∀ is, is ∈ tuples ds ↔ List.Forall₂ (· < ·) is ds) ∧
    (tuples ds).Pairwise (List.Lex (· < ·)) ∧
    (arrayStringBuild ds name).Nodup ∧
    (arrayStringBuild ds name).length = ds.prod :=
  ⟨arrayStringBuild_eq ds name, mem_tuples ds, tuples_sorted ds, build_nodup ds name, by
    rw [arrayStringBuild_eq, List.length_map, tuples_length]⟩

/-- C46: two elements have the same name only if they are the same element of the same array (a name contains no
bracket). -/
theorem C46_unambiguous {n m : List Char} (hn : '[' ∉ n) (hm : '[' ∉ m) {a b : List Nat} (ha : a ≠ []) (hb : b ≠ [])
    (h : n ++ indexText a = m ++ indexText b) : n = m ∧ a = b := names_inj hn hm ha hb h

example : arrayStringBuild [2, 2] ['a'] =
    ["a[0][0]".toList, "a[0][1]".toList, "a[1][0]".toList, "a[1][1]".toList] := by decide +kernel

end APS.Parse
