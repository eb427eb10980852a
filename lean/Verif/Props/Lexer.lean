import Verif.Proofs.LexMain
import Mathlib.Data.List.Chain

/-! Properties C42, C43 and C78–C81: the lexer. -/
namespace APS.LexProps
open APS.Lex APS.LexSpec

/-! ## C42 -/

/-- C42: the lexer closes its channel after the tokens `toks` exactly when the text consists of these tokens in the
sense of the grammar `Lexes`. -/
theorem C42_exact (src : List Char) (toks : List Token) : TokenizesTo src toks ↔ Lexes src toks := by
  unfold TokenizesTo
  rw [tokenize_iff]
  constructor
  · rintro ⟨ts, h, hl⟩
    cases h
    exact hl
  · intro h
    exact ⟨toks, rfl, h⟩

/-- C42: the tokens, with blanks and quotes put back, spell the text.  (Comments are tokens of the lexer.) -/
theorem C42_spells (src : List Char) (toks : List Token) (h : TokenizesTo src toks) : Spells toks src :=
  spells_of ((C42_exact src toks).1 h)

/-- C42: every supported text is read, as one token list only. -/
theorem C42_supported (src : List Char) (h : supported src = true) : ∃! toks, TokenizesTo src toks := by
  obtain ⟨ts, hl⟩ := supported_lexes src.length src le_rfl h
  refine ⟨ts, (C42_exact _ _).2 hl, ?_⟩
  rintro ts' ⟨n, hn⟩
  obtain ⟨m, hm⟩ := (C42_exact _ _).2 hl
  have := RunsTo.det ⟨n, hn⟩ ⟨m, hm⟩
  cases this
  rfl

/-- a text with a keyword, a call, quotes, a two-character operator, a comment and line breaks -/
example : supported "func f(x){ import \"a b\" # c\n return x>=2}".toList = true ∧
    TokenizesTo "func f(x){ import \"a b\" # c\n return x>=2}".toList
      [⟨.functionDefine, "func".toList⟩, ⟨.functionCall, "f".toList⟩, ⟨.syntax, "(".toList⟩, ⟨.identifier, "x".toList⟩,
       ⟨.syntax, ")".toList⟩, ⟨.syntax, "{".toList⟩, ⟨.imprt, "import".toList⟩, ⟨.identifier, "a b".toList⟩,
       ⟨.comment, "# c".toList⟩, ⟨.syntax, "\n".toList⟩, ⟨.ret, "return".toList⟩, ⟨.identifier, "x".toList⟩,
       ⟨.comparator, ">=".toList⟩, ⟨.number, "2".toList⟩, ⟨.syntax, "}".toList⟩] :=
  ⟨by decide +kernel, 60, by decide +kernel⟩

/-! ## C43 -/

/-- C43, the exact set of texts the lexer ends on. -/
theorem C43_exact (src : List Char) : Terminates src ↔ supported src = true := by
  constructor
  · rintro ⟨n, o, h⟩
    obtain ⟨ts, _, hl⟩ := (tokenize_iff src o).1 ⟨n, h⟩
    exact lexes_supported hl
  · intro h
    obtain ⟨ts, hl⟩ := supported_lexes src.length src le_rfl h
    obtain ⟨n, hn⟩ := (tokenize_iff src _).2 ⟨ts, rfl, hl⟩
    exact ⟨n, _, hn⟩

/-- C43: the lexer never panics, on any text and at any point of its run: what stops it is the end of the text only. -/
theorem C43_no_panic (src : List Char) (fuel : Nat) (toks : List Token) :
    tokenize fuel src ≠ some (.panicked toks) := by
  intro h
  obtain ⟨ts, hp, _⟩ := (tokenize_iff src _).1 ⟨fuel, h⟩
  cases hp

/-- C43 as stated fails: the lexer runs for ever on a text with an unsupported character, a lone `&`, or an open quote. -/
theorem C43_refuted : ¬ (∀ src, Terminates src) ∧
    ¬ Terminates "a $ b".toList ∧ ¬ Terminates "a & b".toList ∧ ¬ Terminates "import \"x".toList := by
  have h1 : ¬ Terminates "a $ b".toList := by rw [C43_exact]; decide +kernel
  refine ⟨fun h => h1 (h _), h1, ?_, ?_⟩
  · rw [C43_exact]; decide +kernel
  · rw [C43_exact]; decide +kernel

/-- C43 without the exceptions: no quote, comment sign, `&`, `|`, `!`, and only supported characters. -/
theorem C43_ordinary (src : List Char) (h : ∀ c ∈ src, ordinary c = true) : Terminates src := by
  rw [C43_exact]
  unfold supported
  have := sup_ords src [] h
  rw [List.append_nil] at this
  rw [this]
  simp [supportedFrom]

example : Terminates "var a = b[2]*(c+d_1)\n\n".toList := C43_ordinary _ (by decide +kernel)

/-! ## C78: what the parser gets -/

theorem nextTokens_filter (p : Token → Bool) (hp : ∀ t : Token, t.text = ['\n'] → p t = false) :
    ∀ (b : Bool) (toks : List Token), (nextTokens b toks).filter p = toks.filter p := by
  intro b toks
  induction toks generalizing b with
  | nil => cases b <;> rfl
  | cons t ts ih =>
    unfold nextTokens
    split_ifs with h1 h2
    · rw [ih, List.filter_cons, hp t h1]; simp
    · rw [List.filter_cons, List.filter_cons, ih]
    · rw [List.filter_cons, List.filter_cons, ih]

/-- C78: except for line breaks and comments the parser gets every token of the lexer, in order, and a final `EOF`. -/
theorem C78_tokens_kept (toks : List Token) :
    (stackAllTokens toks).filter (fun t => t.text != ['\n']) =
      toks.filter (fun t => t.text != ['\n'] && t.type != .comment) ++ [⟨.eof, []⟩] := by
  unfold stackAllTokens
  rw [List.filter_append, List.filter_filter]
  rw [nextTokens_filter _ (by intro t ht; simp [ht])]
  rfl

def isBreak (t : Token) : Prop := t.text = ['\n']

/-- no two line breaks in a row -/
def Single (toks : List Token) : Prop := ∀ a t t' b, toks = a ++ t :: t' :: b → ¬ (isBreak t ∧ isBreak t')

theorem single_chain (toks : List Token) : Single toks ↔ List.IsChain (fun t t' => ¬ (isBreak t ∧ isBreak t')) toks := by
  rw [List.isChain_iff_forall_rel_of_append_cons_cons]
  unfold Single
  constructor
  · intro h a b l₁ l₂ e; exact h _ _ _ _ e
  · intro h a t t' b e; exact h e

theorem nextTokens_chain : ∀ (toks : List Token) (b : Bool),
    List.IsChain (fun t t' => ¬ (isBreak t ∧ isBreak t')) (nextTokens b toks) ∧
    (b = true → ∀ t, (nextTokens b toks).head? = some t → ¬ isBreak t) := by
  intro toks
  induction toks with
  | nil => intro b; cases b <;> simp [nextTokens]
  | cons t ts ih =>
    intro b
    unfold nextTokens
    split_ifs with h1 h2
    · exact ⟨(ih true).1, fun _ => (ih true).2 rfl⟩
    · refine ⟨?_, fun h => absurd h h2⟩
      rw [List.isChain_cons]
      refine ⟨?_, (ih true).1⟩
      intro y hy
      rintro ⟨_, hb⟩
      exact (ih true).2 rfl y hy hb
    · refine ⟨?_, fun _ u hu => ?_⟩
      · rw [List.isChain_cons]
        refine ⟨?_, (ih false).1⟩
        intro y hy
        rintro ⟨hb, _⟩
        exact h1 hb
      · simp at hu; subst hu; exact h1

/-- C78: the parser never gets two line breaks in a row if the text has no comments. -/
theorem C78_single_breaks_partial (toks : List Token) (h : ∀ t ∈ toks, t.type ≠ .comment) : Single (stackAllTokens toks) := by
  rw [single_chain]
  unfold stackAllTokens
  have hf : (nextTokens false toks).filter (fun t => t.type != .comment) = nextTokens false toks := by
    rw [List.filter_eq_self]
    have : ∀ (l : List Token) b, ∀ t ∈ nextTokens b l, t ∈ l := by
      intro l
      induction l with
      | nil => intro b; cases b <;> simp [nextTokens]
      | cons t ts ih =>
        intro b u hu
        unfold nextTokens at hu
        split_ifs at hu
        · exact List.mem_cons_of_mem _ (ih _ _ hu)
        · rcases List.mem_cons.1 hu with rfl | hu
          · simp
          · exact List.mem_cons_of_mem _ (ih _ _ hu)
        · rcases List.mem_cons.1 hu with rfl | hu
          · simp
          · exact List.mem_cons_of_mem _ (ih _ _ hu)
    intro t ht
    have := h t (this _ _ _ ht)
    simpa using this
  rw [hf, List.isChain_append]
  refine ⟨(nextTokens_chain toks false).1, by simp, ?_⟩
  intro x _ y hy
  simp at hy
  subst hy
  rintro ⟨_, hb⟩
  simp [isBreak] at hb

/-- C78 fails with comments: a comment line leaves two line breaks in a row. -/
theorem C78_single_breaks_refuted : ∃ toks, TokenizesTo "a\n#c\nb".toList toks ∧ ¬ Single (stackAllTokens toks) := by
  refine ⟨[⟨.identifier, ['a']⟩, ⟨.syntax, ['\n']⟩, ⟨.comment, ['#', 'c']⟩, ⟨.syntax, ['\n']⟩, ⟨.identifier, ['b']⟩],
    ⟨30, by decide +kernel⟩, ?_⟩
  intro h
  exact h [⟨.identifier, ['a']⟩] ⟨.syntax, ['\n']⟩ ⟨.syntax, ['\n']⟩ [⟨.identifier, ['b']⟩, ⟨.eof, []⟩] rfl ⟨rfl, rfl⟩

/-! ## C79: the synchronous mode -/

/-- `StartSync` returns -/
def SyncReturns (src : List Char) : Prop := ∃ fuel o, startSync fuel src = some o

/-- C79, exactly: `StartSync` returns iff the text is supported and has no more tokens than half its bytes (but one
token is always allowed). -/
theorem C79_exact (src : List Char) : SyncReturns src ↔
    ∃ toks, TokenizesTo src toks ∧ (toks.length ≤ 1 ∨ 2 * toks.length ≤ (src.map Char.utf8Size).sum) := by
  have hb : ∀ n : Nat, n ≤ bufSize src ↔ (n ≤ 1 ∨ 2 * n ≤ (src.map Char.utf8Size).sum) := by
    intro n
    unfold bufSize
    simp only
    split_ifs <;> omega
  constructor
  · rintro ⟨n, o, h⟩
    unfold startSync at h
    cases e : tokenize n src with
    | none => rw [e] at h; simp at h
    | some o' =>
      rw [e] at h
      cases o' with
      | closed toks =>
        simp only at h
        split_ifs at h with hl
        exact ⟨toks, ⟨n, e⟩, (hb _).1 hl⟩
      | panicked toks => exact absurd e (C43_no_panic _ _ _)
  · rintro ⟨toks, ⟨n, hn⟩, h⟩
    refine ⟨n, .closed toks, ?_⟩
    unfold startSync
    rw [hn]
    simp only
    rw [if_pos ((hb _).2 h)]

/-- C79 fails: `StartSync` blocks for ever on `a+b`, a supported text. -/
theorem C79_refuted : supported "a+b".toList = true ∧ ¬ SyncReturns "a+b".toList := by
  refine ⟨by decide +kernel, ?_⟩
  rw [C79_exact]
  rintro ⟨toks, ht, h⟩
  have : TokenizesTo "a+b".toList [⟨.identifier, ['a']⟩, ⟨.arithmetic, ['+']⟩, ⟨.identifier, ['b']⟩] :=
    ⟨20, by decide +kernel⟩
  obtain ⟨ts, _, hu⟩ := C42_supported "a+b".toList (by decide +kernel)
  rw [hu _ ht, ← hu _ this] at h
  revert h
  decide +kernel

example : SyncReturns "alpha + beta".toList :=
  (C79_exact _).2 ⟨_, ⟨30, show tokenize 30 "alpha + beta".toList = some (.closed [⟨.identifier, "alpha".toList⟩,
    ⟨.arithmetic, ['+']⟩, ⟨.identifier, "beta".toList⟩]) by decide +kernel⟩, by decide +kernel⟩

/-! ## C80: blanks do not matter -/

/-- C80: blanks in front of a text change nothing. -/
theorem C80_leading_blanks_partial (c : Char) (hc : Blank c) (src : List Char) (hne : src ≠ []) (toks : List Token) :
    TokenizesTo (c :: src) toks ↔ TokenizesTo src toks := by
  rw [C42_exact, C42_exact]
  constructor
  · intro h
    generalize hs : c :: src = s at h
    cases h with
    | eof => simp at hs
    | blank _ _ hl => simp at hs; rw [hs.2]; exact hl
    | blankEnd => simp at hs; exact absurd hs.2 hne
    | token hp => exact absurd ⟨c, src, hs.symm, hc⟩ (piece_not_blank hp)
  · exact .blank hc hne

/-- C80 fails at the end of a text: a blank there makes an identifier with an empty name. -/
theorem C80_trailing_blank_refuted :
    TokenizesTo "f(x)".toList [⟨.functionCall, ['f']⟩, ⟨.syntax, ['(']⟩, ⟨.identifier, ['x']⟩, ⟨.syntax, [')']⟩] ∧
    TokenizesTo "f(x) ".toList [⟨.functionCall, ['f']⟩, ⟨.syntax, ['(']⟩, ⟨.identifier, ['x']⟩, ⟨.syntax, [')']⟩,
      ⟨.identifier, []⟩] :=
  ⟨⟨30, by decide +kernel⟩, ⟨30, by decide +kernel⟩⟩

theorem lexes_token {s : List Char} {t : Token} {r : List Char} (hp : Piece s t r) (T : List Token) :
    Lexes s T ↔ ∃ toks, T = t :: toks ∧ Lexes r toks := by
  constructor
  · intro h
    have hr := lexes_runs h [] []
    have hne : s ≠ [] := by intro h; have := piece_len hp; rw [h] at this; simp at this
    rw [probably_ident (piece_not_blank hp) hne] at hr
    obtain ⟨pre', h'⟩ := piece_run hp [] []
    rw [h'] at hr
    obtain ⟨ts, ho, hl⟩ := runs_lexes r.length r le_rfl _ _ _ hr
    exact ⟨ts, by simpa using ho, hl⟩
  · rintro ⟨toks, rfl, h⟩
    exact .token hp h

theorem lexes_blank {c : Char} (hc : Blank c) {r : List Char} (hne : r ≠ []) (T : List Token) :
    Lexes (c :: r) T ↔ Lexes r T := by
  rw [← C42_exact, ← C42_exact]
  exact C80_leading_blanks_partial c hc r hne T

/-- a token is not affected by what follows the first character after it -/
theorem piece_follow {a x : List Char} {t : Token} (h : Piece (a ++ x) t x) {y : List Char}
    (hy : ∀ P : Char → Prop, Starts P x ↔ Starts P y) (h0 : x = [] → y = []) : Piece (a ++ y) t y := by
  generalize hs : a ++ x = s at h
  cases h with
  | @number w r hne hw hr =>
    rw [List.append_cancel_right hs]
    exact .number hne hw (by rwa [← hy])
  | @punct c r hp =>
    rw [show a = [c] from List.append_cancel_right (by simpa using hs)]
    exact .punct hp
  | @quoted w r hw =>
    rw [show a = '"' :: (w ++ ['"']) from List.append_cancel_right (by simpa using hs)]
    have := Piece.quoted (r := y) hw
    simpa using this
  | @op2 c b t r hm =>
    rw [show a = [c, b] from List.append_cancel_right (by simpa using hs)]
    exact .op2 hm
  | @op1 c t r hm hr =>
    rw [show a = [c] from List.append_cancel_right (by simpa using hs)]
    exact .op1 (r := y) hm (by rwa [← hy])
  | @comment w r hw hr =>
    rw [show a = '#' :: w from List.append_cancel_right (by simpa using hs)]
    exact .comment hw (hr.imp h0 (hy _).1)
  | @word w r t hne hw hd hr ht =>
    rw [List.append_cancel_right hs]
    refine .word hne hw hd (by rwa [← hy]) ?_
    cases ht with
    | keyword h => exact .keyword h
    | call h h' => exact .call h ((hy _).1 h')
    | name h h' => exact .name h (by rwa [← hy])

/-- a token that is neither a comment nor a called name is not affected by a blank put behind it -/
theorem piece_then_blank {a x : List Char} {t : Token} (h : Piece (a ++ x) t x) (h1 : t.type ≠ .comment)
    (h2 : t.type ≠ .functionCall) {c : Char} (hc : Blank c) : Piece (a ++ c :: x) t (c :: x) := by
  have ns : ∀ P : Char → Prop, (∀ d, P d → ¬ Blank d) → ¬ Starts P (c :: x) := by
    rintro P hP ⟨d, r, he, hd⟩
    cases he
    exact hP _ hd hc
  generalize hs : a ++ x = s at h
  cases h with
  | @number w r hne hw hr =>
    rw [List.append_cancel_right hs]
    exact .number hne hw (ns _ fun d hd => word_not_blank (digit_word hd))
  | @punct c r hp =>
    rw [show a = [c] from List.append_cancel_right (by simpa using hs)]
    exact .punct hp
  | @quoted w r hw =>
    rw [show a = '"' :: (w ++ ['"']) from List.append_cancel_right (by simpa using hs)]
    have := Piece.quoted (r := c :: x) hw
    simpa using this
  | @op2 c b t r hm =>
    rw [show a = [c, b] from List.append_cancel_right (by simpa using hs)]
    exact .op2 hm
  | @op1 e t r hm hr =>
    rw [show a = [e] from List.append_cancel_right (by simpa using hs)]
    refine .op1 hm (ns _ ?_)
    rintro d ⟨t', hd⟩ hb
    rcases hb with rfl | rfl | rfl <;> simp [operators] at hd
  | comment => exact absurd rfl h1
  | @word w r t hne hw hd hr ht =>
    rw [List.append_cancel_right hs]
    refine .word hne hw hd (ns _ fun d hd => word_not_blank hd) ?_
    cases ht with
    | keyword h => exact .keyword h
    | call h h' => exact absurd rfl h2
    | name h h' =>
      refine .name h (ns _ ?_)
      rintro d rfl hb
      rcases hb with hb | hb | hb <;> simp at hb

theorem reads_blank {p : List Char} {toks : List Token} {r : List Char} (h : Reads p toks r) {c : Char} (hc : Blank c)
    (hl : ∀ t ∈ toks.getLast?, t.type ≠ .comment ∧ t.type ≠ .functionCall) : Reads p toks (c :: r) := by
  induction h with
  | nil => exact .nil
  | blank hb _ ih => exact .blank hb (ih hl)
  | @token a p t toks r hp hr ih =>
    have ih := ih (by
      intro u hu
      refine hl u ?_
      rw [List.getLast?_cons, Option.mem_def.1 hu]
      rfl)
    refine .token ?_ ih
    cases p with
    | nil =>
      cases toks with
      | nil => exact piece_then_blank hp (hl t (by simp)).1 (hl t (by simp)).2 hc
      | cons t' toks =>
        exfalso
        generalize hq : ([] : List Char) = q at hr
        cases hr with
        | blank => simp at hq
        | @token a' p' _ _ _ hp' hr' =>
          have := piece_len hp'
          simp at hq
          simp [hq] at this
    | cons d p =>
      refine piece_follow hp ?_ (by simp)
      intro P
      simp [Starts]

theorem reads_lexes {p : List Char} {toks : List Token} {r : List Char} (h : Reads p toks r) (hne : r ≠ [])
    (T : List Token) : Lexes (p ++ r) T ↔ ∃ T', T = toks ++ T' ∧ Lexes r T' := by
  induction h generalizing T with
  | nil => simp
  | blank hb _ ih =>
    rw [List.cons_append, lexes_blank hb (by simp [hne]), ih hne]
  | token hp _ ih =>
    rw [List.append_assoc, lexes_token hp]
    constructor
    · rintro ⟨T', rfl, h'⟩
      obtain ⟨T'', rfl, h''⟩ := (ih hne _).1 h'
      exact ⟨T'', rfl, h''⟩
    · rintro ⟨T', rfl, h'⟩
      exact ⟨_, rfl, (ih hne _).2 ⟨_, rfl, h'⟩⟩

/-- C80: a blank may be put after any token of a text (and before the first one) without changing the tokens, unless this
token is a comment or the name of a call, or nothing follows it.  Read from right to left: a blank that follows such a
token, and is followed by something, may be removed. -/
theorem C80_between {p r : List Char} {read : List Token} (hr : Reads p read r) (hne : r ≠ []) (c : Char) (hc : Blank c)
    (hl : ∀ t ∈ read.getLast?, t.type ≠ .comment ∧ t.type ≠ .functionCall) (toks : List Token) :
    TokenizesTo (p ++ c :: r) toks ↔ TokenizesTo (p ++ r) toks := by
  rw [C42_exact, C42_exact, reads_lexes hr hne, reads_lexes (reads_blank hr hc hl) (by simp)]
  simp only [lexes_blank hc hne]

/-- `a+` is read from `a+b` as a name and an operator, and `a + b` has the tokens of `a+b` -/
example (toks : List Token) : TokenizesTo "a+ b".toList toks ↔ TokenizesTo "a+b".toList toks := by
  have h2 : Reads ['+'] [⟨.arithmetic, ['+']⟩] ['b'] :=
    .token (a := ['+']) (p := []) (.op1 (by decide) (by rintro ⟨b, r, h, t, hb⟩; cases h; simp [operators] at hb)) .nil
  have h1 : Reads (['a'] ++ ['+']) [⟨.identifier, ['a']⟩, ⟨.arithmetic, ['+']⟩] ['b'] := by
    refine .token (a := ['a']) (.word (by simp) (by simp [WordChar, Letter]) ?_ ?_ (.name (by simp [keywords]) ?_)) h2
    · rintro ⟨b, r, h, hb⟩; cases h; exact absurd hb (by simp [Digit])
    · rintro ⟨b, r, h, hb⟩; cases h; exact absurd hb (by simp [WordChar, Letter, Digit])
    · rintro ⟨b, r, h, hb⟩; cases h; exact absurd hb (by decide)
  exact C80_between h1 (by simp) ' ' (.inl rfl) (by simp) toks

/-- C80 fails between the name of a function and the bracket: with a blank there the call is a plain name. -/
theorem C80_call_refuted :
    TokenizesTo "f(x)".toList [⟨.functionCall, ['f']⟩, ⟨.syntax, ['(']⟩, ⟨.identifier, ['x']⟩, ⟨.syntax, [')']⟩] ∧
    TokenizesTo "f (x)".toList [⟨.identifier, ['f']⟩, ⟨.syntax, ['(']⟩, ⟨.identifier, ['x']⟩, ⟨.syntax, [')']⟩] :=
  ⟨⟨30, by decide +kernel⟩, ⟨30, by decide +kernel⟩⟩

/-! ## C81: the asynchronous mode -/

theorem pipe_inv {cap n : Nat} {toks : List Token} {s : Pipe} (h : PipeSteps cap n (Pipe.initial toks) s) :
    s.received ++ s.buffer ++ s.todo = toks ∧ (s.closed = true → s.todo = []) ∧
    (s.finished = true → s.closed = true ∧ s.buffer = []) ∧
    n + 2 * s.todo.length + s.buffer.length + (if s.closed then 0 else 1) + (if s.finished then 0 else 1)
      = 2 * toks.length + 2 := by
  generalize hi : Pipe.initial toks = i at h
  induction h with
  | refl => subst hi; simp [Pipe.initial]
  | step _ hst ih =>
    obtain ⟨h1, h2, h3, h4⟩ := ih hi
    cases hst with
    | send hb =>
      refine ⟨by simpa using h1, by simp, fun hf => ?_, ?_⟩
      · exact absurd (h3 hf).1 (by simp)
      · simp at h4 ⊢; omega
    | close => exact ⟨by simpa using h1, by simp, fun hf => by simpa using (h3 hf).2, by simp at h4 ⊢; omega⟩
    | recv => exact ⟨by simpa using h1, h2, by simp, by simp at h4 ⊢; omega⟩
    | done => exact ⟨by simpa using h1, h2, by simp, by simp at h4 ⊢; omega⟩

/-- C81: whatever the schedule and the size of the buffer, what the reader has received is a beginning of the token
list; once it has seen the end of the channel it is the whole list. -/
theorem C81_order {cap n : Nat} {toks : List Token} {s : Pipe} (h : PipeSteps cap n (Pipe.initial toks) s) :
    s.received <+: toks ∧ (s.finished = true → s.received = toks) := by
  obtain ⟨h1, h2, h3, _⟩ := pipe_inv h
  refine ⟨⟨s.buffer ++ s.todo, by simpa using h1⟩, fun hf => ?_⟩
  obtain ⟨hc, hb⟩ := h3 hf
  rw [hb, h2 hc] at h1
  simpa using h1

/-- C81: no schedule deadlocks (the buffer has at least one place), and every schedule is over after `2·tokens + 2`
steps. -/
theorem C81_live {cap n : Nat} (hcap : 1 ≤ cap) {toks : List Token} {s : Pipe}
    (h : PipeSteps cap n (Pipe.initial toks) s) :
    n ≤ 2 * toks.length + 2 ∧ (s.finished = true ∨ ∃ s', PipeStep cap s s') := by
  obtain ⟨h1, h2, h3, h4⟩ := pipe_inv h
  refine ⟨by omega, ?_⟩
  obtain ⟨todo, buffer, closed, received, finished⟩ := s
  cases finished with
  | true => exact Or.inl rfl
  | false =>
    right
    cases buffer with
    | cons t b => exact ⟨_, .recv⟩
    | nil =>
      cases closed with
      | true => exact ⟨_, .done⟩
      | false =>
        cases todo with
        | nil => exact ⟨_, .close⟩
        | cons t ts => exact ⟨_, .send (by simp; omega)⟩

/-- the buffer `Start` makes has a place -/
theorem C81_buffer (src : List Char) : 1 ≤ bufSize src := by
  unfold bufSize
  simp only
  split_ifs <;> omega

/-- a finished run with two tokens through a buffer of one -/
example : ∃ n s, PipeSteps 1 n (Pipe.initial [⟨.number, ['1']⟩, ⟨.number, ['2']⟩]) s ∧ s.finished = true :=
  ⟨_, _, .step (.step (.step (.step (.step (.step .refl (.send (by decide))) .recv) (.send (by decide))) .close) .recv) .done,
    rfl⟩

end APS.LexProps
