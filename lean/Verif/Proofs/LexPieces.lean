import Verif.Proofs.LexSteps

/-! `IdentState` reads exactly one piece. -/
namespace APS.Lex
open APS.LexSpec

theorem ident_unfold (n pre rest out) : identState n (st pre rest out) =
    if (rest.head?.map isDigit).getD false then some (st pre rest out, .number)
    else if containsRune syntaxTokens rest.head? then some ((st pre rest out).next.2.emit .syntax, .probablyWhitespace)
    else if rest.head? = some '"' then
      match quoteLoop n (st pre rest out).next.2.ignore with
      | none => none
      | some l => some ((l.emit .identifier).next.2.ignore, .probablyWhitespace)
    else
      match lookupTwo (rest.head?, rest.tail.head?) with
      | some t => some ((st pre rest out).next.2.next.2.emit t, .probablyWhitespace)
      | none =>
        match lookupOne rest.head? with
        | some t => some ((st pre rest out).next.2.emit t, .probablyWhitespace)
        | none =>
          if rest.head? = some '#' then some ((st pre rest out).readCommentLine.emit .comment, .whitespace)
          else some (wordState (st pre rest out)) := by
  simp only [identState, st, peek_eq, peekTwo_eq]
  rfl

theorem not_digit_of_plain_word {c : Char} (h : ¬ Digit c) : isDigit c = false := by
  rw [← isDigit_iff] at h; simpa using h

theorem not_punct {c : Char} (h : ¬ Punct c) : containsRune syntaxTokens (some c) = false := by
  rw [← punct_mem] at h; simpa [containsRune] using h

theorem digit_word {c : Char} (h : Digit c) : WordChar c := Or.inr (Or.inl h)

/-- the characters of operators, quotes, comments and marks are no digits -/
theorem not_digit_of_not_word {c : Char} (h : ¬ WordChar c) : ¬ Digit c := fun hd => h (digit_word hd)

theorem word_dec (d : Char) (hd : (isLetter d || isDigit d || d == '_') = false) : ¬ WordChar d := by
  intro hw
  rcases hw with hw | hw | hw
  · simp [(isLetter_iff d).2 hw] at hd
  · simp [(isDigit_iff d).2 hw] at hd
  · simp [hw] at hd

theorem punct_not_digit {c : Char} (h : Punct c) : ¬ Digit c := by
  apply not_digit_of_not_word
  rcases h with rfl|rfl|rfl|rfl|rfl|rfl|rfl|rfl|rfl|rfl <;> exact word_dec _ (by decide)

theorem op_char {c : Char} {w t} (h : operationMap (c :: w) = some t) : ¬ Digit c ∧ ¬ Punct c ∧ c ≠ '"' ∧ c ≠ '#' := by
  have hd : ∀ d : Char, isDigit d = false → ¬ Digit d := by
    intro d h1 h2; rw [← isDigit_iff] at h2; simp [h2] at h1
  have hp : ∀ d : Char, syntaxTokens.contains d = false → ¬ Punct d := by
    intro d h1 h2; rw [← punct_mem] at h2; rw [h2] at h1; simp at h1
  rcases opHead h with rfl|rfl|rfl|rfl|rfl|rfl|rfl|rfl|rfl|rfl <;>
    exact ⟨hd _ (by decide), hp _ (by decide), by decide, by decide⟩

theorem ident_number {c : Char} (hc : Digit c) (n pre cs out) :
    identState n (st pre (c :: cs) out) = some (st pre (c :: cs) out, .number) := by
  rw [ident_unfold]
  simp [(isDigit_iff c).2 hc]

theorem ident_punct {c : Char} (hc : Punct c) (n pre cs out) :
    identState n (st pre (c :: cs) out) = some (st (pre ++ [c]) cs (out ++ [⟨.syntax, [c]⟩]), .probablyWhitespace) := by
  rw [ident_unfold]
  have h1 := not_digit_of_plain_word (punct_not_digit hc)
  have h2 : containsRune syntaxTokens (some c) = true := punct_mem.2 hc
  have h3 : (st pre (c :: cs) out).next.2.emit .syntax = st (pre ++ [c]) cs (out ++ [⟨.syntax, [c]⟩]) := by
    unfold st; rw [next_cons, emit_mid]; rfl
  simp [h1, h2, h3]

theorem quoteLoop_ok (w : List Char) : '"' ∉ w → ∀ (n pre v r rw out), w.length < n →
    ∃ rw', quoteLoop n (mid pre v (w ++ '"' :: r) rw out) = some (mid pre (v ++ w) ('"' :: r) rw' out) := by
  induction w with
  | nil =>
    intro _ n pre v r rw out hn
    match n, hn with
    | n + 1, _ => exact ⟨rw, by simp [quoteLoop, peek_cons]⟩
  | cons c w ih =>
    intro hw n pre v r rw out hn
    match n, hn with
    | n + 1, hn =>
      obtain ⟨rw', h⟩ := ih (by simp at hw; exact hw.2) n pre (v ++ [c]) r (some c :: rw) out (by simpa using hn)
      refine ⟨rw', ?_⟩
      have hc : c ≠ '"' := by simp at hw; exact fun h => hw.1 h.symm
      simp only [List.cons_append, quoteLoop, peek_cons, next_cons]
      rw [if_pos (by simpa using hc), h]
      simp

theorem quoteLoop_none : ∀ (n : Nat) (w : List Char), '"' ∉ w → ∀ (pre v rw out),
    quoteLoop n (mid pre v w rw out) = none := by
  intro n
  induction n with
  | zero => intros; rfl
  | succ n ih =>
    intro w hw pre v rw out
    cases w with
    | nil =>
      simp only [quoteLoop, peek_nil, next_nil]
      rw [if_pos (by simp)]
      exact ih [] (by simp) _ _ _ _
    | cons c w =>
      have hc : c ≠ '"' := by simp at hw; exact fun h => hw.1 h.symm
      simp only [quoteLoop, peek_cons, next_cons]
      rw [if_pos (by simpa using hc)]
      exact ih w (by simp at hw; exact hw.2) _ _ _ _

theorem ident_quote_eq (n pre cs out) : identState n (st pre ('"' :: cs) out) =
      match quoteLoop n (mid (pre ++ ['"']) [] cs [] out) with
      | none => none
      | some l => some ((l.emit .identifier).next.2.ignore, .probablyWhitespace) := by
  rw [ident_unfold]
  have h1 : isDigit '"' = false := by decide
  have h2 : containsRune syntaxTokens (some '"') = false := by decide
  have h3 : (st pre ('"' :: cs) out).next.2.ignore = mid (pre ++ ['"']) [] cs [] out := by
    unfold st; rw [next_cons, ignore_mid]; rfl
  simp [h1, h2, h3]

theorem ident_quoted {w : List Char} (hw : '"' ∉ w) (pre r out) :
    identState (w.length + 1) (st pre ('"' :: (w ++ '"' :: r)) out) =
      some (st (pre ++ ['"'] ++ w ++ ['"']) r (out ++ [⟨.identifier, w⟩]), .probablyWhitespace) := by
  rw [ident_quote_eq]
  obtain ⟨rw', h⟩ := quoteLoop_ok w hw (w.length + 1) (pre ++ ['"']) [] r [] out (by omega)
  rw [h]
  simp only [List.nil_append, emit_mid]
  unfold st
  rw [next_cons, ignore_mid]
  rfl

theorem ident_op2 {a b : Char} {t} (h : operationMap [a, b] = some t) (n pre r out) :
    identState n (st pre (a :: b :: r) out) =
      some (st (pre ++ [a, b]) r (out ++ [⟨t, [a, b]⟩]), .probablyWhitespace) := by
  rw [ident_unfold]
  obtain ⟨h1, h2, h3, _⟩ := op_char h
  have h1 := not_digit_of_plain_word h1
  have h2 := not_punct h2
  have h4 : (st pre (a :: b :: r) out).next.2.next.2.emit t = st (pre ++ [a, b]) r (out ++ [⟨t, [a, b]⟩]) := by
    unfold st; rw [next_cons, next_cons, emit_mid]; rfl
  have h5 : lookupTwo (some a, some b) = some t := h
  simp [h1, h2, h3, h4, h5]

theorem ident_op1 {a : Char} {t} (h : operationMap [a] = some t) {r : List Char}
    (hr : ∀ b, r.head? = some b → operationMap [a, b] = none) (n pre out) :
    identState n (st pre (a :: r) out) = some (st (pre ++ [a]) r (out ++ [⟨t, [a]⟩]), .probablyWhitespace) := by
  rw [ident_unfold]
  obtain ⟨h1, h2, h3, _⟩ := op_char h
  have h1 := not_digit_of_plain_word h1
  have h2 := not_punct h2
  have h4 : (st pre (a :: r) out).next.2.emit t = st (pre ++ [a]) r (out ++ [⟨t, [a]⟩]) := by
    unfold st; rw [next_cons, emit_mid]; rfl
  have h5 : lookupTwo (some a, r.head?) = none := by
    cases e : r.head? with
    | none => rfl
    | some b => exact hr b e
  have h6 : lookupOne (some a) = some t := h
  simp [h1, h2, h3, h4, h5, h6]

theorem ident_comment {w r : List Char} (hw : '\n' ∉ w) (hr : r = [] ∨ Starts (· = '\n') r) (n pre out) :
    identState n (st pre ('#' :: (w ++ r)) out) =
      some (st (pre ++ '#' :: w) r (out ++ [⟨.comment, '#' :: w⟩]), .whitespace) := by
  rw [ident_unfold]
  have h1 : isDigit '#' = false := by decide
  have h2 : containsRune syntaxTokens (some '#') = false := by decide
  have h3 : lookupTwo (some '#', (w ++ r).head?) = none := by
    cases (w ++ r).head? with
    | none => rfl
    | some b =>
      show operationMap ['#', b] = none
      cases e : operationMap ['#', b] with
      | none => rfl
      | some t => exact absurd (opHead e) (by decide)
  have h4 : lookupOne (some '#') = none := by decide
  have h5 : ((st pre ('#' :: (w ++ r)) out).readCommentLine.emit .comment) =
      st (pre ++ '#' :: w) r (out ++ [⟨.comment, '#' :: w⟩]) := by
    unfold Lexer.readCommentLine
    obtain ⟨rw', h⟩ := takeLoop_mid commentRune rfl ('#' :: w) r (by
        intro c hc
        rcases List.mem_cons.1 hc with rfl | hc
        · decide
        · simp only [commentRune]
          have : c ≠ '\n' := fun h => hw (h ▸ hc)
          simpa using this) (by
        rcases hr with rfl | ⟨c, r', rfl, rfl⟩ <;> rfl) ((st pre ('#' :: w ++ r) out).src.length + 1) pre [] [] out
        (src_len _ _ _ _ _ _)
    rw [List.cons_append] at h
    unfold st at h ⊢
    rw [h, emit_mid]
    rfl
  simp [h1, h2, h3, h4, h5, -List.head?_append]

theorem ident_plain {c : Char} (hd : ¬ Digit c) (h : Plain c) (n pre cs out) :
    identState n (st pre (c :: cs) out) = some (wordState (st pre (c :: cs) out)) := by
  rw [ident_unfold]
  obtain ⟨h2, h3, h4, h5, h6⟩ := h
  have h1 := not_digit_of_plain_word hd
  have h2 := not_punct h2
  have h7 : lookupTwo (some c, cs.head?) = none := by
    cases cs.head? with
    | none => rfl
    | some b => exact h6 b
  have h8 : lookupOne (some c) = none := h5
  simp [h1, h2, h3, h4, h7, h8]

theorem ident_nil (n pre out) : identState n (st pre [] out) = some (wordState (st pre [] out)) := by
  rw [ident_unfold]
  rfl

/-- the word case reads the longest word -/
theorem word_eq (w r : List Char) (hw : ∀ c ∈ w, WordChar c) (hr : ¬ Starts WordChar r) (pre out) :
    wordState (st pre (w ++ r) out) =
      (st (pre ++ w) r (out ++ [⟨match keyWordMap w with
        | some t => t
        | none => if r.head? = some '(' then .functionCall else .identifier, w⟩]), .probablyWhitespace) := by
  unfold wordState
  obtain ⟨rw', h⟩ := takeLoop_mid identRune rfl w r (by
      intro c hc
      simp only [identRune]
      rcases hw c hc with h | h | h
      · simp [(isLetter_iff c).2 h]
      · simp [(isDigit_iff c).2 h]
      · simp [h]) (by
      cases r with
      | nil => rfl
      | cons c r =>
        have : ¬ WordChar c := fun h => hr ⟨c, r, rfl, h⟩
        simp only [WordChar, ← isLetter_iff, ← isDigit_iff] at this
        simp only [List.head?_cons, identRune]
        simpa [and_assoc] using this) ((st pre (w ++ r) out).src.length + 1) pre [] [] out (src_len _ _ _ _ _ _)
  have h' : (st pre (w ++ r) out).readIdent = mid pre w r rw' out := by
    unfold Lexer.readIdent
    unfold st at h ⊢
    rw [h]
    rfl
  simp only [h', current_mid, peek_eq]
  cases keyWordMap w with
  | some t => simp [emit_mid]
  | none =>
    simp only
    cases r with
    | nil => simp [emit_mid]
    | cons d r =>
      by_cases hd : d = '('
      · subst hd; simp [emit_mid]
      · simp only [List.head?_cons, Option.some.injEq, hd, if_false, emit_mid]
        split
        · next e => simp at e; exact absurd e.1 hd
        · next e => simp at e; rw [← e.2, emit_mid]

theorem wordType_iff (w r : List Char) (t : TokenType) : WordType w r t ↔
    t = match keyWordMap w with
        | some t => t
        | none => if r.head? = some '(' then .functionCall else .identifier := by
  have hs : Starts (· = '(') r ↔ r.head? = some '(' := by
    cases r with
    | nil => simp [Starts]
    | cons d r => simp [Starts]
  cases e : keyWordMap w with
  | some t' =>
    have e' := (kw_iff _ _).1 e
    constructor
    · rintro (h | ⟨h, _⟩ | ⟨h, _⟩)
      · have := (kw_iff _ _).2 h
        rw [e] at this
        exact (Option.some.inj this).symm
      · exact absurd e' (h _)
      · exact absurd e' (h _)
    · rintro rfl
      exact .keyword e'
  | none =>
    have hk : ∀ t, (w, t) ∉ keywords := by
      intro t ht
      rw [← kw_iff, e] at ht
      simp at ht
    simp only
    constructor
    · rintro (h | ⟨_, h⟩ | ⟨_, h⟩)
      · exact absurd h (hk _)
      · rw [if_pos (hs.1 h)]
      · rw [if_neg (fun hh => h (hs.2 hh))]
    · intro h
      split_ifs at h with hh
      · subst h; exact .call hk (hs.2 hh)
      · subst h; exact .name hk (fun h' => hh (hs.1 h'))

theorem runs_number {w r : List Char} (hw : ∀ c ∈ w, Digit c) (hr : ¬ Starts Digit r) (pre out o) :
    RunsTo .number (st pre (w ++ r) out) o ↔
      RunsTo .probablyWhitespace (st (pre ++ w) r (out ++ [⟨.number, w⟩])) o := by
  rw [number_probably]
  have : (st pre (w ++ r) out).take numberTokens = (st pre (w ++ r) out).take numberTokens := rfl
  obtain ⟨rw', h⟩ := takeLoop_mid (containsRune numberTokens) rfl w r (fun c hc => digit_mem.2 (hw c hc)) (by
      cases r with
      | nil => rfl
      | cons c r =>
        have : ¬ Digit c := fun h => hr ⟨c, r, rfl, h⟩
        rw [← digit_mem] at this
        simpa [containsRune] using this) ((st pre (w ++ r) out).src.length + 1) pre [] [] out (src_len _ _ _ _ _ _)
  have h' : (st pre (w ++ r) out).take numberTokens = mid pre w r rw' out := by
    unfold Lexer.take
    unfold st at h ⊢
    rw [h]
    rfl
  rw [h', emit_mid]

/-- reading one piece -/
theorem piece_run {s : List Char} {t : Token} {r : List Char} (h : Piece s t r) (pre out) :
    ∃ pre', ∀ o, RunsTo .ident (st pre s out) o ↔ RunsTo .probablyWhitespace (st pre' r (out ++ [t])) o := by
  have go : ∀ {N x}, identState N (st pre s out) = some x → ∀ o, RunsTo .ident (st pre s out) o ↔ RunsTo x.2 x.1 o := by
    intro N x hx o
    exact runsTo_step (s := .ident) (by decide) (by decide) (N := N) (l := st pre s out) hx o
  cases h with
  | @number w _ hne hw hr =>
    refine ⟨pre ++ w, fun o => ?_⟩
    obtain ⟨c, w', rfl⟩ := List.exists_cons_of_ne_nil hne
    rw [go (N := 0) (ident_number (hw c (by simp)) _ _ _ _)]
    exact runs_number hw hr pre out o
  | punct hc => exact ⟨_, fun o => go (N := 0) (ident_punct hc _ _ _ _) o⟩
  | quoted hw => exact ⟨_, fun o => go (ident_quoted hw _ _ _) o⟩
  | op2 h => exact ⟨_, fun o => go (N := 0) (ident_op2 ((op_iff _ _).2 h) _ _ _ _) o⟩
  | @op1 a t r h hr =>
    refine ⟨_, fun o => go (N := 0) (ident_op1 ((op_iff _ _).2 h) ?_ _ _ _) o⟩
    intro b hb
    cases e : operationMap [a, b] with
    | none => rfl
    | some t' =>
      cases r with
      | nil => simp at hb
      | cons d r =>
        simp at hb
        subst hb
        exact absurd ⟨d, r, rfl, t', (op_iff _ _).1 e⟩ hr
  | @comment w r hw hr =>
    refine ⟨pre ++ '#' :: w, fun o => ?_⟩
    rw [go (N := 0) (ident_comment hw hr _ _ _)]
    exact whitespace_probably hr _ _ _
  | @word w r t hne hw hd hr ht =>
    refine ⟨pre ++ w, fun o => ?_⟩
    obtain ⟨c, w', rfl⟩ := List.exists_cons_of_ne_nil hne
    have hc : ¬ Digit c := fun h => hd ⟨c, w', rfl, h⟩
    rw [go (N := 0) (ident_plain hc (word_plain (hw c (by simp))) _ _ _ _)]
    have e : wordState (st pre (c :: (w'.append r)) out) = _ := word_eq (c :: w') r hw hr pre out
    rw [e]
    rw [(wordType_iff _ _ _).1 ht]

end APS.Lex
