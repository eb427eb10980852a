import Verif.Spec.Lexer
import Mathlib.Tactic.IntervalCases
import Mathlib.Data.List.Basic

/-! Running the lexer on texts of known shape. -/
namespace APS.Lex
open APS.LexSpec

/-- the lexer after reading `pre` and, since the last token, `w`, with `rest` to come -/
def mid (pre w rest : List Char) (rw : List (Option Char)) (out : List Token) : Lexer :=
  ⟨pre ++ (w ++ rest), pre.length, pre.length + w.length, rw, out⟩

/-- the lexer between two tokens -/
def st (pre rest : List Char) (out : List Token) : Lexer := mid pre [] rest [] out

theorem next_cons (pre w c rest rw out) :
    (mid pre w (c :: rest) rw out).next = (some c, mid pre (w ++ [c]) rest (some c :: rw) out) := by
  have h : (mid pre w (c :: rest) rw out).src.drop (mid pre w (c :: rest) rw out).pos = c :: rest := by
    show List.drop (pre.length + w.length) (pre ++ (w ++ c :: rest)) = c :: rest
    rw [← List.append_assoc, ← List.length_append, List.drop_left]
  unfold Lexer.next
  rw [h]
  simp [mid, Nat.add_assoc]

theorem next_nil (pre w rw out) :
    (mid pre w [] rw out).next = (none, mid pre w [] (none :: rw) out) := by
  have h : (mid pre w [] rw out).src.drop (mid pre w [] rw out).pos = [] := by
    simp [mid]
  unfold Lexer.next
  rw [h]
  simp [mid]

theorem rewind_some (pre w c rest d rw out) :
    (mid pre (w ++ [c]) rest (some d :: rw) out).rewindOne = mid pre w (c :: rest) rw out := by
  simp only [Lexer.rewindOne, mid]
  simp

theorem rewind_none (pre w rest rw out) :
    (mid pre w rest (none :: rw) out).rewindOne = mid pre w rest rw out := by
  simp [Lexer.rewindOne, mid]

theorem peek_cons (pre w c rest rw out) :
    (mid pre w (c :: rest) rw out).peek = (some c, mid pre w (c :: rest) rw out) := by
  simp [Lexer.peek, next_cons, rewind_some]

theorem peek_nil (pre w rw out) :
    (mid pre w [] rw out).peek = (none, mid pre w [] rw out) := by
  simp [Lexer.peek, next_nil, rewind_none]

theorem peek_eq (pre w rest rw out) :
    (mid pre w rest rw out).peek = (rest.head?, mid pre w rest rw out) := by
  cases rest <;> simp [peek_cons, peek_nil]

theorem peekTwo_eq (pre w rest rw out) :
    (mid pre w rest rw out).peekTwo = ((rest.head?, rest.tail.head?), mid pre w rest rw out) := by
  match rest with
  | [] => simp [Lexer.peekTwo, next_nil, rewind_none]
  | [c] => simp [Lexer.peekTwo, next_nil, next_cons, rewind_none, rewind_some]
  | c :: d :: r =>
    have h := rewind_some pre (w ++ [c]) d r d (some c :: rw) out
    simp only [Lexer.peekTwo, next_cons, h, rewind_some]
    simp

theorem current_mid (pre w rest rw out) : (mid pre w rest rw out).current = w := by
  simp [mid, Lexer.current]

theorem emit_mid (pre w rest rw out t) :
    (mid pre w rest rw out).emit t = st (pre ++ w) rest (out ++ [⟨t, w⟩]) := by
  simp [Lexer.emit, current_mid, st]
  simp [mid]

theorem ignore_mid (pre w rest rw out) :
    (mid pre w rest rw out).ignore = st (pre ++ w) rest out := by
  simp [Lexer.ignore, mid, st]

theorem takeLoop_mid (p : Option Char → Bool) (hp : p none = false) (u r : List Char) (hu : ∀ c ∈ u, p (some c))
    (hr : p r.head? = false) : ∀ (n : Nat) (pre w rw out), u.length < n →
    ∃ rw', (mid pre w (u ++ r) rw out).takeLoop p n = mid pre (w ++ u) r rw' out := by
  induction u with
  | nil =>
    intro n pre w rw out hn
    match n, hn with
    | n + 1, _ =>
      cases r with
      | nil => exact ⟨rw, by simp [Lexer.takeLoop, next_nil, rewind_none, hp]⟩
      | cons c r =>
        have : p (some c) = false := by simpa using hr
        exact ⟨rw, by simp [Lexer.takeLoop, next_cons, rewind_some, this]⟩
  | cons c u ih =>
    intro n pre w rw out hn
    match n, hn with
    | n + 1, hn =>
      obtain ⟨rw', h⟩ := ih (fun d hd => hu d (by simp [hd])) n pre (w ++ [c]) (some c :: rw) out (by simpa using hn)
      refine ⟨rw', ?_⟩
      simp only [List.cons_append, Lexer.takeLoop, next_cons, hu c (by simp), if_true]
      rw [h]
      simp

theorem src_len (pre w u r rw out) : u.length < (mid pre w (u ++ r) rw out).src.length + 1 := by
  simp [mid]; omega

/-! ### character classes -/

theorem char_cases {c : Char} {n : Nat} (h : c.toNat = n) : c = Char.ofNat n := by
  rw [← h, Char.ofNat_toNat]

theorem isDigit_iff (c : Char) : isDigit c = true ↔ Digit c := by
  simp [isDigit, Digit]

theorem isLetter_iff (c : Char) : isLetter c = true ↔ Letter c := by
  simp [isLetter, Letter]

theorem digit_iff {c : Char} : Digit c ↔
    c = '0' ∨ c = '1' ∨ c = '2' ∨ c = '3' ∨ c = '4' ∨ c = '5' ∨ c = '6' ∨ c = '7' ∨ c = '8' ∨ c = '9' := by
  constructor
  · rintro ⟨h1, h2⟩
    have h1 : 48 ≤ c.toNat := h1
    have h2 : c.toNat ≤ 57 := h2
    obtain ⟨n, hn⟩ : ∃ n, c.toNat = n := ⟨_, rfl⟩
    rw [hn] at h1 h2
    have hc := char_cases hn
    have : n = 48 ∨ n = 49 ∨ n = 50 ∨ n = 51 ∨ n = 52 ∨ n = 53 ∨ n = 54 ∨ n = 55 ∨ n = 56 ∨ n = 57 := by omega
    rw [hc]
    clear hn hc h1 h2
    rcases this with h|h|h|h|h|h|h|h|h|h <;> subst h <;> decide
  · unfold Digit
    rintro (h|h|h|h|h|h|h|h|h|h) <;> subst h <;> decide

theorem digit_mem {c : Char} : numberTokens.contains c = true ↔ Digit c := by
  have e : numberTokens = ['0','1','2','3','4','5','6','7','8','9'] := by decide
  rw [e, digit_iff]
  simp

theorem punct_mem {c : Char} : syntaxTokens.contains c = true ↔ Punct c := by
  have e : syntaxTokens = ['(', ')', ':', ',', ';', '\n', '{', '}', '[', ']'] := by decide
  rw [e]
  simp [Punct]

theorem blank_mem {c : Char} : " \t\r".toList.contains c = true ↔ Blank c := by
  have e : " \t\r".toList = [' ', '\t', '\r'] := by decide
  rw [e]
  simp [Blank]

theorem op_iff (w : List Char) (t : TokenType) : operationMap w = some t ↔ (w, t) ∈ operators := by
  constructor
  · unfold operationMap
    split <;> intro h <;> simp at h <;> subst h <;> decide
  · intro h
    simp only [operators, List.mem_cons, List.not_mem_nil, or_false, Prod.mk.injEq] at h
    rcases h with h|h|h|h|h|h|h|h|h|h|h|h|h|h|h|h|h|h|h <;> obtain ⟨rfl, rfl⟩ := h <;> rfl

theorem kw_iff (w : List Char) (t : TokenType) : keyWordMap w = some t ↔ (w, t) ∈ keywords := by
  constructor
  · unfold keyWordMap
    intro h
    simp only [keywords, List.mem_cons, List.not_mem_nil, or_false, Prod.mk.injEq]
    split_ifs at h <;> simp_all
  · intro h
    simp only [keywords, List.mem_cons, List.not_mem_nil, or_false, Prod.mk.injEq] at h
    rcases h with h|h|h|h|h|h|h|h <;> obtain ⟨rfl, rfl⟩ := h <;> decide

/-- a character that begins no operator, quote, comment or mark -/
def Plain (c : Char) : Prop := ¬ Punct c ∧ c ≠ '"' ∧ c ≠ '#' ∧ operationMap [c] = none ∧ ∀ d, operationMap [c, d] = none

theorem opHead {c : Char} {w t} (h : operationMap (c :: w) = some t) :
    c = '=' ∨ c = '-' ∨ c = '+' ∨ c = '*' ∨ c = '/' ∨ c = '|' ∨ c = '&' ∨ c = '>' ∨ c = '<' ∨ c = '!' := by
  rw [op_iff] at h
  simp only [operators, List.mem_cons, List.not_mem_nil, or_false, Prod.mk.injEq, List.cons.injEq] at h
  tauto

theorem plain_of {c : Char} (h1 : ¬ Punct c) (h2 : c ≠ '"') (h3 : c ≠ '#')
    (h : ¬ (c = '=' ∨ c = '-' ∨ c = '+' ∨ c = '*' ∨ c = '/' ∨ c = '|' ∨ c = '&' ∨ c = '>' ∨ c = '<' ∨ c = '!')) :
    Plain c := by
  refine ⟨h1, h2, h3, ?_, fun d => ?_⟩
  · cases e : operationMap [c] with
    | none => rfl
    | some t => exact absurd (opHead e) h
  · cases e : operationMap [c, d] with
    | none => rfl
    | some t => exact absurd (opHead e) h

theorem word_plain {c : Char} (h : WordChar c) : Plain c := by
  have hw : ∀ d : Char, ¬ WordChar d → c ≠ d := by rintro d hd rfl; exact hd h
  have dec : ∀ d : Char, (isLetter d || isDigit d || d == '_') = false → ¬ WordChar d := by
    intro d hd hw
    rcases hw with hw | hw | hw
    · simp [(isLetter_iff d).2 hw] at hd
    · simp [(isDigit_iff d).2 hw] at hd
    · simp [hw] at hd
  apply plain_of
  · rintro (h|h|h|h|h|h|h|h|h|h) <;> exact hw _ (dec _ (by decide)) h
  · exact hw _ (dec _ (by decide))
  · exact hw _ (dec _ (by decide))
  · rintro (h|h|h|h|h|h|h|h|h|h) <;> exact hw _ (dec _ (by decide)) h

theorem word_not_blank {c : Char} (h : WordChar c) : ¬ Blank c := by
  intro hb
  have dec : ∀ d : Char, (isLetter d || isDigit d || d == '_') = false → ¬ WordChar d := by
    intro d hd hw
    rcases hw with hw | hw | hw
    · simp [(isLetter_iff d).2 hw] at hd
    · simp [(isDigit_iff d).2 hw] at hd
    · simp [hw] at hd
  rcases hb with rfl|rfl|rfl <;> exact dec _ (by decide) h

end APS.Lex
