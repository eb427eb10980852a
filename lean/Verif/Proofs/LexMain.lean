import Verif.Proofs.LexPieces

/-! The lexer accepts exactly the texts of the grammar. -/
namespace APS.Lex
open APS.LexSpec

/-- texts no piece begins -/
def Stuck (s : List Char) : Prop :=
  (∃ cs, s = '"' :: cs ∧ '"' ∉ cs) ∨
  (∃ c cs, s = c :: cs ∧ ¬ WordChar c ∧ ¬ Punct c ∧ c ≠ '"' ∧ c ≠ '#' ∧ operationMap [c] = none ∧
    ∀ b, cs.head? = some b → operationMap [c, b] = none)

theorem span_exists (p : Char → Prop) (s : List Char) :
    ∃ w r, s = w ++ r ∧ (∀ c ∈ w, p c) ∧ ¬ Starts p r := by
  classical
  induction s with
  | nil => exact ⟨[], [], rfl, by simp, by rintro ⟨c, r, h, _⟩; simp at h⟩
  | cons c s ih =>
    by_cases hc : p c
    · obtain ⟨w, r, rfl, hw, hr⟩ := ih
      exact ⟨c :: w, r, rfl, by simpa using ⟨hc, hw⟩, hr⟩
    · exact ⟨[], c :: s, rfl, by simp, by rintro ⟨d, r, h, hd⟩; simp at h; exact hc (h.1 ▸ hd)⟩

theorem piece_or_stuck (c : Char) (cs : List Char) :
    (∃ t r, Piece (c :: cs) t r) ∨ Stuck (c :: cs) := by
  classical
  by_cases hd : Digit c
  · obtain ⟨w, r, hs, hw, hr⟩ := span_exists Digit (c :: cs)
    left
    refine ⟨⟨.number, w⟩, r, ?_⟩
    rw [hs]
    refine .number ?_ hw hr
    rintro rfl
    exact hr ⟨c, cs, hs.symm, hd⟩
  by_cases hw : WordChar c
  · obtain ⟨w, r, hs, hw', hr⟩ := span_exists WordChar (c :: cs)
    left
    have hne : w ≠ [] := by
      rintro rfl
      exact hr ⟨c, cs, hs.symm, hw⟩
    refine ⟨⟨match keyWordMap w with
        | some t => t
        | none => if r.head? = some '(' then .functionCall else .identifier, w⟩, r, ?_⟩
    rw [hs]
    refine .word hne hw' ?_ hr ((wordType_iff w r _).2 rfl)
    rintro ⟨d, w', rfl, hd'⟩
    simp at hs
    exact hd (hs.1 ▸ hd')
  by_cases hp : Punct c
  · exact Or.inl ⟨_, _, .punct hp⟩
  by_cases hq : c = '"'
  · subst hq
    by_cases hm : '"' ∈ cs
    · obtain ⟨w, r, rfl, hw⟩ := List.append_of_mem hm |>.elim fun w h => h.elim fun r h => (⟨w, r, h, trivial⟩ : ∃ w r, cs = w ++ '"' :: r ∧ True)
      left
      obtain ⟨w', r', hs, hw', hr'⟩ := span_exists (· ≠ '"') (w ++ '"' :: r)
      cases r' with
      | nil =>
        exfalso
        have : '"' ∈ w' := by rw [List.append_nil] at hs; rw [← hs]; simp
        exact hw' _ this rfl
      | cons d r' =>
        have : d = '"' := by
          by_contra h
          exact hr' ⟨d, r', rfl, h⟩
        subst this
        rw [hs]
        exact ⟨_, _, .quoted (fun h => hw' _ h rfl)⟩
    · exact Or.inr (Or.inl ⟨cs, rfl, hm⟩)
  by_cases hh : c = '#'
  · subst hh
    left
    obtain ⟨w', r', hs, hw', hr'⟩ := span_exists (· ≠ '\n') cs
    rw [hs]
    refine ⟨_, _, .comment (fun h => hw' _ h rfl) ?_⟩
    cases r' with
    | nil => exact Or.inl rfl
    | cons d r' =>
      right
      refine ⟨d, r', rfl, ?_⟩
      by_contra h
      exact hr' ⟨d, r', rfl, h⟩
  by_cases h2 : ∃ b r t, cs = b :: r ∧ operationMap [c, b] = some t
  · obtain ⟨b, r, t, rfl, h⟩ := h2
    exact Or.inl ⟨_, _, .op2 ((op_iff _ _).1 h)⟩
  have h2' : ∀ b, cs.head? = some b → operationMap [c, b] = none := by
    intro b hb
    cases e : operationMap [c, b] with
    | none => rfl
    | some t =>
      cases cs with
      | nil => simp at hb
      | cons d r => simp at hb; subst hb; exact absurd ⟨d, r, t, rfl, e⟩ h2
  cases e : operationMap [c] with
  | some t =>
    left
    refine ⟨_, _, .op1 ((op_iff _ _).1 e) ?_⟩
    rintro ⟨b, r, rfl, t', ht'⟩
    have := h2' b rfl
    rw [← op_iff, this] at ht'
    simp at ht'
  | none => exact Or.inr (Or.inr ⟨c, cs, rfl, hw, hp, hq, hh, e, h2'⟩)

theorem stuck_blank {s : List Char} (h : Stuck s) (hb : ¬ Starts Blank s) : ∀ n pre out,
    run n .probablyWhitespace (st pre s out) = none ∧ run n .ident (st pre s out) = none := by
  intro n
  induction n with
  | zero => intros; exact ⟨run_zero (by decide) (by decide) _, run_zero (by decide) (by decide) _⟩
  | succ n ih =>
    intro pre out
    have hne : s ≠ [] := by
      rcases h with ⟨cs, rfl, _⟩ | ⟨c, cs, rfl, _⟩ <;> simp
    constructor
    · rw [run_succ (by decide) (by decide)]
      have := probably_eq [] s (by simp) hb (by simpa using hne) pre out
      simp only [List.nil_append] at this
      simp only [step, this]
      exact (ih _ _).2
    · rw [run_succ (by decide) (by decide)]
      rcases h with ⟨cs, rfl, hq⟩ | ⟨c, cs, rfl, hw, hp, hq, hh, h1, h2⟩
      · simp only [step]
        rw [ident_quote_eq, quoteLoop_none n cs hq]
      · simp only [step]
        have e : identState n (st pre (c :: cs) out) = some (wordState (st pre (c :: cs) out)) := by
          rw [ident_unfold]
          have a1 := not_digit_of_plain_word (not_digit_of_not_word hw)
          have a2 := not_punct hp
          have a3 : lookupTwo (some c, cs.head?) = none := by
            cases e : cs.head? with
            | none => rfl
            | some b => exact h2 b e
          have a4 : lookupOne (some c) = none := h1
          simp [a1, a2, hq, hh, a3, a4]
        rw [e]
        have := word_eq [] (c :: cs) (by simp) (by rintro ⟨d, r, h, hd⟩; simp at h; exact hw (h.1 ▸ hd)) pre out
        rw [List.nil_append] at this
        rw [this]
        exact (ih _ _).1

theorem piece_len {s t r} (h : Piece s t r) : r.length < s.length := by
  cases h with
  | number hne => have := List.length_pos_of_ne_nil hne; simp; omega
  | punct => simp
  | quoted => simp; omega
  | op2 => simp; omega
  | op1 => simp
  | comment => simp; omega
  | word hne => have := List.length_pos_of_ne_nil hne; simp; omega

theorem piece_not_blank {s t r} (h : Piece s t r) : ¬ Starts Blank s := by
  rintro ⟨c, r', rfl, hb⟩
  have nw : ¬ WordChar c := fun hw => word_not_blank hw hb
  have nop : ∀ w t, operationMap (c :: w) ≠ some t := by
    intro w t ht
    have := opHead ht
    rcases hb with rfl|rfl|rfl <;> revert this <;> decide
  generalize hs : c :: r' = s at h
  cases h with
  | @number w r hne hw =>
    obtain ⟨d, w', rfl⟩ := List.exists_cons_of_ne_nil hne
    simp at hs
    exact nw (hs.1 ▸ digit_word (hw d (by simp)))
  | @punct d r hp =>
    simp at hs
    rw [← hs.1] at hp
    rcases hb with rfl|rfl|rfl <;> simp [Punct] at hp
  | quoted => simp at hs; rcases hb with rfl|rfl|rfl <;> simp at hs
  | op2 h => simp at hs; rw [← op_iff, ← hs.1] at h; exact nop _ _ h
  | op1 h => simp at hs; rw [← op_iff, ← hs.1] at h; exact nop _ _ h
  | comment => simp at hs; rcases hb with rfl|rfl|rfl <;> simp at hs
  | @word w r t hne hw =>
    obtain ⟨d, w', rfl⟩ := List.exists_cons_of_ne_nil hne
    simp at hs
    exact nw (hs.1 ▸ hw d (by simp))

theorem probably_ident {s : List Char} (hb : ¬ Starts Blank s) (hne : s ≠ []) (pre out o) :
    RunsTo .probablyWhitespace (st pre s out) o ↔ RunsTo .ident (st pre s out) o := by
  have := probably_eq [] s (by simp) hb (by simpa using hne) pre out
  simp only [List.nil_append, List.append_nil] at this
  exact runsTo_step (s := .probablyWhitespace) (N := 0) (l := st pre s out) (x := (st pre s out, .ident)) (by decide)
    (by decide) (by simp [step, this]) o

theorem runs_nil (pre out o) : RunsTo .probablyWhitespace (st pre [] out) o ↔ o = .closed out := by
  have := runsTo_step (s := .probablyWhitespace) (N := 0) (l := st pre [] out) (x := (st pre [] out, .stop)) (by decide)
    (by decide) (by simp [step, probably_nil]) o
  rw [this, runsTo_stop]
  rfl

theorem runs_blank {c : Char} (hc : Blank c) {r : List Char} (hr : r ≠ []) (pre out o) :
    RunsTo .probablyWhitespace (st pre (c :: r) out) o ↔ RunsTo .probablyWhitespace (st (pre ++ [c]) r out) o := by
  obtain ⟨u, r', rfl, hu, hr'⟩ := span_exists Blank r
  have h1 := probably_eq (c :: u) r' (by simpa using ⟨hc, hu⟩) hr' (by simp) pre out
  have h2 := probably_eq u r' hu hr' hr (pre ++ [c]) out
  have e1 := runsTo_step (s := .probablyWhitespace) (N := 0) (l := st pre (c :: u ++ r') out) (by decide)
    (by decide) (by simp only [step]; rw [h1]) o
  have e2 := runsTo_step (s := .probablyWhitespace) (N := 0) (l := st (pre ++ [c]) (u ++ r') out) (by decide)
    (by decide) (by simp only [step]; rw [h2]) o
  rw [show c :: (u ++ r') = c :: u ++ r' from rfl, e1, e2]
  simp

theorem runs_blankEnd {c : Char} (hc : Blank c) (pre out o) :
    RunsTo .probablyWhitespace (st pre [c] out) o ↔ o = .closed (out ++ [⟨.identifier, []⟩]) := by
  have h1 := probably_eq [c] [] (by simpa using hc) (by rintro ⟨c, r, h, _⟩; simp at h) (by simp) pre out
  have e1 := runsTo_step (s := .probablyWhitespace) (N := 0) (l := st pre [c] out) (x := (st (pre ++ [c]) [] out, .ident))
    (by decide) (by decide) (by simp only [step]; rw [← h1]; rfl) o
  have e2 := runsTo_step (s := .ident) (N := 0) (l := st (pre ++ [c]) [] out) (by decide)
    (by decide) (by simp only [step]; rw [ident_nil]) o
  rw [e1, e2]
  have := word_eq [] [] (by simp) (by rintro ⟨d, r, h, hd⟩; simp at h) (pre ++ [c]) out
  rw [List.nil_append] at this
  rw [this, runs_nil]
  rfl

theorem lexes_runs {s : List Char} {ts : List Token} (h : Lexes s ts) :
    ∀ pre out, RunsTo .probablyWhitespace (st pre s out) (.closed (out ++ ts)) := by
  induction h with
  | eof => intro pre out; rw [runs_nil]; simp
  | blank hc hr _ ih => intro pre out; rw [runs_blank hc hr]; exact ih _ _
  | blankEnd hc => intro pre out; rw [runs_blankEnd hc]
  | @token s t r toks hp _ ih =>
    intro pre out
    have hne : s ≠ [] := by intro h; have := piece_len hp; rw [h] at this; simp at this
    rw [probably_ident (piece_not_blank hp) hne]
    obtain ⟨pre', h⟩ := piece_run hp pre out
    rw [h]
    have := ih pre' (out ++ [t])
    simpa using this

theorem runs_lexes : ∀ (k : Nat) (s : List Char), s.length ≤ k → ∀ pre out o,
    RunsTo .probablyWhitespace (st pre s out) o → ∃ ts, o = .closed (out ++ ts) ∧ Lexes s ts := by
  intro k
  induction k with
  | zero =>
    intro s hs pre out o h
    have : s = [] := by simpa using hs
    subst this
    rw [runs_nil] at h
    exact ⟨[], by simpa using h, .eof⟩
  | succ k ih =>
    intro s hs pre out o h
    cases s with
    | nil =>
      rw [runs_nil] at h
      exact ⟨[], by simpa using h, .eof⟩
    | cons c cs =>
      by_cases hb : Blank c
      · cases cs with
        | nil =>
          rw [runs_blankEnd hb] at h
          exact ⟨_, h, .blankEnd hb⟩
        | cons d cs =>
          rw [runs_blank hb (by simp)] at h
          obtain ⟨ts, ho, hl⟩ := ih (d :: cs) (by simpa using hs) _ _ _ h
          exact ⟨ts, ho, .blank hb (by simp) hl⟩
      · have hnb : ¬ Starts Blank (c :: cs) := by rintro ⟨d, r, h, hd⟩; simp at h; exact hb (h.1 ▸ hd)
        rcases piece_or_stuck c cs with ⟨t, r, hp⟩ | hst
        · rw [probably_ident hnb (by simp)] at h
          obtain ⟨pre', h'⟩ := piece_run hp pre out
          rw [h'] at h
          obtain ⟨ts, ho, hl⟩ := ih r (by have := piece_len hp; simp at this hs; omega) _ _ _ h
          exact ⟨t :: ts, by simpa using ho, .token hp hl⟩
        · obtain ⟨n, hn⟩ := h
          rw [(stuck_blank hst hnb n pre out).1] at hn
          simp at hn

theorem tokenize_iff (src : List Char) (o : Outcome) :
    (∃ n, tokenize n src = some o) ↔ ∃ ts, o = .closed ts ∧ Lexes src ts := by
  have e : new src = st [] src [] := by simp [new, st, mid]
  unfold tokenize
  rw [e]
  constructor
  · intro h
    obtain ⟨ts, ho, hl⟩ := runs_lexes src.length src le_rfl [] [] o h
    exact ⟨ts, by simpa using ho, hl⟩
  · rintro ⟨ts, rfl, hl⟩
    exact lexes_runs hl [] []

/-! ### the supported texts -/

theorem spells_of {s ts} (h : Lexes s ts) : Spells ts s := by
  induction h with
  | eof => exact .nil
  | blank hc _ _ ih => exact .blank hc ih
  | blankEnd hc => exact .blank hc (.plain .nil)
  | token hp _ ih =>
    cases hp with
    | number => exact .plain ih
    | punct => exact .plain ih
    | quoted => exact .quoted rfl ih
    | op2 => exact .plain ih
    | op1 => exact .plain ih
    | comment => exact .plain ih
    | word => exact .plain ih

theorem sup_cons {c : Char} (r : List Char) (h1 : c ≠ '&') (h2 : c ≠ '|') (h3 : c ≠ '!') (h4 : c ≠ '"') (h5 : c ≠ '#') :
    supportedFrom .code (c :: r) = (ordinary c && supportedFrom .code r) := by
  conv_lhs => unfold supportedFrom
  split <;> simp_all

theorem ordinary_ne {c d : Char} (h : ordinary c = true) (hd : ordinary d = false) : c ≠ d := by
  rintro rfl; rw [h] at hd; simp at hd

theorem sup_ord {c : Char} (h : ordinary c = true) (r : List Char) :
    supportedFrom .code (c :: r) = supportedFrom .code r := by
  rw [sup_cons r (ordinary_ne h (by decide)) (ordinary_ne h (by decide)) (ordinary_ne h (by decide))
    (ordinary_ne h (by decide)) (ordinary_ne h (by decide)), h, Bool.true_and]

theorem sup_ords (w r : List Char) (h : ∀ c ∈ w, ordinary c = true) :
    supportedFrom .code (w ++ r) = supportedFrom .code r := by
  induction w with
  | nil => rfl
  | cons c w ih =>
    rw [List.cons_append, sup_ord (h c (by simp)), ih (fun d hd => h d (by simp [hd]))]

theorem ord_word {c : Char} (h : WordChar c) : ordinary c = true := by
  unfold ordinary
  rcases h with h | h | h
  · rcases h with h | h
    · simp [h.1, h.2]
    · simp [h.1, h.2]
  · simp [h.1, h.2]
  · subst h; decide

theorem ord_punct {c : Char} (h : Punct c) : ordinary c = true := by
  rcases h with rfl|rfl|rfl|rfl|rfl|rfl|rfl|rfl|rfl|rfl <;> decide

theorem ord_blank {c : Char} (h : Blank c) : ordinary c = true := by
  rcases h with rfl|rfl|rfl <;> decide

theorem ord_op1 {c : Char} {t} (h : ([c], t) ∈ operators) : ordinary c = true := by
  simp only [operators, List.mem_cons, List.not_mem_nil, or_false, Prod.mk.injEq, List.cons.injEq, reduceCtorEq,
    and_false, false_and, and_true, false_or] at h
  rcases h with h|h|h|h|h|h|h <;> rw [h.1] <;> decide

theorem ord_op2 {a b : Char} {t} (h : ([a, b], t) ∈ operators) :
    (ordinary a = true ∧ ordinary b = true) ∨ (a = '|' ∧ b = '|') ∨ (a = '&' ∧ b = '&') ∨ (a = '!' ∧ b = '=') := by
  simp only [operators, List.mem_cons, List.not_mem_nil, or_false, Prod.mk.injEq, List.cons.injEq, reduceCtorEq,
    and_false, false_and, and_true, false_or] at h
  rcases h with h|h|h|h|h|h|h|h|h|h|h|h <;> obtain ⟨⟨ha, hb⟩, _⟩ := h <;> rw [ha, hb] <;> decide

theorem ord_cases {c : Char} (h : ordinary c = true) :
    WordChar c ∨ Punct c ∨ Blank c ∨ ∃ t, operationMap [c] = some t := by
  unfold ordinary at h
  simp only [Bool.or_eq_true, Bool.and_eq_true, decide_eq_true_eq] at h
  rcases h with ((h | h) | h) | h
  · have e : " \t\r():,;\n{}[]=-+*/<>_".toList = [' ', '\t', '\r', '(', ')', ':', ',', ';', '\n', '{', '}', '[', ']', '=',
      '-', '+', '*', '/', '<', '>', '_'] := by decide
    rw [e] at h
    simp only [List.contains_cons, Bool.or_eq_true, beq_iff_eq, List.contains_nil, Bool.false_eq_true, or_false] at h
    rcases h with h|h|h|h|h|h|h|h|h|h|h|h|h|h|h|h|h|h|h|h|h <;> subst h <;>
      first
      | (apply Or.inr; apply Or.inr; apply Or.inl; simp [Blank]; done)
      | (apply Or.inr; apply Or.inl; simp [Punct]; done)
      | exact Or.inr (Or.inr (Or.inr ⟨_, rfl⟩))
      | exact Or.inl (Or.inr (Or.inr rfl))
  · exact Or.inl (Or.inl (Or.inl h))
  · exact Or.inl (Or.inl (Or.inr h))
  · exact Or.inl (Or.inr (Or.inl h))

theorem sup_quote (w r : List Char) (h : '"' ∉ w) : supportedFrom .quote (w ++ '"' :: r) = supportedFrom .code r := by
  induction w with
  | nil => simp [supportedFrom]
  | cons c w ih =>
    simp at h
    have hc : c ≠ '"' := fun e => h.1 e.symm
    rw [List.cons_append]
    conv_lhs => unfold supportedFrom
    split <;> simp_all

theorem sup_quote_none (w : List Char) (h : '"' ∉ w) : supportedFrom .quote w = false := by
  induction w with
  | nil => simp [supportedFrom]
  | cons c w ih =>
    simp at h
    have hc : c ≠ '"' := fun e => h.1 e.symm
    conv_lhs => unfold supportedFrom
    split <;> simp_all

theorem sup_comment (w r : List Char) (h : '\n' ∉ w) (hr : r = [] ∨ Starts (· = '\n') r) :
    supportedFrom .comment (w ++ r) = supportedFrom .code r := by
  induction w with
  | nil =>
    rcases hr with rfl | ⟨c, r', rfl, rfl⟩
    · simp [supportedFrom]
    · rw [sup_ord (by decide)]
      simp [supportedFrom]
  | cons c w ih =>
    simp at h
    have hc : c ≠ '\n' := fun e => h.1 e.symm
    rw [List.cons_append]
    conv_lhs => unfold supportedFrom
    split <;> simp_all

theorem sup_piece {s t r} (h : Piece s t r) : supportedFrom .code s = supportedFrom .code r := by
  cases h with
  | number _ hw => exact sup_ords _ _ (fun c hc => ord_word (digit_word (hw c hc)))
  | punct hc => exact sup_ord (ord_punct hc) _
  | quoted hw => rw [show ∀ x, supportedFrom .code ('"' :: x) = supportedFrom .quote x from fun x => by simp [supportedFrom]]; exact sup_quote _ _ hw
  | op2 h =>
    rcases ord_op2 h with ⟨ha, hb⟩ | ⟨rfl, rfl⟩ | ⟨rfl, rfl⟩ | ⟨rfl, rfl⟩
    · rw [sup_ord ha, sup_ord hb]
    all_goals simp [supportedFrom]
  | op1 h => exact sup_ord (ord_op1 h) _
  | comment hw hr => rw [show ∀ x, supportedFrom .code ('#' :: x) = supportedFrom .comment x from fun x => by simp [supportedFrom]]; exact sup_comment _ _ hw hr
  | word _ hw => exact sup_ords _ _ (fun c hc => ord_word (hw c hc))

theorem sup_stuck {s : List Char} (h : Stuck s) (hb : ¬ Starts Blank s) : supportedFrom .code s = false := by
  rcases h with ⟨cs, rfl, hq⟩ | ⟨c, cs, rfl, hw, hp, hq, hh, h1, h2⟩
  · rw [show ∀ x, supportedFrom .code ('"' :: x) = supportedFrom .quote x from fun x => by simp [supportedFrom]]
    exact sup_quote_none _ hq
  · have ho : ordinary c = false := by
      cases e : ordinary c with
      | false => rfl
      | true =>
        rcases ord_cases e with h | h | h | ⟨t, h⟩
        · exact absurd h hw
        · exact absurd h hp
        · exact absurd ⟨c, cs, rfl, h⟩ hb
        · rw [h1] at h; simp at h
    conv_lhs => unfold supportedFrom
    split
    · simp_all
    all_goals first
      | (next e => simp at e; obtain ⟨rfl, rfl⟩ := e; have := h2 _ rfl; simp [operationMap] at this)
      | skip
    all_goals simp_all

theorem lexes_supported {s ts} (h : Lexes s ts) : supported s = true := by
  unfold supported
  induction h with
  | eof => simp [supportedFrom]
  | blank hc _ _ ih => rw [sup_ord (ord_blank hc)]; exact ih
  | blankEnd hc => rw [sup_ord (ord_blank hc)]; simp [supportedFrom]
  | token hp _ ih => rw [sup_piece hp]; exact ih

theorem supported_lexes : ∀ (k : Nat) (s : List Char), s.length ≤ k → supported s = true → ∃ ts, Lexes s ts := by
  intro k
  induction k with
  | zero =>
    intro s hs _
    have : s = [] := by simpa using hs
    subst this
    exact ⟨[], .eof⟩
  | succ k ih =>
    intro s hs h
    cases s with
    | nil => exact ⟨[], .eof⟩
    | cons c cs =>
      by_cases hb : Blank c
      · cases cs with
        | nil => exact ⟨_, .blankEnd hb⟩
        | cons d cs =>
          unfold supported at h
          rw [sup_ord (ord_blank hb)] at h
          obtain ⟨ts, hl⟩ := ih (d :: cs) (by simpa using hs) h
          exact ⟨ts, .blank hb (by simp) hl⟩
      · have hnb : ¬ Starts Blank (c :: cs) := by rintro ⟨d, r, h, hd⟩; simp at h; exact hb (h.1 ▸ hd)
        unfold supported at h
        rcases piece_or_stuck c cs with ⟨t, r, hp⟩ | hst
        · rw [sup_piece hp] at h
          obtain ⟨ts, hl⟩ := ih r (by have := piece_len hp; simp at this hs; omega) h
          exact ⟨t :: ts, .token hp hl⟩
        · rw [sup_stuck hst hnb] at h
          simp at h

end APS.Lex
