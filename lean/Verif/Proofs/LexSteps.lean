import Verif.Proofs.LexRun

/-! Steps and runs of the lexer. -/
namespace APS.Lex
open APS.LexSpec

theorem quoteLoop_mono : ∀ (n : Nat) (l x : Lexer), quoteLoop n l = some x → quoteLoop (n + 1) l = some x := by
  intro n
  induction n with
  | zero => intro l x h; simp [quoteLoop] at h
  | succ n ih =>
    intro l x h
    unfold quoteLoop at h
    unfold quoteLoop
    split_ifs at h ⊢ with hq
    · exact ih _ _ h
    · exact h

theorem identState_mono (n : Nat) (l : Lexer) (x) (h : identState n l = some x) : identState (n + 1) l = some x := by
  unfold identState at h ⊢
  simp only at h ⊢
  split_ifs at h ⊢ with h1 h2 h3
  · exact h
  · exact h
  · cases e : quoteLoop n l.peek.2.next.2.ignore with
    | none => rw [e] at h; simp at h
    | some y => rw [e] at h; rw [quoteLoop_mono _ _ _ e]; exact h
  all_goals exact h

theorem step_mono (n : Nat) (s : State) (l : Lexer) (x) (h : step n s l = some x) : step (n + 1) s l = some x := by
  cases s <;> simp only [step] at h ⊢ <;> first | exact h | exact identState_mono _ _ _ h

theorem step_mono_le {m n : Nat} (hmn : m ≤ n) {s : State} {l : Lexer} {x} (h : step m s l = some x) :
    step n s l = some x := by
  induction hmn with
  | refl => exact h
  | step _ ih => exact step_mono _ _ _ _ ih

theorem run_succ {s : State} (h1 : s ≠ .stop) (h2 : s ≠ .failed) (n : Nat) (l : Lexer) :
    run (n + 1) s l = match step n s l with
      | none => none
      | some (l', s') => run n s' l' := by
  cases s <;> first | exact absurd rfl h1 | exact absurd rfl h2 | ((conv_lhs => unfold run); try rfl)

theorem run_zero {s : State} (h1 : s ≠ .stop) (h2 : s ≠ .failed) (l : Lexer) : run 0 s l = none := by
  cases s <;> simp_all [run]

theorem run_stop (n : Nat) (l : Lexer) : run n .stop l = some (.closed l.out) := by
  cases n <;> simp [run]

theorem run_failed (n : Nat) (l : Lexer) : run n .failed l = some (.panicked l.out) := by
  cases n <;> simp [run]

theorem run_mono : ∀ (n : Nat) (s : State) (l : Lexer) (o), run n s l = some o → run (n + 1) s l = some o := by
  intro n
  induction n with
  | zero =>
    intro s l o h
    by_cases h1 : s = .stop
    · subst h1; rw [run_stop] at h ⊢; exact h
    · by_cases h2 : s = .failed
      · subst h2; rw [run_failed] at h ⊢; exact h
      · rw [run_zero h1 h2] at h; simp at h
  | succ n ih =>
    intro s l o h
    by_cases h1 : s = .stop
    · subst h1; rw [run_stop] at h ⊢; exact h
    · by_cases h2 : s = .failed
      · subst h2; rw [run_failed] at h ⊢; exact h
      · rw [run_succ h1 h2] at h
        rw [run_succ h1 h2]
        cases e : step n s l with
        | none => rw [e] at h; simp at h
        | some x => rw [e] at h; rw [step_mono _ _ _ _ e]; exact ih _ _ _ h

theorem run_mono_le {m n : Nat} (hmn : m ≤ n) {s : State} {l : Lexer} {o} (h : run m s l = some o) :
    run n s l = some o := by
  induction hmn with
  | refl => exact h
  | step _ ih => exact run_mono _ _ _ _ ih

def RunsTo (s : State) (l : Lexer) (o : Outcome) : Prop := ∃ n, run n s l = some o

theorem RunsTo.det {s l o o'} (h : RunsTo s l o) (h' : RunsTo s l o') : o = o' := by
  obtain ⟨n, h⟩ := h
  obtain ⟨m, h'⟩ := h'
  have a := run_mono_le (Nat.le_max_left n m) h
  have b := run_mono_le (Nat.le_max_right n m) h'
  rw [a] at b
  exact Option.some.inj b

theorem runsTo_step {s : State} (h1 : s ≠ .stop) (h2 : s ≠ .failed) {N : Nat} {l : Lexer} {x : Lexer × State}
    (h : step N s l = some x) (o : Outcome) : RunsTo s l o ↔ RunsTo x.2 x.1 o := by
  constructor
  · rintro ⟨n, hn⟩
    have hn := run_mono_le (Nat.le_succ_of_le (Nat.le_max_left n N)) hn
    rw [Nat.succ_eq_add_one, run_succ h1 h2, step_mono_le (Nat.le_max_right n N) h] at hn
    exact ⟨_, hn⟩
  · rintro ⟨n, hn⟩
    refine ⟨max n N + 1, ?_⟩
    rw [run_succ h1 h2, step_mono_le (Nat.le_max_right n N) h]
    exact run_mono_le (Nat.le_max_left n N) hn

theorem not_runsTo {s : State} (h1 : s ≠ .stop) (h2 : s ≠ .failed) {l : Lexer} (h : ∀ n, step n s l = none) (o) :
    ¬ RunsTo s l o := by
  rintro ⟨n, hn⟩
  cases n with
  | zero => rw [run_zero h1 h2] at hn; simp at hn
  | succ n => rw [run_succ h1 h2, h] at hn; simp at hn

theorem runsTo_stop (l o) : RunsTo .stop l o ↔ o = .closed l.out := by
  constructor
  · rintro ⟨n, hn⟩
    rw [run_stop] at hn
    exact (Option.some.inj hn).symm
  · rintro rfl
    exact ⟨0, run_stop _ _⟩

/-! ### white space -/

theorem takeBlanks (u r : List Char) (hu : ∀ c ∈ u, Blank c) (hr : ¬ Starts Blank r) (pre out) :
    ((st pre (u ++ r) out).take " \t\r".toList).ignore = st (pre ++ u) r out := by
  unfold Lexer.take
  obtain ⟨rw', h⟩ := takeLoop_mid (containsRune " \t\r".toList) rfl u r
    (fun c hc => blank_mem.2 (hu c hc)) (by
      cases r with
      | nil => rfl
      | cons c r =>
        have : ¬ Blank c := fun h => hr ⟨c, r, rfl, h⟩
        rw [← blank_mem] at this
        simpa [containsRune] using this) ((st pre (u ++ r) out).src.length + 1) pre [] [] out (src_len _ _ _ _ _ _)
  unfold st at h ⊢
  rw [h, ignore_mid]
  simp [st]

theorem probably_eq (u r : List Char) (hu : ∀ c ∈ u, Blank c) (hr : ¬ Starts Blank r) (hne : u ++ r ≠ []) (pre out) :
    probablyWhitespaceState (st pre (u ++ r) out) = (st (pre ++ u) r out, .ident) := by
  unfold probablyWhitespaceState
  have hp : (st pre (u ++ r) out).peek = ((u ++ r).head?, st pre (u ++ r) out) := peek_eq _ _ _ _ _
  rw [hp]
  cases e : (u ++ r).head? with
  | none => simp at e; exact absurd (by simp [e]) hne
  | some c => exact Prod.ext (takeBlanks u r hu hr pre out) rfl

theorem probably_nil (pre out) : probablyWhitespaceState (st pre [] out) = (st pre [] out, .stop) := by
  unfold probablyWhitespaceState
  have hp : (st pre [] out).peek = (none, st pre [] out) := peek_nil _ _ _ _
  rw [hp]

theorem whitespace_eq (r : List Char) (pre out) :
    whitespaceState (st pre ('\n' :: r) out) = probablyWhitespaceState (st pre ('\n' :: r) out) := by
  unfold whitespaceState probablyWhitespaceState
  have hp : (st pre ('\n' :: r) out).peek = (some '\n', st pre ('\n' :: r) out) := peek_cons _ _ _ _ _ _
  rw [hp]
  rfl

theorem whitespace_nil (pre out) : whitespaceState (st pre [] out) = (st pre [] out, .stop) := by
  unfold whitespaceState
  have hp : (st pre [] out).peek = (none, st pre [] out) := peek_nil _ _ _ _
  rw [hp]

theorem whitespace_probably {r : List Char} (h : r = [] ∨ Starts (· = '\n') r) (pre out o) :
    RunsTo .whitespace (st pre r out) o ↔ RunsTo .probablyWhitespace (st pre r out) o := by
  have e : whitespaceState (st pre r out) = probablyWhitespaceState (st pre r out) := by
    rcases h with rfl | ⟨c, r', rfl, rfl⟩
    · rw [whitespace_nil, probably_nil]
    · exact whitespace_eq _ _ _
  have h1 := runsTo_step (s := .whitespace) (N := 0) (l := st pre r out) (x := probablyWhitespaceState (st pre r out))
    (by decide) (by decide) (by simp [step, e]) o
  have h2 := runsTo_step (s := .probablyWhitespace) (N := 0) (l := st pre r out)
    (x := probablyWhitespaceState (st pre r out)) (by decide) (by decide) (by simp [step]) o
  rw [h1, h2]

theorem number_probably (l o) :
    RunsTo .number l o ↔ RunsTo .probablyWhitespace ((l.take numberTokens).emit .number) o := by
  have h1 := runsTo_step (s := .number) (N := 0) (l := l) (x := numberState l) (by decide) (by decide) (by simp [step]) o
  have h2 := runsTo_step (s := .probablyWhitespace) (N := 0) (l := (l.take numberTokens).emit .number)
    (x := probablyWhitespaceState ((l.take numberTokens).emit .number)) (by decide) (by decide) (by simp [step]) o
  rw [h1, h2]
  rfl

end APS.Lex
