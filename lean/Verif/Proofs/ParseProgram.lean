import Verif.Spec.Write
import Verif.Proofs.ParseRound
import Verif.Proofs.ParseArray

/-! The parser hands over the constraints of a written program. -/
namespace APS.Parse
open APS.Lex (Token TokenType)
open APS.ParseSpec
open APS.LangSpec (Stm Fun Program brk lcur rcur semi gets kwVar kwIf endsPlain kwFor kwFunc kwReturn kwPublic eof lines paramEx publicLine emit emits emitFin writeFin
  emitFun emitPublic target writtenAll paramWritten)

/-! ### texts that do not occur in expressions -/

/-- line breaks, braces, `=` and `;` -/
def Outer (s : List Char) : Prop := s = ['\n'] ∨ s = ['{'] ∨ s = ['}'] ∨ s = ['='] ∨ s = [';']

theorem Outer.inert {s w : List Char} (hs : Outer s) (hw : Inert w) : w ≠ s := by
  obtain ⟨_, _, _, _, _, h6, h7, h8, h9, h10⟩ := hw
  rcases hs with rfl | rfl | rfl | rfl | rfl <;> assumption

theorem Outer.mark {s : List Char} (hs : Outer s) : lpar.text ≠ s ∧ rpar.text ≠ s ∧ lbrk.text ≠ s ∧ rbrk.text ≠ s ∧ comma.text ≠ s := by
  rcases hs with rfl | rfl | rfl | rfl | rfl <;> decide

section
variable {s : List Char} (hs : Outer s)
include hs

mutual
theorem clean_write : ∀ e : Ex, e.ok → ∀ t ∈ write e, t.text ≠ s
  | .num w, h => by unfold Ex.ok at h; simp only [write]; simpa using hs.inert h
  | .var w, h => by unfold Ex.ok at h; simp only [write]; simpa using hs.inert h
  | .bin op l r, h => by
    unfold Ex.ok at h
    have h1 := clean_write l h.2.2.2.1
    have h2 := clean_write r h.2.2.2.2
    have h3 := hs.inert h.2.1
    intro t ht
    simp only [write, List.mem_append, List.mem_cons] at ht
    rcases ht with h | rfl | h
    · exact h1 _ h
    · exact h3
    · exact h2 _ h
  | .paren e, h => by
    unfold Ex.ok at h
    have h1 := clean_write e h
    intro t ht
    simp only [write, List.mem_append, List.mem_cons, List.mem_singleton, List.not_mem_nil, or_false] at ht
    rcases ht with rfl | h | rfl
    · exact hs.mark.1
    · exact h1 _ h
    · exact hs.mark.2.1
  | .call f args, h => by
    unfold Ex.ok at h
    have h1 := clean_args args h.2
    intro t ht
    simp only [write, List.mem_append, List.mem_cons, List.mem_singleton, List.not_mem_nil, or_false] at ht
    rcases ht with rfl | rfl | h' | rfl
    · exact hs.inert h.1
    · exact hs.mark.1
    · exact h1 _ h'
    · exact hs.mark.2.1
  | .arr a idx, h => by
    unfold Ex.ok at h
    have h1 := clean_idx idx h.2.2
    intro t ht
    simp only [write, List.mem_cons] at ht
    rcases ht with rfl | h'
    · exact hs.inert h.1
    · exact h1 _ h'
theorem clean_args : ∀ es : List Ex, okAll es → ∀ t ∈ writeArgs es, t.text ≠ s
  | [], _ => by simp [writeArgs]
  | e :: es, h => by
    unfold okAll at h
    have h1 := clean_write e h.1
    have h2 := clean_more es h.2
    intro t ht
    simp only [writeArgs, List.mem_append] at ht
    exact ht.elim (h1 t) (h2 t)
theorem clean_more : ∀ es : List Ex, okAll es → ∀ t ∈ writeMore es, t.text ≠ s
  | [], _ => by simp [writeMore]
  | e :: es, h => by
    unfold okAll at h
    have h1 := clean_write e h.1
    have h2 := clean_more es h.2
    intro t ht
    simp only [writeMore, List.mem_append, List.mem_cons] at ht
    rcases ht with rfl | h' | h'
    · exact hs.mark.2.2.2.2
    · exact h1 t h'
    · exact h2 t h'
theorem clean_idx : ∀ es : List Ex, okAll es → ∀ t ∈ writeIdx es, t.text ≠ s
  | [], _ => by simp [writeIdx]
  | e :: es, h => by
    unfold okAll at h
    have h1 := clean_write e h.1
    have h2 := clean_idx es h.2
    intro t ht
    simp only [writeIdx, List.mem_append, List.mem_cons] at ht
    rcases ht with rfl | h' | rfl | h'
    · exact hs.mark.2.2.1
    · exact h1 t h'
    · exact hs.mark.2.2.2.1
    · exact h2 t h'
end
end

/-! ### splitting -/

theorem splitAtText_at {s : List Char} {a : List Token} (h : ∀ t ∈ a, t.text ≠ s) {c : Token} (hc : c.text = s) (r : List Token) :
    splitAtText s (a ++ c :: r) = (a, c :: r) := by
  induction a with
  | nil => simp [splitAtText, hc]
  | cons t a ih =>
    have h1 := h t (by simp)
    simp only [List.cons_append, splitAtText, if_neg h1, ih fun u hu => h u (by simp [hu])]

theorem splitAtText_not {s : List Char} {a : List Token} (h : ∀ t ∈ a, t.text ≠ s) : splitAtText s a = (a, []) := by
  induction a with
  | nil => rfl
  | cons t a ih =>
    have h1 := h t (by simp)
    simp only [splitAtText, if_neg h1, ih fun u hu => h u (by simp [hu])]

theorem balanced_clean {op cl : List Char} {ts : List Token} (h1 : ∀ t ∈ ts, t.text ≠ op) (h2 : ∀ t ∈ ts, t.text ≠ cl) : Balanced op cl ts := by
  induction ts with
  | nil => exact .nil _ _
  | cons t ts ih =>
    have := (Balanced.single (h1 t (by simp)) (h2 t (by simp))).append
      (ih (fun u hu => h1 u (by simp [hu])) (fun u hu => h2 u (by simp [hu])))
    simpa using this

/-- lines, each after a break -/
def T (items : List (List Token)) : List Token := items.flatMap (brk :: ·)

@[simp] theorem T_nil : T [] = [] := rfl
@[simp] theorem T_cons (i : List Token) (is : List (List Token)) : T (i :: is) = brk :: (i ++ T is) := by simp [T]
theorem T_append (a b : List (List Token)) : T (a ++ b) = T a ++ T b := by simp [T]

/-- a line: not empty, without a break at its ends -/
def Line (i : List Token) : Prop := (∃ t ts, i = t :: ts ∧ t.text ≠ ['\n']) ∧ ∃ ts t, i = ts ++ [t] ∧ t.text ≠ ['\n']

theorem splitAtText_T {i : List Token} (h : ∀ t ∈ i, t.text ≠ ['\n']) (R : List (List Token)) :
    splitAtText ['\n'] (i ++ T R) = (i, T R) := by
  cases R with
  | nil => rw [T_nil, List.append_nil]; exact splitAtText_not h
  | cons j R => rw [T_cons]; exact splitAtText_at h rfl _

theorem T_getLast {R : List (List Token)} (h : ∀ i ∈ R, Line i) (i : List Token) (hi : Line i) :
    ∃ ts t, i ++ T R = ts ++ [t] ∧ t.text ≠ ['\n'] := by
  induction R generalizing i with
  | nil => simpa using hi.2
  | cons j R ih =>
    obtain ⟨ts, t, e, ht⟩ := ih (fun k hk => h k (by simp [hk])) j (h j (by simp))
    exact ⟨i ++ brk :: ts, t, by rw [T_cons, e]; simp, ht⟩

theorem leading_brk (ts : List Token) : removeLeadingBreaks (brk :: ts) = removeLeadingBreaks ts := by
  simp [removeLeadingBreaks, brk]

theorem leading_line {i : List Token} (hi : Line i) (r : List Token) : removeLeadingBreaks (i ++ r) = i ++ r := by
  obtain ⟨⟨t, ts, rfl, ht⟩, _⟩ := hi
  simp [removeLeadingBreaks, ht]

theorem trailing_id {ts : List Token} {t : Token} (ht : t.text ≠ ['\n']) : removeTrailingBreaks (ts ++ [t]) = ts ++ [t] := by
  simp [removeTrailingBreaks, ht]

theorem trailing_brk (ts : List Token) : removeTrailingBreaks (ts ++ [brk]) = removeLeadingBreaks ts := by
  simp [removeTrailingBreaks, brk]

theorem leading_leading (ts : List Token) : removeLeadingBreaks (removeLeadingBreaks ts) = removeLeadingBreaks ts := by
  induction ts with
  | nil => rfl
  | cons t ts ih =>
    simp only [removeLeadingBreaks]
    split
    · exact ih
    · rename_i h; simp [removeLeadingBreaks, h]

theorem removeBreaks_T {i : List Token} (hi : Line i) {R : List (List Token)} (hR : ∀ i ∈ R, Line i) :
    removeBreaks (T (i :: R)) = i ++ T R := by
  obtain ⟨ts, t, e, ht⟩ := T_getLast hR i hi
  unfold removeBreaks
  rw [T_cons, e, ← List.cons_append, trailing_id ht, List.cons_append, leading_brk, ← e, leading_line hi]

theorem removeBreaks_top {i : List Token} (hi : Line i) {R : List (List Token)} (hR : ∀ i ∈ R, Line i) :
    removeBreaks (i ++ T R) = i ++ T R := by
  obtain ⟨ts, t, e, ht⟩ := T_getLast hR i hi
  unfold removeBreaks
  rw [e, trailing_id ht, ← e, leading_line hi]

theorem removeBreaks_T_brk {R : List (List Token)} (hR : ∀ i ∈ R, Line i) : removeBreaks (T R ++ [brk]) = removeBreaks (T R) := by
  cases R with
  | nil => simp [removeBreaks, removeTrailingBreaks, removeLeadingBreaks, brk]
  | cons i R =>
    rw [removeBreaks_T (hR i (by simp)) fun j hj => hR j (by simp [hj])]
    unfold removeBreaks
    rw [trailing_brk, leading_leading, T_cons, leading_brk, leading_line (hR i (by simp))]

theorem mode_congr {rf : List Char → Option (List Token)} {n : Nat} {a b : List Token} (h : removeBreaks a = removeBreaks b) :
    statementMode rf n a = statementMode rf n b := by
  cases n with
  | zero => rfl
  | succ n => simp only [statementMode, h]

/-- the lines `R` are handed over as `s`, whatever the fuel beyond the number of tokens -/
def Reads (rf : List Char → Option (List Token)) (R : List (List Token)) (s : Sent) : Prop :=
  (∀ i ∈ R, Line i) ∧ ∀ m, (T R).length < m → statementMode rf m (T R) = some s

theorem Reads.nil (rf : List Char → Option (List Token)) : Reads rf [] ⟨[], false⟩ := by
  refine ⟨by simp, fun m hm => ?_⟩
  cases m with
  | zero => simp at hm
  | succ m => simp [statementMode, removeBreaks, removeTrailingBreaks, removeLeadingBreaks]

/-- one step: after the line `i` the parser goes on with `T R` -/
theorem Reads.cons {rf : List Char → Option (List Token)} {R : List (List Token)} {s : Sent} (hR : Reads rf R s) {i : List Token} (hi : Line i)
    {s' : Sent} (h : ∀ m k, removeBreaks k = i ++ T R → (i ++ T R).length < m → statementMode rf m (T R) = some s →
      statementMode rf (m + 1) k = some s') : Reads rf (i :: R) s' := by
  refine ⟨fun j hj => ?_, fun m hm => ?_⟩
  · rcases List.mem_cons.mp hj with rfl | hj
    · exact hi
    · exact hR.1 j hj
  · rw [T_cons] at hm
    simp only [List.length_cons, List.length_append] at hm
    cases m with
    | zero => omega
    | succ m => exact h m _ (removeBreaks_T hi hR.1) (by rw [List.length_append]; omega) (hR.2 m (by omega))

theorem Line.mk' {t : Token} {ts : List Token} (h1 : t.text ≠ ['\n']) {us : List Token} {u : Token} (e : t :: ts = us ++ [u])
    (h2 : u.text ≠ ['\n']) : Line (t :: ts) := ⟨⟨t, ts, rfl, h1⟩, us, u, e, h2⟩

/-- a line without any break -/
theorem Line.clean {t : Token} {ts : List Token} (h : ∀ u ∈ t :: ts, u.text ≠ ['\n']) : Line (t :: ts) :=
  .mk' (h t (by simp)) (List.dropLast_append_getLast (List.cons_ne_nil t ts)).symm (h _ (List.getLast_mem _))

theorem head_write : ∀ (e : Ex), e.ok → ∃ t ts, write e = t :: ts ∧ t.type ≠ .functionDefine := by
  intro e
  induction e using Ex.rec (motive_2 := fun _ => True) with
  | num w => intro h; exact ⟨_, _, by simp only [write]; rfl, by simp⟩
  | var w => intro h; exact ⟨_, _, by simp only [write]; rfl, by simp⟩
  | bin op l r ihl _ =>
    intro h
    unfold Ex.ok at h
    obtain ⟨t, ts, e, ht⟩ := ihl h.2.2.2.1
    exact ⟨t, _, by simp only [write, e]; rfl, ht⟩
  | paren e _ => intro h; exact ⟨_, _, by simp only [write]; rfl, by simp [lpar]⟩
  | call f args _ => intro h; exact ⟨_, _, by simp only [write]; rfl, by simp⟩
  | arr a idx _ => intro h; exact ⟨_, _, by simp only [write]; rfl, by simp⟩
  | nil => trivial
  | cons => trivial

theorem outer_brk : Outer ['\n'] := Or.inl rfl
theorem outer_eq : Outer ['='] := by simp [Outer]
theorem outer_semi : Outer [';'] := by simp [Outer]

variable {rf : List Char → Option (List Token)} {R : List (List Token)} {s : Sent}

theorem decl_reads (hR : Reads rf R s) {x : List Char} {e : Ex} (hx : Inert x) (he : e.ok) :
    Reads rf ((Stm.decl x e).write :: R) (Sent.then ⟨emit (.decl x e), false⟩ s) := by
  have hcl : ∀ t ∈ (Stm.decl x e).write, t.text ≠ ['\n'] := by
    intro t ht
    simp only [Stm.write, List.mem_cons] at ht
    rcases ht with rfl | rfl | rfl | ht
    · decide
    · exact outer_brk.inert hx
    · decide
    · exact clean_write outer_brk e he t ht
  refine hR.cons (by rw [Stm.write] at hcl ⊢; exact .clean hcl) fun m k hk _ hm => ?_
  obtain ⟨t, ts, ew, ht⟩ := head_write e he
  have hsp := splitAtText_T hcl R
  have hp := parse_write e he
  rw [ew] at hp
  rw [statementMode]
  simp only [hk]
  simp [Stm.write, kwVar, gets, ew] at hsp
  simp [Stm.write, kwVar, gets, ew, isVariableAssignment, ht, hsp, hp, hm, say, Sent.then, emit]

theorem target_write (x : List Char) (idx : List Ex) (hx : Inert x) (hi : okAll idx) :
    parseExpression (⟨.identifier, x⟩ :: writeIdx idx) = some (target x idx) := by
  cases idx with
  | nil =>
    have := parse_write (.var x) (by unfold Ex.ok; exact hx)
    simpa [write, writeIdx, target, tree] using this
  | cons i is =>
    have := parse_write (.arr x (i :: is)) (by unfold Ex.ok; exact ⟨hx, by simp, hi⟩)
    simpa [write, target, tree] using this

theorem assign_reads (hR : Reads rf R s) {x : List Char} {idx : List Ex} {e : Ex} (hx : Inert x) (hi : okAll idx) (he : e.ok) :
    Reads rf ((Stm.assign x idx e).write :: R) (Sent.then ⟨emit (.assign x idx e), false⟩ s) := by
  have hcl : ∀ t ∈ (Stm.assign x idx e).write, t.text ≠ ['\n'] := by
    intro t ht
    simp only [Stm.write, List.mem_cons, List.mem_append] at ht
    rcases ht with rfl | ht | rfl | ht
    · exact outer_brk.inert hx
    · exact clean_idx outer_brk idx hi t ht
    · decide
    · exact clean_write outer_brk e he t ht
  refine hR.cons (by rw [Stm.write] at hcl ⊢; exact .clean hcl) fun m k hk _ hm => ?_
  have hsp := splitAtText_T hcl R
  have hsp2 : splitAtText ['='] (⟨.identifier, x⟩ :: (writeIdx idx ++ gets :: write e)) = (⟨.identifier, x⟩ :: writeIdx idx, gets :: write e) := by
    rw [← List.cons_append]
    refine splitAtText_at (c := gets) (s := ['=']) (fun t ht => ?_) rfl _
    rcases List.mem_cons.mp ht with rfl | ht
    · exact outer_eq.inert hx
    · exact clean_idx outer_eq idx hi t ht
  rw [statementMode]
  simp only [hk]
  simp [Stm.write] at hsp
  simp [Stm.write, hsp, hsp2, target_write x idx hx hi, parse_write e he, hm, say, Sent.then, emit]

theorem argumentParse_write {split : List Token → Option (Option (List Token × List Token))} {stack rem : List Token} {es : List Ex}
    (hs : split stack = some (some (writeArgs es, rem))) (he : okAll es) : argumentParse split stack = some (trees es, rem) := by
  unfold argumentParse argumentParseWith
  rw [hs]
  cases es with
  | nil => simp [writeArgs, trees]
  | cons e es =>
    unfold okAll at he
    have hne : writeArgs (e :: es) ≠ [] := by
      obtain ⟨t, ts, h, _⟩ := head_write e he.1
      simp [writeArgs, h]
    simp only [if_neg hne]
    rw [splitArgs_write es e _ he.1 he.2 le_rfl, mapM_write parseExpression (e :: es)]
    · rfl
    · intro x hx
      exact parse_write x (okAll_mem (by unfold okAll; exact he) x hx)

theorem call_reads (hR : Reads rf R s) {f : List Char} {args : List Ex} (hf : Inert f) (ha : okAll args) :
    Reads rf ((Stm.call f args).write :: R) (Sent.then ⟨emit (.call f args), false⟩ s) := by
  have hcl : ∀ t ∈ (Stm.call f args).write, t.text ≠ ['\n'] := by
    intro t ht
    simp only [Stm.write, List.mem_cons, List.mem_append, List.not_mem_nil, or_false] at ht
    rcases ht with rfl | rfl | ht | rfl
    · exact outer_brk.inert hf
    · decide
    · exact clean_args outer_brk args ha t ht
    · decide
  refine hR.cons (by rw [Stm.write] at hcl ⊢; exact .clean hcl) fun m k hk hlen hm => ?_
  have hsp : splitRound (lpar :: (writeArgs args ++ rpar :: T R)) = some (some (writeArgs args, T R)) := by
    unfold splitRound
    rw [split_open (op := ['(']) (cl := [')']) (by decide) rfl]
    exact ⟨rpar, rfl, rfl, (bal_args args ha).1⟩
  have hap := argumentParse_write hsp ha
  rw [statementMode]
  simp only [hk]
  simp [Stm.write, hap]
  cases R with
  | nil => simp at hm ⊢; simp [hm, say, Sent.then, emit]
  | cons i R =>
    rw [T_cons] at hm ⊢
    simp [brk] at hm ⊢
    simp [hm, say, Sent.then, emit]

theorem declArr_reads (hR : Reads rf R s) {a : List Char} {es : List Ex} (hx : Inert a) (he : okAll es) :
    Reads rf ((Stm.declArr a es).write :: R) (Sent.then ⟨emit (.declArr a es), false⟩ s) := by
  have hcl : ∀ t ∈ (Stm.declArr a es).write, t.text ≠ ['\n'] := by
    intro t ht
    simp only [Stm.write, List.mem_cons, List.mem_append, List.not_mem_nil, or_false] at ht
    rcases ht with rfl | rfl | rfl | rfl | rfl | rfl | ht | rfl
    · decide
    · exact outer_brk.inert hx
    · decide
    · decide
    · decide
    · decide
    · exact clean_args outer_brk es he t ht
    · decide
  refine hR.cons (by rw [Stm.write] at hcl ⊢; exact .clean hcl) fun m k hk hlen hm => ?_
  have hsp := splitAtText_T hcl R
  have hsw : splitSwing (lcur :: (writeArgs es ++ [rcur])) = some (some (writeArgs es, [])) := by
    unfold splitSwing
    rw [split_open (op := ['{']) (cl := ['}']) (by decide) rfl]
    refine ⟨rcur, rfl, rfl, ?_⟩
    exact balanced_clean (fun t ht => clean_args (by simp [Outer]) es he t ht) (fun t ht => clean_args (by simp [Outer]) es he t ht)
  have hap := argumentParse_write hsw he
  rw [statementMode]
  simp only [hk]
  simp [Stm.write, kwVar, lbrk, rbrk, gets, lcur] at hsp
  simp only [lcur] at hap
  simp [Stm.write, kwVar, lbrk, rbrk, gets, lcur, isVariableAssignment, hsp, isArrayAssignment, hap, hm, say, Sent.then, emit]

/-! ### blocks -/

theorem outer_lcur : Outer ['{'] := by simp [Outer]
theorem outer_rcur : Outer ['}'] := by simp [Outer]

/-- balanced braces -/
abbrev Swing (ts : List Token) : Prop := Balanced ['{'] ['}'] ts

theorem swing_cons {t : Token} (h1 : t.text ≠ ['{']) (h2 : t.text ≠ ['}']) {ts : List Token} (h : Swing ts) : Swing (t :: ts) := by
  have := (Balanced.single h1 h2).append h
  simpa using this

theorem swing_write (e : Ex) (he : e.ok) : Swing (write e) :=
  balanced_clean (clean_write outer_lcur e he) (clean_write outer_rcur e he)
theorem swing_args (es : List Ex) (he : okAll es) : Swing (writeArgs es) :=
  balanced_clean (clean_args outer_lcur es he) (clean_args outer_rcur es he)
theorem swing_idx (es : List Ex) (he : okAll es) : Swing (writeIdx es) :=
  balanced_clean (clean_idx outer_lcur es he) (clean_idx outer_rcur es he)

theorem swing_braces {l r : List Token} (hl : Swing l) (hr : Swing r) : Swing (lcur :: (l ++ rcur :: r)) := by
  have := (Balanced.wrap (op := ['{']) (cl := ['}']) (by decide) (o := lcur) (c := rcur) rfl rfl hl).append hr
  simpa using this

theorem swing_fin (fin : Option Ex) (h : ∀ e, fin = some e → e.ok) : Swing (writeFin fin) := by
  cases fin with
  | none => exact Balanced.nil _ _
  | some e => exact swing_cons (by decide) (by decide) ((swing_write e (h e rfl)).append (swing_cons (by decide) (by decide) (Balanced.nil _ _)))

mutual
theorem swing_stm : ∀ st : Stm, st.written → Swing st.write
  | .decl x e, h => by
    unfold Stm.written at h
    rw [Stm.write]
    exact swing_cons (by decide) (by decide) (swing_cons (outer_lcur.inert h.1) (outer_rcur.inert h.1) (swing_cons (by decide) (by decide) (swing_write e h.2)))
  | .declArr a es, h => by
    unfold Stm.written at h
    rw [Stm.write]
    exact swing_cons (by decide) (by decide) (swing_cons (outer_lcur.inert h.1) (outer_rcur.inert h.1) (swing_cons (by decide) (by decide)
      (swing_cons (by decide) (by decide) (swing_cons (by decide) (by decide) (swing_braces (swing_args es h.2) (Balanced.nil _ _))))))
  | .assign x idx e, h => by
    unfold Stm.written at h
    rw [Stm.write]
    exact swing_cons (outer_lcur.inert h.1) (outer_rcur.inert h.1) ((swing_idx idx h.2.1).append
      (swing_cons (by decide) (by decide) (swing_write e h.2.2)))
  | .call f args, h => by
    unfold Stm.written at h
    rw [Stm.write]
    exact swing_cons (outer_lcur.inert h.1) (outer_rcur.inert h.1) (swing_cons (by decide) (by decide) ((swing_args args h.2).append
      (swing_cons (by decide) (by decide) (Balanced.nil _ _))))
  | .loop l cmp r x step body, h => by
    unfold Stm.written at h
    rw [Stm.write]
    refine swing_cons (by decide) (by decide) (swing_cons (by decide) (by decide) ((swing_write _ h.1).append
      (swing_cons (by decide) (by decide) (swing_cons (outer_lcur.inert h.2.1) (outer_rcur.inert h.2.1) (swing_cons (by decide) (by decide)
      ((swing_write _ h.2.2.1).append (swing_cons (by decide) (by decide) ?_)))))))
    exact swing_braces (l := brk :: lines body) (swing_cons (by decide) (by decide) (swing_lines body h.2.2.2.1)) (Balanced.nil _ _)
  | .cond l cmp r body fin, h => by
    unfold Stm.written at h
    rw [Stm.write]
    refine swing_cons (by decide) (by decide) (swing_cons (by decide) (by decide) ((swing_write _ h.1).append (swing_cons (by decide) (by decide) ?_)))
    have := swing_braces (l := brk :: (lines body ++ writeFin fin)) (swing_cons (by decide) (by decide)
      ((swing_lines body h.2.1).append (swing_fin fin h.2.2.1))) (Balanced.nil _ _)
    simpa using this
theorem swing_lines : ∀ sts : List Stm, writtenAll sts → Swing (lines sts)
  | [], _ => by rw [lines]; exact Balanced.nil _ _
  | st :: sts, h => by
    unfold writtenAll at h
    rw [lines]
    exact (swing_stm st h.1).append (swing_cons (by decide) (by decide) (swing_lines sts h.2))
end

theorem ret_reads {e : Ex} (he : e.ok) : Reads rf [kwReturn :: write e] ⟨[marker .ret [tree e]], false⟩ := by
  have hcl : ∀ t ∈ kwReturn :: write e, t.text ≠ ['\n'] := by
    intro t ht
    rcases List.mem_cons.mp ht with rfl | ht
    · decide
    · exact clean_write outer_brk e he t ht
  refine (Reads.nil rf).cons (.clean hcl) fun m k hk _ hm => ?_
  obtain ⟨t, ts, ew, _⟩ := head_write e he
  have hsp := splitAtText_not hcl
  have hp := parse_write e he
  rw [ew] at hp
  rw [statementMode]
  simp only [hk]
  simp [kwReturn, ew] at hsp
  simp [kwReturn, ew, hsp, hp, removeBreaks, removeTrailingBreaks, removeLeadingBreaks, say]

/-- the line of `return`, if there is one -/
def finLine : Option Ex → List (List Token)
  | none => []
  | some e => [kwReturn :: write e]

theorem lines_T (sts : List Stm) : brk :: lines sts = T (sts.map Stm.write) ++ [brk] := by
  induction sts with
  | nil => simp [lines]
  | cons st sts ih => rw [lines, List.map_cons, T_cons, ih]; simp

theorem block_T (sts : List Stm) (fin : Option Ex) : brk :: (lines sts ++ writeFin fin) = T (sts.map Stm.write ++ finLine fin) ++ [brk] := by
  rw [T_append, ← List.cons_append, lines_T]
  cases fin <;> simp [finLine, writeFin]

theorem then_assoc (a b c : Sent) : (a.then b).then c = a.then (b.then c) := by simp [Sent.then, Bool.or_assoc]

theorem splitSwing_body {body r : List Token} (h : Swing body) : splitSwing (brk :: (body ++ rcur :: r)) = some (some (brk :: body, r)) := by
  unfold splitSwing
  rw [split_inside (op := ['{']) (cl := ['}']) (by decide) (by decide)]
  exact ⟨rcur, rfl, rfl, swing_cons (by decide) (by decide) h⟩

theorem loop_reads (hR : Reads rf R s) {l r step : Ex} {cmp x : List Char} {body : List Stm} (hc : (Ex.bin ⟨.comparator, cmp⟩ l r).ok)
    (hx : Inert x) (hs : step.ok) (hw : writtenAll body) (hb : Reads rf (body.map Stm.write) ⟨emits body, false⟩) :
    Reads rf ((Stm.loop l cmp r x step body).write :: R) (Sent.then ⟨emit (.loop l cmp r x step body), false⟩ s) := by
  refine hR.cons ?_ fun m k hk hlen hm => ?_
  · rw [Stm.write]
    refine .mk' (us := kwFor :: lpar :: (write (.bin ⟨.comparator, cmp⟩ l r) ++ semi :: ⟨.identifier, x⟩ :: gets ::
      (write step ++ rpar :: lcur :: brk :: lines body))) (u := rcur) (by decide) (by simp) (by decide)
  have h1 : splitAtText [';'] (write (.bin ⟨.comparator, cmp⟩ l r) ++ semi :: ⟨.identifier, x⟩ :: gets ::
      (write step ++ rpar :: lcur :: brk :: (lines body ++ rcur :: T R))) = (write (.bin ⟨.comparator, cmp⟩ l r), semi :: ⟨.identifier, x⟩ :: gets ::
      (write step ++ rpar :: lcur :: brk :: (lines body ++ rcur :: T R))) :=
    splitAtText_at (c := semi) (clean_write outer_semi _ hc) rfl _
  have h2 : splitRound (⟨.identifier, x⟩ :: gets :: (write step ++ rpar :: lcur :: brk :: (lines body ++ rcur :: T R))) =
      some (some (⟨.identifier, x⟩ :: gets :: write step, lcur :: brk :: (lines body ++ rcur :: T R))) := by
    unfold splitRound
    rw [split_inside (op := ['(']) (cl := [')']) (by decide) hx.1]
    exact ⟨rpar, rfl, rfl, ((Bal.inert hx ((Bal.single (by decide) (by decide) (by decide) (by decide)).append (bal_write step hs))).1)⟩
  have h3 : splitAtText ['='] (⟨.identifier, x⟩ :: gets :: write step) = ([⟨.identifier, x⟩], gets :: write step) :=
    splitAtText_at (c := gets) (a := [⟨.identifier, x⟩]) (s := ['=']) (by simpa using outer_eq.inert hx) rfl _
  have h4 := splitSwing_body (r := T R) (swing_lines body hw)
  have hlt : (T (body.map Stm.write)).length < m := by
    have e := congrArg List.length (lines_T body)
    simp only [List.length_cons, List.length_append] at e
    simp only [Stm.write, List.length_cons, List.length_append] at hlen
    omega
  have h5 : statementMode rf m (brk :: lines body) = some ⟨emits body, false⟩ := by
    rw [lines_T, mode_congr (removeBreaks_T_brk hb.1)]
    exact hb.2 m hlt
  obtain ⟨t, ts, ew, _⟩ := head_write step hs
  have hv : isVariableAssignment (⟨.identifier, x⟩ :: gets :: write step) = true := by
    rw [ew]; simp [isVariableAssignment, gets]
  have ht := target_write x [] hx (by unfold okAll; trivial)
  rw [writeIdx] at ht
  rw [statementMode]
  simp only [hk]
  simp only [Stm.write, List.cons_append, List.append_assoc, List.nil_append]
  simp only [kwFor, lpar, ne_eq, not_true_eq_false, if_false, h1, parse_write _ hc, h2, hv, h3, ht, parse_write step hs,
    Option.bind_eq_bind, Option.bind_some, Bool.not_true, Bool.false_eq_true]
  have h6 : removeLeadingBreaks (lcur :: brk :: (lines body ++ rcur :: T R)) = lcur :: brk :: (lines body ++ rcur :: T R) := rfl
  rw [h6]
  simp only [show lcur.text = ['{'] from rfl, h4, h5, hm, ne_eq, not_true_eq_false, if_false, Option.bind_some, Option.pure_def]
  simp [say, Sent.then, emit]

theorem splitSwing_braced {body r : List Token} (h : Swing body) : splitSwing (lcur :: (body ++ rcur :: r)) = some (some (body, r)) := by
  have := (closeScan_bal (op := ['{']) (cl := ['}']) (by decide) (body ++ rcur :: r) [lcur] (lcur :: body) r).mpr ⟨body, rcur, rfl, rfl, by simp, h⟩
  have e : closeScan ['{'] ['}'] 0 [] (lcur :: (body ++ rcur :: r)) = some (lcur :: body, r) := by
    rw [closeScan]
    simpa [lcur] using this
  simp only [splitSwing, splitAtClosing]
  rw [if_neg (by simp [lcur]), e]
  rfl

theorem cond_split {l r : Ex} {cmp : List Char} {blk : List Token} (hc : (Ex.bin ⟨.comparator, cmp⟩ l r).ok) :
    splitAtText ['{'] (kwIf :: lpar :: (write (.bin ⟨.comparator, cmp⟩ l r) ++ rpar :: lcur :: brk :: (blk ++ rcur :: T R))) =
      (kwIf :: write (.paren (.bin ⟨.comparator, cmp⟩ l r)), lcur :: brk :: (blk ++ rcur :: T R)) := by
  have hpo : (Ex.paren (.bin ⟨.comparator, cmp⟩ l r)).ok := by rw [Ex.ok]; exact hc
  have := splitAtText_at (s := ['{']) (a := kwIf :: write (.paren (.bin ⟨.comparator, cmp⟩ l r))) (c := lcur) (by
    intro t ht
    rcases List.mem_cons.mp ht with rfl | ht
    · decide
    · exact clean_write outer_lcur _ hpo t ht) rfl (brk :: (blk ++ rcur :: T R))
  rw [← this]
  congr 1
  rw [write.eq_def (.paren _)]
  simp

theorem cond_reads (hR : Reads rf R s) (hne : R ≠ []) {l r : Ex} {cmp : List Char} {body : List Stm} {fin : Option Ex}
    (hc : (Ex.bin ⟨.comparator, cmp⟩ l r).ok) (hw : writtenAll body) (hfin : ∀ e, fin = some e → e.ok)
    (hb : Reads rf (body.map Stm.write ++ finLine fin) ⟨emits body ++ emitFin fin, false⟩) :
    Reads rf ((Stm.cond l cmp r body fin).write :: R) (Sent.then ⟨emit (.cond l cmp r body fin), false⟩ s) := by
  refine hR.cons ?_ fun m k hk hlen hm => ?_
  · rw [Stm.write]
    refine .mk' (us := kwIf :: lpar :: (write (.bin ⟨.comparator, cmp⟩ l r) ++ rpar :: lcur :: brk :: (lines body ++ writeFin fin))) (u := rcur) (by decide) (by simp) (by decide)
  have hpo : (Ex.paren (.bin ⟨.comparator, cmp⟩ l r)).ok := by rw [Ex.ok]; exact hc
  have h1 := cond_split (R := R) (blk := lines body ++ writeFin fin) hc
  have h4 := splitSwing_braced (r := T R) (swing_cons (t := brk) (by decide) (by decide) ((swing_lines body hw).append (swing_fin fin hfin)))
  rw [List.cons_append] at h4
  rw [List.append_assoc] at h1 h4
  have hlt : (T (body.map Stm.write ++ finLine fin)).length < m := by
    have e := congrArg List.length (block_T body fin)
    simp only [List.length_cons, List.length_append] at e
    simp only [Stm.write, List.length_cons, List.length_append] at hlen
    omega
  have h5 : statementMode rf m (brk :: (lines body ++ writeFin fin)) = some ⟨emits body ++ emitFin fin, false⟩ := by
    rw [block_T, mode_congr (removeBreaks_T_brk hb.1)]
    exact hb.2 m hlt
  obtain ⟨i, is, rfl⟩ := List.exists_cons_of_ne_nil hne
  have h6 : parseExpression (write (.paren (.bin ⟨.comparator, cmp⟩ l r))) = some (tree (.bin ⟨.comparator, cmp⟩ l r)) := by
    rw [parse_write _ hpo, tree]
  have hbr : branch (statementMode rf m) 1 true .ifT ((Stm.cond l cmp r body fin).write ++ T (i :: is)) =
      some (⟨marker .ifT [tree (.bin ⟨.comparator, cmp⟩ l r)] :: ((emits body ++ emitFin fin) ++ [marker .nestedEnd]), false⟩, T (i :: is)) := by
    unfold branch
    simp only [Stm.write, List.cons_append, List.append_assoc, List.nil_append, h1, h4, h5]
    simp [-T_cons, h4, h5, h6, say, Sent.then]
  have hch : ifChain (statementMode rf m) ((Stm.cond l cmp r body fin).write ++ T (i :: is)) =
      some (⟨emit (.cond l cmp r body fin), false⟩, T (i :: is)) := by
    unfold ifChain
    rw [hbr]
    have he : ∀ n, elseIfs (statementMode rf m) n false (T (i :: is)) = some (⟨[], false⟩, false, T (i :: is)) := by
      intro n
      rw [T_cons, elseIfs.eq_def]
      simp [brk]
    have hh : ((T (i :: is)).head?.map Token.type == some .elseT) = false := by simp [brk]
    simp only [he, hh, Option.bind_eq_bind, Option.bind_some, Option.pure_def, Bool.not_false, Bool.and_false, Bool.false_eq_true, if_false]
    simp [-T_cons, say, Sent.then, emit]
  rw [statementMode]
  simp only [hk]
  rw [show (Stm.cond l cmp r body fin).write ++ T (i :: is) = kwIf :: (((Stm.cond l cmp r body fin).write ++ T (i :: is)).tail) by simp [Stm.write]]
  simp only [kwIf]
  rw [show (⟨.ifT, "if".toList⟩ : Token) :: (((Stm.cond l cmp r body fin).write ++ T (i :: is)).tail) = (Stm.cond l cmp r body fin).write ++ T (i :: is) by simp [Stm.write, kwIf]]
  simp [-T_cons, hch, hm]

mutual
theorem stm_reads {rf : List Char → Option (List Token)} : ∀ st : Stm, st.written → ∀ {R : List (List Token)} {s : Sent}, Reads rf R s →
    (R ≠ [] ∨ endsPlain [st] = true) → Reads rf (st.write :: R) (Sent.then ⟨emit st, false⟩ s)
  | .decl x e, h, _, _, hR, _ => by unfold Stm.written at h; exact decl_reads hR h.1 h.2
  | .declArr a es, h, _, _, hR, _ => by unfold Stm.written at h; exact declArr_reads hR h.1 h.2
  | .assign x idx e, h, _, _, hR, _ => by unfold Stm.written at h; exact assign_reads hR h.1 h.2.1 h.2.2
  | .call f args, h, _, _, hR, _ => by unfold Stm.written at h; exact call_reads hR h.1 h.2
  | .loop l cmp r x step body, h, _, _, hR, _ => by
    unfold Stm.written at h
    have hb := stms_reads body h.2.2.2.1 (Reads.nil rf) (.inr h.2.2.2.2)
    rw [List.append_nil] at hb
    have e : Sent.then ⟨emits body, false⟩ ⟨[], false⟩ = ⟨emits body, false⟩ := by simp [Sent.then]
    rw [e] at hb
    exact loop_reads hR h.1 h.2.1 h.2.2.1 h.2.2.2.1 hb
  | .cond l cmp r body fin, h, _, _, hR, hp => by
    unfold Stm.written at h
    refine cond_reads hR (hp.resolve_right (by simp [endsPlain])) h.1 h.2.1 h.2.2.1 ?_
    cases fin with
    | none =>
      have hb := stms_reads body h.2.1 (Reads.nil rf) (.inr (h.2.2.2 rfl))
      simpa [finLine, emitFin, Sent.then] using hb
    | some e =>
      have hb := stms_reads body h.2.1 (ret_reads (rf := rf) (h.2.2.1 e rfl)) (.inl (by simp))
      simpa [finLine, emitFin, Sent.then] using hb
theorem stms_reads {rf : List Char → Option (List Token)} : ∀ sts : List Stm, writtenAll sts → ∀ {R : List (List Token)} {s : Sent}, Reads rf R s →
    (R ≠ [] ∨ endsPlain sts = true) → Reads rf (sts.map Stm.write ++ R) (Sent.then ⟨emits sts, false⟩ s)
  | [], _, _, s, hR, _ => by simpa [emits, Sent.then] using hR
  | st :: sts, h, R, s, hR, hp => by
    unfold writtenAll at h
    have hp1 : R ≠ [] ∨ endsPlain sts = true := by
      refine hp.imp_right fun hp => ?_
      cases sts with
      | nil => rfl
      | cons a as => simpa [endsPlain] using hp
    have hp2 : sts.map Stm.write ++ R ≠ [] ∨ endsPlain [st] = true := by
      cases sts with
      | nil => simpa using hp
      | cons a as => exact .inl (by simp)
    have := stm_reads st h.1 (stms_reads sts h.2 hR hp1) hp2
    rw [← then_assoc] at this
    simpa [emits, Sent.then] using this
end

/-! ### functions -/

theorem digits_inert (d : Nat) : Inert (Nat.toDigits 10 d) := by
  have hd : ∀ c ∈ Nat.toDigits 10 d, c.isDigit = true := fun c hc => Nat.isDigit_of_mem_toDigits (by decide) (by decide) hc
  have h : ∀ c : Char, c.isDigit = false → Nat.toDigits 10 d ≠ [c] := by
    intro c hc h
    have := hd c (by rw [h]; simp)
    rw [hc] at this
    cases this
  refine ⟨?_, ?_, ?_, ?_, ?_, ?_, ?_, ?_, ?_, ?_⟩ <;> exact h _ (by decide)

theorem okAll_of {es : List Ex} (h : ∀ e ∈ es, e.ok) : okAll es := by
  induction es with
  | nil => unfold okAll; trivial
  | cons e es ih => unfold okAll; exact ⟨h e (by simp), ih fun x hx => h x (by simp [hx])⟩

theorem paramEx_ok {p : List Char × List Nat} (h : Inert p.1) : (paramEx p).ok := by
  unfold paramEx
  split
  · unfold Ex.ok; exact h
  · rename_i hne
    unfold Ex.ok
    refine ⟨h, by simpa using hne, okAll_of ?_⟩
    intro e he
    obtain ⟨d, _, rfl⟩ := List.mem_map.mp he
    unfold Ex.ok
    exact digits_inert d

theorem trees_map (es : List Ex) : trees es = es.map tree := by
  induction es with
  | nil => rfl
  | cons e es ih => simp [trees, ih]

theorem param_tree_public (p : List Char × List Nat) :
    (match tree (paramEx p) with | .mk o is => Constraint.mk ⟨.publicT, o.text⟩ is) = emitPublic p := by
  obtain ⟨x, ds⟩ := p
  cases ds with
  | nil => simp [paramEx, emitPublic, tree]
  | cons d ds => simp [paramEx, emitPublic, tree, trees_map]

theorem public_reads (hR : Reads rf R s) {pubs : List (List Char × List Nat)} (hne : pubs ≠ []) (hp : ∀ p ∈ pubs, Inert p.1) :
    Reads rf ((kwPublic :: lcur :: (writeArgs (pubs.map paramEx) ++ [rcur])) :: R) (Sent.then ⟨pubs.map emitPublic, false⟩ s) := by
  have hok : okAll (pubs.map paramEx) := okAll_of fun e he => by
    obtain ⟨p, hpm, rfl⟩ := List.mem_map.mp he
    exact paramEx_ok (hp p hpm)
  have hcl : ∀ t ∈ kwPublic :: lcur :: (writeArgs (pubs.map paramEx) ++ [rcur]), t.text ≠ ['\n'] := by
    intro t ht
    simp only [List.mem_cons, List.mem_append, List.not_mem_nil, or_false] at ht
    rcases ht with rfl | rfl | ht | rfl
    · decide
    · decide
    · exact clean_args outer_brk _ hok t ht
    · decide
  refine hR.cons (.clean hcl) fun m k hk _ hm => ?_
  have hsw : splitSwing (writeArgs (pubs.map paramEx) ++ rcur :: T R) = some (some (writeArgs (pubs.map paramEx), T R)) := by
    unfold splitSwing
    cases pubs with
    | nil => exact absurd rfl hne
    | cons p ps =>
      rw [List.map_cons] at hok ⊢
      have hw := clean_args outer_lcur _ hok
      have hsg := swing_args _ hok
      obtain ⟨t, ts, ew, _⟩ := head_write (paramEx p) (paramEx_ok (hp p (by simp)))
      rw [writeArgs, ew, List.cons_append] at hw hsg ⊢
      rw [List.cons_append, split_inside (op := ['{']) (cl := ['}']) (by decide) (hw t (by simp))]
      exact ⟨rcur, rfl, rfl, hsg⟩
  have hap := argumentParse_write hsw hok
  rw [statementMode]
  simp only [hk]
  simp only [kwPublic, lcur, List.cons_append, List.append_assoc, List.nil_append, ne_eq, not_true_eq_false, if_false, hap, hm,
    Option.bind_eq_bind, Option.bind_some, Option.pure_def]
  rw [trees_map, List.map_map, List.map_map]
  refine congrArg some (congrArg (Sent.then · s) (congrArg (Sent.mk · false) (List.map_congr_left fun p _ => ?_)))
  exact param_tree_public p

theorem parseDim_digits {d : Nat} (h0 : 0 < d) (h1 : d < 2 ^ 63) : parseDim (Nat.toDigits 10 d) = some d := by
  have hd : ∀ c ∈ Nat.toDigits 10 d, c.isDigit = true := fun c hc => Nat.isDigit_of_mem_toDigits (by decide) (by decide) hc
  have hv : (Nat.toDigits 10 d).foldl (fun a c => 10 * a + (c.toNat - 48)) 0 = d := by
    have := Nat.ofDigitChars_toDigits (b := 10) (n := d) (by decide) (by decide)
    simpa [Nat.ofDigitChars] using this
  unfold parseDim
  rw [if_pos]
  · simp only [hv]
    rw [if_pos ⟨h0, h1⟩]
  · refine ⟨Nat.toDigits_ne_nil, List.all_eq_true.mpr fun c hc => ?_⟩
    have := hd c hc
    simp only [Char.isDigit, Bool.and_eq_true, decide_eq_true_eq] at this ⊢
    exact this

theorem header_param {p : List Char × List Nat} (h : paramWritten p) :
    header (tree (paramEx p)) = some ((tuples p.2).map fun is => .mk ⟨.argument, p.1 ++ indexText is⟩ []) := by
  obtain ⟨x, ds⟩ := p
  cases ds with
  | nil => simp [paramEx, tree, header, tuples, indexText]
  | cons d ds =>
    have hm : ∀ ds : List Nat, (∀ d ∈ ds, 0 < d ∧ d < 2 ^ 63) →
        ((ds.map fun d => Constraint.mk ⟨.number, Nat.toDigits 10 d⟩ []).mapM fun i =>
          if i.output.type = .number then parseDim i.output.text else none) = some ds := by
      intro ds
      induction ds with
      | nil => intro _; rfl
      | cons d ds ih =>
        intro h
        have hd := h d (by simp)
        rw [List.map_cons, List.mapM_cons, ih fun e he => h e (by simp [he])]
        simp [Constraint.output, parseDim_digits hd.1 hd.2]
    have := hm (d :: ds) h.2
    simp only [paramEx, List.cons_ne_nil, if_false, tree, trees_map, header, if_true, List.map_map]
    have e : (tree ∘ fun d => Ex.num (Nat.toDigits 10 d)) = fun d => Constraint.mk ⟨.number, Nat.toDigits 10 d⟩ [] := by
      funext d; simp [tree]
    rw [e, this]
    simp [arrayStringBuild_eq]

/-- the lines of a function body -/
def bodyLines (pubs : List (List Char × List Nat)) (F : Fun) : List (List Token) :=
  (if pubs = [] then [] else [kwPublic :: lcur :: (writeArgs (pubs.map paramEx) ++ [rcur])]) ++
    (F.body.map Stm.write ++ [kwReturn :: write F.ret])

theorem bodyLines_T (pubs : List (List Char × List Nat)) (F : Fun) :
    brk :: (publicLine pubs ++ (lines F.body ++ kwReturn :: (write F.ret ++ [brk]))) = T (bodyLines pubs F) ++ [brk] := by
  have h : brk :: (lines F.body ++ kwReturn :: (write F.ret ++ [brk])) = T (F.body.map Stm.write ++ [kwReturn :: write F.ret]) ++ [brk] := by
    have := lines_T F.body
    rw [T_append, ← List.cons_append, this]
    simp
  unfold publicLine bodyLines
  split
  · simpa using h
  · rw [List.singleton_append, T_cons]
    simp only [List.cons_append, List.append_assoc, List.nil_append, List.cons.injEq, true_and]
    rw [← h]

theorem body_reads {F : Fun} (hF : F.written) {pubs : List (List Char × List Nat)} (hp : ∀ p ∈ pubs, Inert p.1) :
    Reads rf (bodyLines pubs F) ⟨pubs.map emitPublic ++ (emits F.body ++ [marker .ret [tree F.ret]]), false⟩ := by
  have h := stms_reads F.body hF.2.2.1 (ret_reads (rf := rf) hF.2.2.2) (.inl (by simp))
  unfold bodyLines
  split
  · subst_vars; simpa [Sent.then] using h
  · rename_i hne
    have := public_reads h hne hp
    simpa [Sent.then] using this

theorem swing_body {F : Fun} (hF : F.written) {pubs : List (List Char × List Nat)} (hp : ∀ p ∈ pubs, Inert p.1) :
    Swing (publicLine pubs ++ (lines F.body ++ kwReturn :: (write F.ret ++ [brk]))) := by
  have hok : okAll (pubs.map paramEx) := okAll_of fun e he => by
    obtain ⟨p, hpm, rfl⟩ := List.mem_map.mp he
    exact paramEx_ok (hp p hpm)
  refine Balanced.append ?_ ((swing_lines _ hF.2.2.1).append (swing_cons (by decide) (by decide) ((swing_write _ hF.2.2.2).append
    (swing_cons (by decide) (by decide) (Balanced.nil _ _)))))
  unfold publicLine
  split
  · exact Balanced.nil _ _
  · exact swing_cons (by decide) (by decide) (swing_braces (swing_args _ hok) (swing_cons (by decide) (by decide) (Balanced.nil _ _)))

theorem fun_line {F : Fun} {pubs : List (List Char × List Nat)} : Line (F.write pubs) := by
  have hshape : ∀ r, F.write pubs ++ r = kwFunc :: ⟨.functionCall, F.name⟩ :: lpar :: (writeArgs (F.params.map paramEx) ++ rpar :: lcur ::
      (brk :: ((publicLine pubs ++ (lines F.body ++ kwReturn :: (write F.ret ++ [brk]))) ++ rcur :: r))) := by
    intro r; simp [Fun.write]
  have := hshape []
  rw [List.append_nil] at this
  rw [this]
  exact .mk' (us := kwFunc :: ⟨.functionCall, F.name⟩ :: lpar :: (writeArgs (F.params.map paramEx) ++ rpar :: lcur ::
    (brk :: (publicLine pubs ++ (lines F.body ++ kwReturn :: (write F.ret ++ [brk])))))) (u := rcur) (by decide) (by simp) (by decide)

theorem fun_step {F : Fun} (hF : F.written) {pubs : List (List Char × List Nat)} (hp : ∀ p ∈ pubs, Inert p.1) {r : List Token} {m : Nat} {k : List Token}
    (hk : removeBreaks k = F.write pubs ++ r) (hlen : (F.write pubs ++ r).length < m) (hm : statementMode rf m r = some s) :
    statementMode rf (m + 1) k = some (Sent.then ⟨emitFun pubs F, false⟩ s) := by
  have hok : okAll (F.params.map paramEx) := okAll_of fun e he => by
    obtain ⟨p, hpm, rfl⟩ := List.mem_map.mp he
    exact paramEx_ok (hF.2.1 p hpm).1
  have hshape : ∀ r, F.write pubs ++ r = kwFunc :: ⟨.functionCall, F.name⟩ :: lpar :: (writeArgs (F.params.map paramEx) ++ rpar :: lcur ::
      (brk :: ((publicLine pubs ++ (lines F.body ++ kwReturn :: (write F.ret ++ [brk]))) ++ rcur :: r))) := by
    intro r; simp [Fun.write]
  have h1 : splitRound (writeArgs (F.params.map paramEx) ++ rpar :: lcur :: (brk :: ((publicLine pubs ++ (lines F.body ++ kwReturn ::
      (write F.ret ++ [brk]))) ++ rcur :: r))) = some (some (writeArgs (F.params.map paramEx), lcur :: (brk :: ((publicLine pubs ++ (lines F.body ++ kwReturn ::
      (write F.ret ++ [brk]))) ++ rcur :: r)))) := by
    unfold splitRound
    generalize lcur :: (brk :: ((publicLine pubs ++ (lines F.body ++ kwReturn :: (write F.ret ++ [brk]))) ++ rcur :: r)) = rest
    have hb := (bal_args _ hok).1
    cases e : F.params with
    | nil =>
      simp only [List.map_nil, writeArgs, List.nil_append]
      rw [split_inside (op := ['(']) (cl := [')']) (by decide) (by decide)]
      exact ⟨rpar, rfl, rfl, Balanced.nil _ _⟩
    | cons p ps =>
      have hpw := hF.2.1 p (by rw [e]; simp)
      rw [e] at hb
      rw [List.map_cons] at hb ⊢
      have hhead : ∃ ts, write (paramEx p) = ⟨.identifier, p.1⟩ :: ts := by
        unfold paramEx; split <;> exact ⟨_, by rw [write]⟩
      obtain ⟨ts, ew⟩ := hhead
      rw [writeArgs, ew, List.cons_append] at hb ⊢
      rw [List.cons_append, split_inside (op := ['(']) (cl := [')']) (by decide) hpw.1.1]
      exact ⟨rpar, rfl, rfl, hb⟩
  have h2 := argumentParse_write h1 hok
  have h3 : (trees (F.params.map paramEx)).mapM header =
      some (F.params.map fun p => (tuples p.2).map fun is => .mk ⟨.argument, p.1 ++ indexText is⟩ []) := by
    rw [trees_map, List.map_map]
    have : ∀ ps : List (List Char × List Nat), (∀ p ∈ ps, paramWritten p) → (ps.map (tree ∘ paramEx)).mapM header =
        some (ps.map fun p => (tuples p.2).map fun is => .mk ⟨.argument, p.1 ++ indexText is⟩ []) := by
      intro ps
      induction ps with
      | nil => intro _; rfl
      | cons p ps ih =>
        intro h
        simp only [List.map_cons, List.mapM_cons, Function.comp, header_param (h p (by simp))]
        have := ih fun e he => h e (by simp [he])
        rw [this]
        rfl
    exact this _ hF.2.1
  have h4 := splitSwing_body (r := r) (swing_body hF hp)
  have hb := body_reads (rf := rf) hF hp
  have hlt : (T (bodyLines pubs F)).length < m := by
    have e := congrArg List.length (bodyLines_T pubs F)
    rw [hshape] at hlen
    simp only [List.length_cons, List.length_append] at e hlen
    omega
  have h5 : statementMode rf m (brk :: (publicLine pubs ++ (lines F.body ++ kwReturn :: (write F.ret ++ [brk])))) =
      some ⟨pubs.map emitPublic ++ (emits F.body ++ [marker .ret [tree F.ret]]), false⟩ := by
    rw [bodyLines_T, mode_congr (removeBreaks_T_brk hb.1)]
    exact hb.2 m hlt
  rw [statementMode]
  simp only [hk, hshape]
  simp only [kwFunc, show lpar.text = ['('] from rfl, show lcur.text = ['{'] from rfl, ne_eq, not_true_eq_false, if_false, h2, h3, h4, h5, hm,
    Option.bind_eq_bind, Option.bind_some, Option.pure_def]
  simp [say, Sent.then, emitFun, Fun.names, List.flatMap, List.map_flatten, List.map_map, Function.comp_def]

theorem fun_reads (hR : Reads rf R s) {F : Fun} (hF : F.written) {pubs : List (List Char × List Nat)} (hp : ∀ p ∈ pubs, Inert p.1) :
    Reads rf (F.write pubs :: R) (Sent.then ⟨emitFun pubs F, false⟩ s) :=
  hR.cons fun_line fun _ _ hk hlen hm => fun_step hF hp hk hlen hm

theorem eof_reads : Reads rf [[eof]] ⟨[], true⟩ := by
  refine (Reads.nil rf).cons (.clean (by simp [eof])) fun m k hk _ hm => ?_
  rw [statementMode]
  simp [hk, eof]

theorem funs_reads (hR : Reads rf R s) {Fs : List Fun} (hF : ∀ F ∈ Fs, F.written) :
    Reads rf (Fs.map (Fun.write []) ++ R) (Sent.then ⟨Fs.flatMap (emitFun []), false⟩ s) := by
  induction Fs with
  | nil => simpa [Sent.then] using hR
  | cons F Fs ih =>
    have := fun_reads (ih fun G hG => hF G (by simp [hG])) (hF F (by simp)) (pubs := []) (by simp)
    rw [← then_assoc] at this
    simpa [Sent.then] using this

theorem T_flatMap (Fs : List Fun) (r : List Token) :
    brk :: (Fs.flatMap (fun F => F.write [] ++ [brk]) ++ r) = T (Fs.map (Fun.write [])) ++ brk :: r := by
  induction Fs with
  | nil => rfl
  | cons F Fs ih =>
    simp only [List.flatMap_cons, List.map_cons, T_cons, List.append_assoc, List.cons_append, List.nil_append, List.singleton_append] at ih ⊢
    rw [ih]

/-- a written program is handed over as its constraints -/
theorem program_reads {p : Program} (hp : p.written) {n : Nat} (hn : p.write.length < n) :
    statementMode rf (n + 1) p.write = some ⟨p.emit, true⟩ := by
  have h1 := funs_reads (rf := rf) eof_reads (Fs := p.after) fun F hF => hp.1 F (by simp [Program.funs, hF])
  have h2 := fun_reads h1 hp.2.1 fun x hx => (hp.2.2 x hx).1
  have h3 := funs_reads h2 (Fs := p.before) fun F hF => hp.1 F (by simp [Program.funs, hF])
  have e : brk :: p.write = T (p.before.map (Fun.write []) ++ p.main.write p.pubs :: (p.after.map (Fun.write []) ++ [[eof]])) := by
    have := T_flatMap p.after [eof]
    rw [Program.write, Program.tokens, List.append_assoc, T_flatMap, T_append, T_cons, T_append, List.append_assoc, List.cons_append, this]
    simp
  have h4 := h3.2 (n + 1) (by rw [← e, List.length_cons]; omega)
  rw [← e] at h4
  have e2 : removeBreaks (brk :: p.write) = removeBreaks p.write := by
    unfold removeBreaks
    rw [Program.write, ← List.cons_append, trailing_id (by decide), trailing_id (by decide), List.cons_append, leading_brk]
  rw [mode_congr e2] at h4
  rw [h4]
  simp [Sent.then, Program.emit]

/-- the last function, with the mark of the end right behind its brace -/
theorem last_reads {F : Fun} (hF : F.written) {pubs : List (List Char × List Nat)} (hp : ∀ p ∈ pubs, Inert p.1) :
    Reads rf [F.write pubs ++ [eof]] ⟨emitFun pubs F, true⟩ := by
  have hl : Line (F.write pubs ++ [eof]) := by
    obtain ⟨⟨t, ts, e, ht⟩, -⟩ := fun_line (F := F) (pubs := pubs)
    exact ⟨⟨t, ts ++ [eof], by rw [e]; rfl, ht⟩, F.write pubs, eof, rfl, by decide⟩
  refine (Reads.nil rf).cons hl fun m k hk hlen _ => ?_
  rw [T_nil, List.append_nil] at hk hlen
  have he : statementMode rf m [eof] = some ⟨[], true⟩ := by
    have e : removeBreaks [eof] = removeBreaks (T [[eof]]) := by decide
    rw [mode_congr e]
    refine eof_reads.2 m ?_
    have : 1 < (F.write pubs ++ [eof]).length := by simp [Fun.write]
    simp only [T_cons, T_nil, List.append_nil, List.length_cons, List.length_nil]
    omega
  rw [fun_step hF hp hk hlen he]
  simp [Sent.then]

theorem tokens_T (p : Program) :
    brk :: p.tokens = T (p.before.map (Fun.write []) ++ p.main.write p.pubs :: p.after.map (Fun.write [])) ++ [brk] := by
  have := T_flatMap p.after []
  rw [List.append_nil] at this
  rw [Program.tokens, T_flatMap, T_append, T_cons, List.append_assoc, List.cons_append, this]
  simp

/-- the same without the last line break -/
theorem program_reads_last {p : Program} (hp : p.written) {n : Nat} (hn : (p.tokens.dropLast ++ [eof]).length < n) :
    statementMode rf (n + 1) (brk :: (p.tokens.dropLast ++ [eof])) = some ⟨p.emit, true⟩ := by
  have hm := hp.2.1
  have hpub : ∀ x ∈ p.pubs, Inert x.1 := fun x hx => (hp.2.2 x hx).1
  have ht := tokens_T p
  have hne : p.tokens ≠ [] := by
    unfold Program.tokens; intro h
    have := congrArg List.length h
    simp only [List.length_append, List.length_cons, List.length_nil] at this
    omega
  have hd : brk :: p.tokens.dropLast = T (p.before.map (Fun.write []) ++ p.main.write p.pubs :: p.after.map (Fun.write [])) := by
    have := congrArg List.dropLast ht
    rwa [List.dropLast_concat, List.dropLast_cons_of_ne_nil hne] at this
  rcases List.eq_nil_or_concat p.after with ha | ⟨as, a, ha⟩
  · have h3 := funs_reads (rf := rf) (last_reads hm hpub) (Fs := p.before) fun F hF => hp.1 F (by simp [Program.funs, hF])
    have e : brk :: (p.tokens.dropLast ++ [eof]) = T (p.before.map (Fun.write []) ++ [p.main.write p.pubs ++ [eof]]) := by
      rw [← List.cons_append, hd, ha]
      simp [T_append]
    have h4 := h3.2 (n + 1) (by rw [← e, List.length_cons]; omega)
    rw [← e] at h4
    rw [h4]
    simp [Sent.then, Program.emit, ha]
  · have h1 := last_reads (rf := rf) (hp.1 a (by simp [Program.funs, ha])) (pubs := []) (by simp)
    have h2 := funs_reads h1 (Fs := as) fun F hF => hp.1 F (by simp [Program.funs, ha, hF])
    have h3 := funs_reads (fun_reads h2 hm hpub) (Fs := p.before) fun F hF => hp.1 F (by simp [Program.funs, hF])
    have e : brk :: (p.tokens.dropLast ++ [eof]) =
        T (p.before.map (Fun.write []) ++ p.main.write p.pubs :: (as.map (Fun.write []) ++ [a.write [] ++ [eof]])) := by
      rw [← List.cons_append, hd, ha]
      simp [T_append]
    have h4 := h3.2 (n + 1) (by rw [← e, List.length_cons]; omega)
    rw [← e] at h4
    rw [h4]
    simp [Sent.then, Program.emit, ha]

theorem mode_brk (n : Nat) (ts : List Token) :
    statementMode rf n (brk :: (ts ++ [eof])) = statementMode rf n (ts ++ [eof]) := by
  refine mode_congr ?_
  unfold removeBreaks
  rw [← List.cons_append, trailing_id (by decide), trailing_id (by decide), List.cons_append, leading_brk]

/-- a program is handed over as its constraints, with or without an empty line before it and the line break after it -/
theorem program_reads_spelled {p : Program} (hp : p.written) {ts : List Token} (hs : p.spelled ts) {n : Nat} (hn : ts.length < n) :
    statementMode rf (n + 1) ts = some ⟨p.emit, true⟩ := by
  obtain ⟨pre, rfl | rfl, rfl | rfl⟩ := hs
  · exact program_reads hp hn
  · rw [List.nil_append] at hn ⊢
    rw [← mode_brk]
    exact program_reads_last hp hn
  · have h : p.write.length < n := by simp only [List.length_append, List.length_cons] at hn; omega
    rw [show [brk] ++ p.write = brk :: (p.tokens ++ [eof]) from rfl, mode_brk]
    exact program_reads hp h
  · have h : (p.tokens.dropLast ++ [eof]).length < n := by simp only [List.length_append, List.length_cons] at hn ⊢; omega
    exact program_reads_last hp h

end APS.Parse
