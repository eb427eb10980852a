import Verif.Spec.Text
import Verif.Proofs.ParseProgram

/-! The text of a program is read as its tokens. -/
namespace APS.LangSpec
open APS.Lex (Token TokenType nextTokens stackAllTokens isLetter isDigit)
open APS.LexSpec
open APS.ParseSpec (Ex write writeArgs writeMore writeIdx lpar rpar lbrk rbrk comma Inert okAll)
open APS.Parse (clean_write clean_args clean_idx)

/-- no two breaks one after the other, and `(` after the name of a call -/
def Fits : List Token → Prop
  | [] => True
  | [t] => t.type ≠ .functionCall
  | t :: u :: ts => (t.text = ['\n'] → u.text ≠ ['\n']) ∧ (t.type = .functionCall → u = lpar) ∧ Fits (u :: ts)

/-- ... and no break at the beginning -/
def Neat (ts : List Token) : Prop := Fits ts ∧ ∀ t r, ts = t :: r → t.text ≠ ['\n']

theorem Fits.append {a b : List Token} (ha : Fits a) (hb : Neat b) : Fits (a ++ b) := by
  induction a with
  | nil => exact hb.1
  | cons t a ih =>
    cases a with
    | nil =>
      cases b with
      | nil => exact ha
      | cons u b => exact ⟨fun _ => hb.2 u b rfl, fun h => absurd h ha, hb.1⟩
    | cons u a => exact ⟨ha.1, ha.2.1, ih ha.2.2⟩

theorem Neat.append {a b : List Token} (ha : Neat a) (hb : Neat b) : Neat (a ++ b) := by
  refine ⟨ha.1.append hb, fun t r e => ?_⟩
  cases a with
  | nil => exact hb.2 t r e
  | cons u a => cases e; exact ha.2 _ _ rfl

theorem Neat.nil : Neat [] := ⟨trivial, by simp⟩

theorem Neat.one {t : Token} (h : t.type ≠ .functionCall) (h' : t.text ≠ ['\n']) : Neat [t] :=
  ⟨h, by rintro _ _ ⟨⟩; exact h'⟩

theorem Neat.cons {t : Token} (h : t.type ≠ .functionCall) (h' : t.text ≠ ['\n']) {ts : List Token} (ht : Neat ts) : Neat (t :: ts) :=
  (Neat.one h h').append ht

theorem Neat.two {t u : Token} (h : t.type ≠ .functionCall) (h' : t.text ≠ ['\n']) (hu : u.type ≠ .functionCall) : Neat [t, u] :=
  ⟨⟨fun e => absurd e h', fun e => absurd e h, hu⟩, by rintro _ _ ⟨⟩; exact h'⟩

theorem Neat.call {f : List Char} (h : f ≠ ['\n']) {ts : List Token} (ht : Neat ts) : Neat (⟨.functionCall, f⟩ :: lpar :: ts) :=
  Neat.append (a := [⟨.functionCall, f⟩, lpar]) ⟨⟨fun e => absurd e h, fun _ => rfl, by show lpar.type ≠ _; decide⟩, by rintro _ _ ⟨⟩; exact h⟩ ht

theorem fits_brk {a : List Token} (ha : Fits a) (h : ∀ t ∈ a, t.text ≠ ['\n']) : Fits (a ++ [brk]) := by
  induction a with
  | nil => show brk.type ≠ _; decide
  | cons t a ih =>
    cases a with
    | nil => exact ⟨fun e => absurd e (h t (by simp)), fun e => absurd e ha, by show brk.type ≠ _; decide⟩
    | cons u a => exact ⟨ha.1, ha.2.1, ih ha.2.2 fun v hv => h v (by simp [hv])⟩

/-- a line without breaks may be followed by one -/
theorem Neat.brk {t : Token} {a : List Token} (ha : Neat (t :: a)) (h : ∀ u ∈ t :: a, u.text ≠ ['\n']) : Neat (t :: a ++ [LangSpec.brk]) :=
  ⟨fits_brk ha.1 h, by rintro _ _ ⟨⟩; exact h t (by simp)⟩

theorem inert_brk {w : List Char} (h : Inert w) : w ≠ ['\n'] := h.2.2.2.2.2.1

mutual
theorem neat_write : ∀ e : Ex, e.ok → Neat (write e)
  | .num w, h => by rw [write]; rw [Ex.ok] at h; exact .one (by simp) (inert_brk h)
  | .var w, h => by rw [write]; rw [Ex.ok] at h; exact .one (by simp) (inert_brk h)
  | .bin op l r, h => by
    rw [Ex.ok] at h
    rw [write]
    refine (neat_write l h.2.2.2.1).append (.cons ?_ (inert_brk h.2.1) (neat_write r h.2.2.2.2))
    intro e
    have := h.1
    rw [e] at this
    exact absurd this (by decide)
  | .paren e, h => by
    rw [Ex.ok] at h
    rw [write]
    exact .cons (by decide) (by decide) ((neat_write e h).append (.one (by decide) (by decide)))
  | .call f args, h => by
    rw [Ex.ok] at h
    rw [write]
    exact .call (inert_brk h.1) ((neat_args args h.2).append (.one (by decide) (by decide)))
  | .arr a idx, h => by
    rw [Ex.ok] at h
    rw [write]
    exact .cons (by simp) (inert_brk h.1) (neat_idx idx h.2.2)
theorem neat_args : ∀ es : List Ex, okAll es → Neat (writeArgs es)
  | [], _ => by rw [writeArgs]; exact .nil
  | e :: es, h => by
    rw [okAll] at h
    rw [writeArgs]
    exact (neat_write e h.1).append (neat_more es h.2)
theorem neat_more : ∀ es : List Ex, okAll es → Neat (writeMore es)
  | [], _ => by rw [writeMore]; exact .nil
  | e :: es, h => by
    rw [okAll] at h
    rw [writeMore]
    exact .cons (by decide) (by decide) ((neat_write e h.1).append (neat_more es h.2))
theorem neat_idx : ∀ es : List Ex, okAll es → Neat (writeIdx es)
  | [], _ => by rw [writeIdx]; exact .nil
  | e :: es, h => by
    rw [okAll] at h
    rw [writeIdx]
    exact .cons (by decide) (by decide) ((neat_write e h.1).append (.cons (by decide) (by decide) (neat_idx es h.2)))
end

theorem outer_nl : APS.Parse.Outer ['\n'] := Or.inl rfl

theorem neat_fin (fin : Option Ex) (h : ∀ e, fin = some e → e.ok) : Neat (writeFin fin) := by
  cases fin with
  | none => exact .nil
  | some e =>
    refine Neat.brk (a := write e) (.cons (by decide) (by decide) (neat_write e (h e rfl))) ?_
    simp only [List.mem_cons, forall_eq_or_imp]
    exact ⟨by decide, clean_write outer_nl e (h e rfl)⟩

mutual
theorem neat_stm : ∀ st : Stm, st.written → Neat (st.write ++ [brk])
  | .decl x e, h => by
    rw [Stm.written] at h
    rw [Stm.write]
    refine Neat.brk (.cons (by decide) (by decide) (.cons (by simp) (inert_brk h.1) (.cons (by decide) (by decide) (neat_write e h.2)))) ?_
    have := clean_write outer_nl e h.2
    have h1 := inert_brk h.1
    simp only [List.mem_cons, forall_eq_or_imp]
    exact ⟨by decide, h1, by decide, this⟩
  | .declArr a es, h => by
    rw [Stm.written] at h
    rw [Stm.write]
    have e : kwVar :: (⟨.identifier, a⟩ : Token) :: lbrk :: rbrk :: gets :: lcur :: (writeArgs es ++ [rcur]) ++ [brk] =
        kwVar :: ⟨.identifier, a⟩ :: lbrk :: rbrk :: gets :: lcur :: (writeArgs es ++ [rcur, brk]) := by simp
    rw [e]
    exact .cons (by decide) (by decide) (.cons (by simp) (inert_brk h.1) (.cons (by decide) (by decide) (.cons (by decide) (by decide)
      (.cons (by decide) (by decide) (.cons (by decide) (by decide) ((neat_args es h.2).append (.two (by decide) (by decide) (by decide))))))))
  | .assign x idx e, h => by
    rw [Stm.written] at h
    rw [Stm.write]
    refine Neat.brk (.cons (by simp) (inert_brk h.1) ((neat_idx idx h.2.1).append (.cons (by decide) (by decide) (neat_write e h.2.2)))) ?_
    have h1 := inert_brk h.1
    have h2 := clean_idx outer_nl idx h.2.1
    have h3 := clean_write outer_nl e h.2.2
    simp only [List.mem_cons, List.mem_append, forall_eq_or_imp]
    refine ⟨h1, fun t ht => ?_⟩
    rcases ht with ht | rfl | ht
    · exact h2 t ht
    · decide
    · exact h3 t ht
  | .call f args, h => by
    rw [Stm.written] at h
    rw [Stm.write]
    have e : (⟨.functionCall, f⟩ : Token) :: lpar :: (writeArgs args ++ [rpar]) ++ [brk] = ⟨.functionCall, f⟩ :: lpar :: (writeArgs args ++ [rpar, brk]) := by simp
    rw [e]
    exact .call (inert_brk h.1) ((neat_args args h.2).append (.two (by decide) (by decide) (by decide)))
  | .loop l cmp r x step body, h => by
    rw [Stm.written] at h
    rw [Stm.write]
    have e : kwFor :: lpar :: (write (.bin ⟨.comparator, cmp⟩ l r) ++ semi :: (⟨.identifier, x⟩ : Token) :: gets ::
        (write step ++ rpar :: lcur :: brk :: (lines body ++ [rcur]))) ++ [brk] =
        kwFor :: lpar :: (write (.bin ⟨.comparator, cmp⟩ l r) ++ semi :: ⟨.identifier, x⟩ :: gets ::
        (write step ++ rpar :: ([lcur, brk] ++ (lines body ++ [rcur, brk])))) := by simp
    rw [e]
    exact .cons (by decide) (by decide) (.cons (by decide) (by decide) ((neat_write _ h.1).append (.cons (by decide) (by decide)
      (.cons (by simp) (inert_brk h.2.1) (.cons (by decide) (by decide) ((neat_write step h.2.2.1).append (.cons (by decide) (by decide)
        ((Neat.two (by decide) (by decide) (by decide)).append ((neat_lines body h.2.2.2.1).append (.two (by decide) (by decide) (by decide)))))))))))
  | .cond l cmp r body fin, h => by
    rw [Stm.written] at h
    rw [Stm.write]
    have e : kwIf :: lpar :: (write (.bin ⟨.comparator, cmp⟩ l r) ++ rpar :: lcur :: brk :: (lines body ++ (writeFin fin ++ [rcur]))) ++ [brk] =
        kwIf :: lpar :: (write (.bin ⟨.comparator, cmp⟩ l r) ++ rpar :: ([lcur, brk] ++ (lines body ++ (writeFin fin ++ [rcur, brk])))) := by simp
    rw [e]
    exact .cons (by decide) (by decide) (.cons (by decide) (by decide) ((neat_write _ h.1).append (.cons (by decide) (by decide)
      ((Neat.two (by decide) (by decide) (by decide)).append ((neat_lines body h.2.1).append ((neat_fin fin h.2.2.1).append (.two (by decide) (by decide) (by decide))))))))
theorem neat_lines : ∀ sts : List Stm, writtenAll sts → Neat (lines sts)
  | [], _ => by rw [lines]; exact .nil
  | st :: sts, h => by
    rw [writtenAll] at h
    rw [lines]
    have := (neat_stm st h.1).append (neat_lines sts h.2)
    simpa using this
end

theorem neat_fun {F : Fun} (hF : F.written) {pubs : List (List Char × List Nat)} (hp : ∀ p ∈ pubs, Inert p.1) :
    Neat (F.write pubs ++ [brk]) := by
  have hok : okAll (F.params.map paramEx) := APS.Parse.okAll_of fun e he => by
    obtain ⟨p, hpm, rfl⟩ := List.mem_map.mp he
    exact APS.Parse.paramEx_ok (hF.2.1 p hpm).1
  have hok2 : okAll (pubs.map paramEx) := APS.Parse.okAll_of fun e he => by
    obtain ⟨p, hpm, rfl⟩ := List.mem_map.mp he
    exact APS.Parse.paramEx_ok (hp p hpm)
  have e : F.write pubs ++ [brk] = kwFunc :: ⟨.functionCall, F.name⟩ :: lpar :: (writeArgs (F.params.map paramEx) ++ rpar :: ([lcur, brk] ++
      (publicLine pubs ++ (lines F.body ++ ((kwReturn :: write F.ret ++ [brk]) ++ [rcur, brk]))))) := by
    simp [Fun.write]
  rw [e]
  have hpub : Neat (publicLine pubs) := by
    unfold publicLine
    split
    · exact .nil
    · exact .cons (by decide) (by decide) (.cons (by decide) (by decide) ((neat_args _ hok2).append (.two (by decide) (by decide) (by decide))))
  have hret : Neat (kwReturn :: write F.ret ++ [brk]) := by
    refine Neat.brk (.cons (by decide) (by decide) (neat_write _ hF.2.2.2)) ?_
    simp only [List.mem_cons, forall_eq_or_imp]
    exact ⟨by decide, clean_write outer_nl _ hF.2.2.2⟩
  exact .cons (by decide) (by decide) (.call (inert_brk hF.1) ((neat_args _ hok).append (.cons (by decide) (by decide)
    ((Neat.two (by decide) (by decide) (by decide)).append (hpub.append ((neat_lines _ hF.2.2.1).append
      (hret.append (.two (by decide) (by decide) (by decide)))))))))

theorem neat_funs {Fs : List Fun} (h : ∀ F ∈ Fs, F.written) : Neat (Fs.flatMap fun F => F.write [] ++ [brk]) := by
  induction Fs with
  | nil => exact .nil
  | cons F Fs ih =>
    rw [List.flatMap_cons]
    exact (neat_fun (h F (by simp)) (by simp)).append (ih fun G hG => h G (by simp [hG]))

theorem neat_program {p : Program} (hp : p.written) : Neat p.tokens := by
  have e : p.tokens = p.before.flatMap (fun F => F.write [] ++ [brk]) ++ ((p.main.write p.pubs ++ [brk]) ++ p.after.flatMap (fun F => F.write [] ++ [brk])) := by
    simp [Program.tokens]
  rw [e]
  exact (neat_funs fun F hF => hp.1 F (by simp [Program.funs, hF])).append ((neat_fun hp.2.1 fun x hx => (hp.2.2 x hx).1).append
    (neat_funs fun F hF => hp.1 F (by simp [Program.funs, hF])))

/-! ### reading -/

theorem nextTokens_fits : ∀ (ts : List Token) (b : Bool), Fits ts → (b = true → ∀ t r, ts = t :: r → t.text ≠ ['\n']) → nextTokens b ts = ts
  | [], b, _, _ => by simp [nextTokens]
  | t :: ts, b, h, hb => by
    have hrest : ∀ b', (b' = true → t.text = ['\n']) → nextTokens b' ts = ts := by
      intro b' e
      refine nextTokens_fits ts b' ?_ ?_
      · cases ts with
        | nil => trivial
        | cons u ts => exact h.2.2
      · rintro hb' u r rfl
        exact h.1 (e hb')
    rw [nextTokens]
    split
    · rename_i ht
      have : b ≠ true := fun hb' => hb hb' t ts rfl ht
      simp [this, hrest true fun _ => ht]
    · rw [hrest false (by simp)]

theorem stackAll_fits {ts : List Token} (h : Fits ts) (hc : ∀ t ∈ ts, t.type ≠ .comment) : stackAllTokens ts = ts ++ [eof] := by
  unfold stackAllTokens
  rw [nextTokens_fits ts false h (by simp), List.filter_eq_self.mpr]
  · rfl
  · intro t ht; simpa using hc t ht

theorem word_chars {w : List Char} (h : isWord w = true) : w ≠ [] ∧ (∀ c ∈ w, WordChar c) ∧ ¬ Starts Digit w := by
  cases w with
  | nil => simp [isWord] at h
  | cons c cs =>
    simp only [isWord, Bool.and_eq_true, Bool.or_eq_true, beq_iff_eq, List.all_eq_true] at h
    refine ⟨by simp, fun d hd => ?_, ?_⟩
    · rcases List.mem_cons.mp hd with rfl | hd
      · rcases h.1 with h | h
        · exact Or.inl (by simpa [isLetter, Letter] using h)
        · exact Or.inr (Or.inr h)
      · rcases h.2 d hd with (h | h) | h
        · exact Or.inl (by simpa [isLetter, Letter] using h)
        · exact Or.inr (Or.inl (by simpa [isDigit, Digit] using h))
        · exact Or.inr (Or.inr h)
    · rintro ⟨d, r, e, hd⟩
      cases e
      rcases h.1 with h | rfl
      · simp only [isLetter, Bool.or_eq_true, Bool.and_eq_true, decide_eq_true_eq] at h
        obtain ⟨h1, h2⟩ := hd
        rcases h with h | h
        · exact absurd (Char.le_trans h.1 h2) (by decide)
        · exact absurd (Char.le_trans h.1 h2) (by decide)
      · exact absurd hd (by unfold Digit; decide)

/-- what follows a token in the rendering -/
def Gap (t : Token) (r : List Char) : Prop := (r = [] ∨ Starts (· = ' ') r) ∧ t.type ≠ .functionCall ∨ t.type = .functionCall ∧ Starts (· = '(') r

theorem Gap.first {t : Token} {r : List Char} (h : Gap t r) {P : Char → Prop} (h1 : ¬ P ' ') (h2 : ¬ P '(') : ¬ Starts P r := by
  rintro ⟨c, r', rfl, hc⟩
  rcases h with ⟨h | ⟨d, r, e, rfl⟩, _⟩ | ⟨_, d, r, e, rfl⟩
  · cases h
  · cases e; exact h1 hc
  · cases e; exact h2 hc

theorem piece_render {t : Token} (ht : Readable t) {r : List Char} (hr : Gap t r) : Piece (t.text ++ r) t r := by
  obtain ⟨ty, w⟩ := t
  have hword : ¬ Starts WordChar r := hr.first (by unfold WordChar Letter Digit; decide) (by unfold WordChar Letter Digit; decide)
  have hopkw : ((w, ty) ∈ operators ∨ (w, ty) ∈ keywords) → Piece (w ++ r) ⟨ty, w⟩ r := by
    rintro (h | h)
    · have hnone : ∀ a, ¬ Starts (fun b => ∃ t', ([a, b], t') ∈ operators) r := fun a => hr.first (by simp [operators]) (by simp [operators])
      have hlen : ∀ e ∈ operators, e.1.length = 1 ∨ e.1.length = 2 := by decide
      have := hlen _ h
      rcases this with hl | hl
      · obtain ⟨a, rfl⟩ := List.length_eq_one_iff.mp hl
        exact .op1 h (hnone a)
      · obtain ⟨a, b, rfl⟩ := List.length_eq_two.mp hl
        exact .op2 h
    · have hkw : ∀ e ∈ keywords, isWord e.1 = true := by decide +kernel
      obtain ⟨a, b, c⟩ := word_chars (hkw _ h)
      exact .word a b c hword (.keyword h)
  cases ty <;> try exact hopkw ht
  · -- number
    exact .number ht.1 ht.2 (hr.first (by unfold Digit; decide) (by unfold Digit; decide))
  · -- mark
    obtain ⟨c, hc, rfl⟩ := ht
    exact .punct hc
  · -- name
    obtain ⟨a, b, c⟩ := word_chars ht.1
    refine .word a b c hword (.name ht.2 ?_)
    rcases hr with ⟨h | ⟨d, r, e, rfl⟩, _⟩ | ⟨h, _⟩
    · rw [h]; rintro ⟨_, _, e, _⟩; cases e
    · rw [e]; rintro ⟨_, _, e, h⟩; cases e; cases h
    · cases h
  · -- call
    obtain ⟨a, b, c⟩ := word_chars ht.1
    refine .word a b c hword (.call ht.2 ?_)
    rcases hr with ⟨_, h⟩ | ⟨_, h⟩
    · exact absurd rfl h
    · exact h

theorem readable_ne {t : Token} (ht : Readable t) : t.text ≠ [] := by
  have h := (piece_render (t := t) (r := if t.type = .functionCall then ['('] else []) ht ?_)
  · intro e
    rw [e] at h
    obtain ⟨ty, w⟩ := t
    cases e
    have hopkw : ¬ ((([] : List Char), ty) ∈ operators ∨ (([] : List Char), ty) ∈ keywords) := by simp [operators, keywords]
    cases ty <;> try exact hopkw ht
    · exact ht.1 rfl
    · obtain ⟨c, _, e⟩ := ht; cases e
    · exact absurd ht.1 (by decide)
    · exact absurd ht.1 (by decide)
  · unfold Gap
    split
    · exact Or.inr ⟨‹_›, _, _, rfl, rfl⟩
    · exact Or.inl ⟨Or.inl rfl, ‹_›⟩

theorem lexes_render : ∀ {ts : List Token}, Fits ts → (∀ t ∈ ts, Readable t) → Lexes (render ts) ts
  | [], _, _ => .eof
  | [t], h, hr => by
    have := piece_render (hr t (by simp)) (r := []) (Or.inl ⟨Or.inl rfl, h⟩)
    rw [List.append_nil] at this
    exact .token this .eof
  | t :: u :: ts, h, hr => by
    have ih := lexes_render h.2.2 fun v hv => hr v (by simp [List.mem_cons.mp hv])
    have hu : render (u :: ts) ≠ [] := by
      have := readable_ne (hr u (by simp))
      cases ts with
      | nil => simpa [render] using this
      | cons v ts => simp [render, this]
    rw [render]
    · split
      · rename_i hc
        refine .token (piece_render (hr t (by simp)) (Or.inr ⟨hc, ?_⟩)) ih
        have := h.2.1 hc
        subst this
        cases ts with
        | nil => exact ⟨_, _, rfl, rfl⟩
        | cons v ts => exact ⟨'(', _, by rw [render]; rfl; simp, rfl⟩
      · rename_i hc
        exact .token (piece_render (hr t (by simp)) (Or.inl ⟨Or.inr ⟨_, _, rfl, rfl⟩, hc⟩)) (.blank (Or.inl rfl) hu ih)
    · simp

end APS.LangSpec
