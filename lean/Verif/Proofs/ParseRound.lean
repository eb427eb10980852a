import Verif.Proofs.ParseExpr

/-! Round trip: the tree of a written expression. -/
namespace APS.Parse
open APS.Lex (Token TokenType)
open APS.ParseSpec

/-! ### no line breaks inside -/

mutual
theorem nb_write : ∀ e : Ex, e.ok → ∀ t ∈ write e, t.text ≠ ['\n']
  | .num w, h => by unfold Ex.ok at h; simp only [write]; simpa using h.2.2.2.2.2.1
  | .var w, h => by unfold Ex.ok at h; simp only [write]; simpa using h.2.2.2.2.2.1
  | .bin op l r, h => by
    unfold Ex.ok at h
    have h1 := nb_write l h.2.2.2.1
    have h2 := nb_write r h.2.2.2.2
    simp only [write, List.mem_append, List.mem_cons]
    rintro t (ht | rfl | ht)
    · exact h1 t ht
    · exact h.2.1.2.2.2.2.2.1
    · exact h2 t ht
  | .paren e, h => by
    unfold Ex.ok at h
    have h1 := nb_write e h
    simp only [write, List.mem_append, List.mem_cons]
    rintro t (rfl | ht | rfl | ht)
    · decide
    · exact h1 t ht
    · decide
    · simp at ht
  | .call f args, h => by
    unfold Ex.ok at h
    have h1 := nb_args args h.2
    simp only [write, List.mem_append, List.mem_cons]
    rintro t (rfl | rfl | ht | rfl | ht)
    · exact h.1.2.2.2.2.2.1
    · decide
    · exact h1 t ht
    · decide
    · simp at ht
  | .arr a idx, h => by
    unfold Ex.ok at h
    have h1 := nb_idx idx h.2.2
    simp only [write, List.mem_cons]
    rintro t (rfl | ht)
    · exact h.1.2.2.2.2.2.1
    · exact h1 t ht
theorem nb_args : ∀ es : List Ex, okAll es → ∀ t ∈ writeArgs es, t.text ≠ ['\n']
  | [], _ => by simp [writeArgs]
  | e :: es, h => by
    unfold okAll at h
    have h1 := nb_write e h.1
    have h2 := nb_more es h.2
    simp only [writeArgs, List.mem_append]
    rintro t (ht | ht)
    · exact h1 t ht
    · exact h2 t ht
theorem nb_more : ∀ es : List Ex, okAll es → ∀ t ∈ writeMore es, t.text ≠ ['\n']
  | [], _ => by simp [writeMore]
  | e :: es, h => by
    unfold okAll at h
    have h1 := nb_write e h.1
    have h2 := nb_more es h.2
    simp only [writeMore, List.mem_append, List.mem_cons]
    rintro t (rfl | ht | ht)
    · decide
    · exact h1 t ht
    · exact h2 t ht
theorem nb_idx : ∀ es : List Ex, okAll es → ∀ t ∈ writeIdx es, t.text ≠ ['\n']
  | [], _ => by simp [writeIdx]
  | e :: es, h => by
    unfold okAll at h
    have h1 := nb_write e h.1
    have h2 := nb_idx es h.2
    simp only [writeIdx, List.mem_append, List.mem_cons]
    rintro t (rfl | ht | rfl | ht)
    · decide
    · exact h1 t ht
    · decide
    · exact h2 t ht
end

theorem removeLeading_id {ts : List Token} (h : ∀ t ∈ ts, t.text ≠ ['\n']) : removeLeadingBreaks ts = ts := by
  cases ts with
  | nil => rfl
  | cons t ts => simp [removeLeadingBreaks, h t (by simp)]

theorem removeBreaks_id {ts : List Token} (h : ∀ t ∈ ts, t.text ≠ ['\n']) : removeBreaks ts = ts := by
  have : removeTrailingBreaks ts = ts := by
    unfold removeTrailingBreaks
    cases e : ts.getLast? with
    | none => simpa using (List.getLast?_eq_none_iff.1 e).symm
    | some t =>
      have := h t (List.mem_of_getLast? e)
      simp [this]
  rw [removeBreaks, this, removeLeading_id h]

/-! ### arguments and indices -/

theorem splitArgs_write : ∀ (es : List Ex) (e : Ex) (n : Nat), e.ok → okAll es → (writeArgs (e :: es)).length ≤ n →
    splitArgs n (writeArgs (e :: es)) = (e :: es).map write := by
  intro es
  induction es with
  | nil =>
    intro e n h _ hn
    have hw : writeArgs [e] = write e := by simp [writeArgs, writeMore]
    rw [hw] at hn ⊢
    cases n with
    | zero => exact absurd (List.length_eq_zero_iff.1 (Nat.le_zero.1 hn)) (write_ne e)
    | succ n =>
      unfold splitArgs
      rw [splitTopText_end (deep_comma e h)]
      simp [removeBreaks_id (nb_write e h)]
  | cons e' es ih =>
    intro e n h hs hn
    unfold okAll at hs
    have hw : writeArgs (e :: e' :: es) = write e ++ comma :: writeArgs (e' :: es) := by simp [writeArgs, writeMore]
    rw [hw] at hn ⊢
    cases n with
    | zero => simp at hn
    | succ n =>
      have hne : writeArgs (e' :: es) ≠ [] := by simp [writeArgs, write_ne]
      unfold splitArgs
      rw [splitTopText_at (bal_write e h) (deep_comma e h) hne]
      simp only [List.map_cons]
      rw [removeBreaks_id (nb_write e h), ih e' n hs.1 hs.2]
      · rfl
      · simp at hn ⊢; omega

theorem write_len_mem {e : Ex} : ∀ {es : List Ex}, e ∈ es → (write e).length ≤ (writeArgs es).length ∧
    (write e).length < (writeMore es).length ∧ (write e).length + 2 ≤ (writeIdx es).length := by
  intro es
  induction es with
  | nil => intro h; simp at h
  | cons x es ih =>
    intro h
    simp only [writeArgs, writeMore, writeIdx, List.length_append, List.length_cons]
    rcases List.mem_cons.1 h with rfl | h
    · omega
    · have := ih h; omega

theorem okAll_mem : ∀ {es : List Ex}, okAll es → ∀ e ∈ es, e.ok := by
  intro es
  induction es with
  | nil => intro _ e h; simp at h
  | cons x es ih =>
    intro h e he
    unfold okAll at h
    rcases List.mem_cons.1 he with rfl | he
    · exact h.1
    · exact ih h.2 e he

theorem mapM_write (pe : List Token → Option Constraint) : ∀ (es : List Ex), (∀ e ∈ es, pe (write e) = some (tree e)) →
    (es.map write).mapM pe = some (trees es) := by
  intro es
  induction es with
  | nil => intro _; simp [trees]
  | cons e es ih =>
    intro h
    simp only [List.map_cons, List.mapM_cons, h e (by simp), ih (fun x hx => h x (by simp [hx])), trees]
    rfl

theorem head_nobrk : ∀ (e : Ex), e.ok → ∃ t ts, write e = t :: ts ∧ t.text ≠ ['['] := by
  intro e
  induction e using Ex.rec (motive_2 := fun _ => True) with
  | num w => intro h; unfold Ex.ok at h; exact ⟨_, _, by simp only [write]; rfl, h.2.2.1⟩
  | var w => intro h; unfold Ex.ok at h; exact ⟨_, _, by simp only [write]; rfl, h.2.2.1⟩
  | bin op l r ihl _ =>
    intro h
    unfold Ex.ok at h
    obtain ⟨t, ts, hw, ht⟩ := ihl h.2.2.2.1
    exact ⟨t, _, by simp only [write, hw]; rfl, ht⟩
  | paren e => intro h; exact ⟨lpar, _, by simp only [write]; rfl, by decide⟩
  | call f args => intro h; unfold Ex.ok at h; exact ⟨_, _, by simp only [write]; rfl, h.1.2.2.1⟩
  | arr a idx => intro h; unfold Ex.ok at h; exact ⟨_, _, by simp only [write]; rfl, h.1.2.2.1⟩
  | nil => trivial
  | cons => trivial

theorem splitSquare_inside (e : Ex) (h : e.ok) (r) : splitSquare (write e ++ rbrk :: r) = some (some (write e, r)) := by
  obtain ⟨t, ts, hw, ht⟩ := head_nobrk e h
  have hb := bal_write e h
  unfold splitSquare
  have := (split_inside (op := ['[']) (cl := [']']) (u := t) (us := ts ++ rbrk :: r) (by decide) ht (write e) r).2
    ⟨rbrk, by rw [hw]; rfl, rfl, hb.2⟩
  rw [hw] at this ⊢
  exact this

theorem splitSquare_open (e : Ex) (h : e.ok) (r) : splitSquare (lbrk :: (write e ++ rbrk :: r)) = some (some (write e, r)) := by
  unfold splitSquare
  rw [split_open (op := ['[']) (cl := [']']) (u := lbrk) (by decide) rfl]
  exact ⟨rbrk, rfl, rfl, (bal_write e h).2⟩

theorem indexLoop_write (pe : List Token → Option Constraint) : ∀ (es : List Ex) (n : Nat), okAll es →
    (∀ e ∈ es, pe (write e) = some (tree e)) → (writeIdx es).length ≤ n → indexLoop pe n (writeIdx es) = some (trees es) := by
  intro es
  induction es with
  | nil => intro n _ _ _; simp [writeIdx, indexLoop, trees]
  | cons e es ih =>
    intro n h hp hn
    unfold okAll at h
    simp only [writeIdx] at hn ⊢
    cases n with
    | zero => simp at hn
    | succ n =>
      unfold indexLoop
      rw [splitSquare_open e h.1]
      simp only [hp e (by simp), trees]
      rw [ih n h.2 (fun x hx => hp x (by simp [hx])) (by simp at hn; omega)]
      rfl

theorem writeIdx_getLast : ∀ (es : List Ex), es ≠ [] → (writeIdx es).getLast? = some rbrk := by
  intro es
  induction es with
  | nil => intro h; exact absurd rfl h
  | cons e es ih =>
    intro _
    simp only [writeIdx]
    cases es with
    | nil =>
      simp only [writeIdx]
      rw [show lbrk :: (write e ++ [rbrk]) = (lbrk :: write e) ++ [rbrk] by simp, List.getLast?_append]
      rfl
    | cons e' es =>
      have := ih (by simp)
      rw [show lbrk :: (write e ++ rbrk :: writeIdx (e' :: es)) = (lbrk :: (write e ++ [rbrk])) ++ writeIdx (e' :: es) by simp]
      rw [List.getLast?_append, this]
      rfl

theorem write_two (e : Ex) (h : e.ok) (hp : ∀ e', e ≠ .paren e') : (write e).length = 1 ↔ e.single = true := by
  cases e with
  | num w => simp [write, Ex.single, Ex.core]
  | var w => simp [write, Ex.single, Ex.core]
  | bin op l r =>
    have := List.length_pos_iff.2 (write_ne l)
    simp [write, Ex.single, Ex.core]; omega
  | paren e => exact absurd rfl (hp e)
  | call f args => simp [write, Ex.single, Ex.core]
  | arr a idx =>
    unfold Ex.ok at h
    cases idx with
    | nil => exact absurd rfl h.2.1
    | cons e es => simp [write, writeIdx, Ex.single, Ex.core]

theorem core_core (e : Ex) : e.core.core = e.core := by
  have := core_not_paren e
  revert this
  generalize e.core = c
  intro h
  cases c with
  | paren e => exact absurd rfl (h e)
  | num | var | bin | call | arr => rfl

theorem single_core (e : Ex) : e.core.single = e.single := by
  unfold Ex.single; rw [core_core]

theorem len_single (e : Ex) (h : e.ok) : (write e.core).length = 1 ↔ e.single = true := by
  rw [write_two _ (core_ok e h) (core_not_paren e), single_core]

/-! ### the round trip -/

theorem parseExpr_write : ∀ (n : Nat) (e : Ex), e.ok → (write e).length < n → parseExpr n (write e) = some (tree e) := by
  intro n
  induction n with
  | zero => intro e _ h; omega
  | succ n ih =>
    intro e he hn
    have hlen := write_core_len e
    rw [← tree_core e]
    unfold parseExpr
    rw [strip_write e he]
    have hok := core_ok e he
    have hnp := core_not_paren e
    have hlen' : (write e.core).length < n + 1 := by omega
    revert hok hnp hlen'
    generalize e.core = c
    intro hok hnp hn
    simp only [Option.bind_eq_bind, Option.bind_some]
    cases c with
    | paren e => exact absurd rfl (hnp e)
    | num w => simp [write, tree]
    | var w => simp [write, tree]
    | bin op l r =>
      have hok' := hok
      unfold Ex.ok at hok'
      obtain ⟨h1, h2, h3, h4, h5⟩ := hok'
      have hw : write (.bin op l r) = write l ++ op :: write r := by simp only [write]
      have hnl : 0 < (write l).length := List.length_pos_iff.2 (write_ne l)
      have hnr : 0 < (write r).length := List.length_pos_iff.2 (write_ne r)
      have hll : (write l.core).length < n := by
        have := write_core_len l
        rw [hw] at hn; simp at hn; omega
      have hlr : (write r.core).length < n := by
        have := write_core_len r
        rw [hw] at hn; simp at hn; omega
      have hsp : splitTopOp 0 0 [] (write (.bin op l r)) = some (write l, op, write r) := by
        rw [hw]; exact splitTopOp_at (bal_write l h4) (deep_op l h4 h3) h1 h2 _
      obtain ⟨t0, t1, more, hm⟩ : ∃ t0 t1 more, write (.bin op l r) = t0 :: t1 :: more := by
        rw [hw]
        cases a : write l with
        | nil => exact absurd a (write_ne l)
        | cons x xs =>
          cases xs with
          | nil => exact ⟨x, op, write r, rfl⟩
          | cons y ys => exact ⟨x, y, ys ++ op :: write r, rfl⟩
      have htree : tree (.bin op l r) = .mk ⟨.unassigned, combineString (write (.bin op l r))⟩
        [.mk op [], (if !l.single && r.single then .mk ⟨.unassigned, spell (write l.core)⟩ [tree l] else tree l),
          (if l.single && !r.single then .mk ⟨.unassigned, spell (write r.core)⟩ [tree r] else tree r)] := by
        simp only [tree]; rfl
      rw [htree]
      rw [hm] at hsp ⊢
      simp only [hsp]
      rw [strip_write l h4, strip_write r h5]
      simp only [Option.bind_some]
      have il := ih l.core (core_ok l h4) hll
      have ir := ih r.core (core_ok r h5) hlr
      rw [tree_core] at il ir
      rw [il, ir]
      have sl := len_single l h4
      have sr := len_single r h5
      simp only [Option.bind_some, sl, sr]
      cases l.single <;> cases r.single <;> simp [combineString, spell]
    | call f args =>
      have hok' := hok
      unfold Ex.ok at hok'
      have hsp := splitTopOp_none (bal_write _ hok) (deep_op _ hok rfl)
      simp only [write] at hsp hn ⊢
      simp only [hsp]
      have hap : argumentParseWith (parseExpr n) splitRound (lpar :: (writeArgs args ++ [rpar])) = some (trees args, []) := by
        unfold argumentParseWith
        rw [split_par (bal_args args hok'.2) []]
        simp only
        cases args with
        | nil => simp [writeArgs, trees]
        | cons e es =>
          have hne : writeArgs (e :: es) ≠ [] := by simp [writeArgs, write_ne]
          have ho := hok'.2
          unfold okAll at ho
          rw [if_neg hne, splitArgs_write es e _ ho.1 ho.2 le_rfl, mapM_write]
          · rfl
          · intro x hx
            refine ih x (okAll_mem hok'.2 x hx) ?_
            have := (write_len_mem hx).1
            simp at hn; omega
      rw [hap]
      simp [tree]
    | arr a idx =>
      have hok' := hok
      unfold Ex.ok at hok'
      obtain ⟨h1, h2, h3⟩ := hok'
      have hsp := splitTopOp_none (bal_write _ hok) (deep_op _ hok rfl)
      cases idx with
      | nil => exact absurd rfl h2
      | cons e es =>
        have hlast : (write (.arr a (e :: es))).getLast?.map Token.text = some [']'] := by
          simp only [write]
          rw [show (⟨.identifier, a⟩ : Token) :: writeIdx (e :: es) = [⟨.identifier, a⟩] ++ writeIdx (e :: es) from rfl,
            List.getLast?_append, writeIdx_getLast _ (by simp)]
          rfl
        have ho := h3
        unfold okAll at ho
        simp only [write, writeIdx] at hsp hn hlast ⊢
        simp only [hsp, hlast]
        have hm : ∀ x ∈ e :: es, parseExpr n (write x) = some (tree x) := by
          intro x hx
          refine ih x (okAll_mem h3 x hx) ?_
          have := (write_len_mem hx).2.2
          simp [writeIdx] at hn this; omega
        rw [if_neg (by simp), if_pos ⟨by rfl, trivial⟩, splitSquare_inside e ho.1]
        simp only [hm e (by simp), Option.bind_some]
        rw [indexLoop_write _ es _ ho.2 (fun x hx => hm x (by simp [hx])) le_rfl]
        simp [tree, trees]

theorem parse_write (e : Ex) (h : e.ok) : parseExpression (write e) = some (tree e) :=
  parseExpr_write _ e h (by omega)

end APS.Parse
