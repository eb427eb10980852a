import Verif.Proofs.ParseBrackets

/-! The expression parser reads what was written. -/
namespace APS.Parse
open APS.Lex (Token TokenType)
open APS.ParseSpec

/-! ### balance -/

def Bal (ts : List Token) : Prop := Balanced ['('] [')'] ts ∧ Balanced ['['] [']'] ts

theorem Bal.nil : Bal [] := ⟨.nil _ _, .nil _ _⟩
theorem Bal.append {a b} (ha : Bal a) (hb : Bal b) : Bal (a ++ b) := ⟨ha.1.append hb.1, ha.2.append hb.2⟩
theorem Bal.single {t : Token} (h1 : t.text ≠ ['(']) (h2 : t.text ≠ [')']) (h3 : t.text ≠ ['[']) (h4 : t.text ≠ [']']) :
    Bal [t] := ⟨.single h1 h2, .single h3 h4⟩
theorem Bal.cons {t : Token} (h1 : t.text ≠ ['(']) (h2 : t.text ≠ [')']) (h3 : t.text ≠ ['[']) (h4 : t.text ≠ [']'])
    {a} (ha : Bal a) : Bal (t :: a) := (Bal.single h1 h2 h3 h4).append ha
theorem Bal.round {l} (hl : Bal l) : Bal (lpar :: (l ++ [rpar])) := by
  refine ⟨hl.1.wrap (op := ['(']) (cl := [')']) (by decide) rfl rfl, ?_⟩
  have h1 : Balanced ['['] [']'] [lpar] := .single (by decide) (by decide)
  have h2 : Balanced ['['] [']'] [rpar] := .single (by decide) (by decide)
  exact h1.append (hl.2.append h2)
theorem Bal.square {l} (hl : Bal l) : Bal (lbrk :: (l ++ [rbrk])) := by
  refine ⟨?_, hl.2.wrap (op := ['[']) (cl := [']']) (by decide) rfl rfl⟩
  have h1 : Balanced ['('] [')'] [lbrk] := .single (by decide) (by decide)
  have h2 : Balanced ['('] [')'] [rbrk] := .single (by decide) (by decide)
  exact h1.append (hl.1.append h2)

theorem Bal.inert {w : List Char} (h : Inert w) {ty : TokenType} {a} (ha : Bal a) : Bal (⟨ty, w⟩ :: a) :=
  .cons h.1 h.2.1 h.2.2.1 h.2.2.2.1 ha

mutual
theorem bal_write : ∀ e : Ex, e.ok → Bal (write e)
  | .num w, h => by unfold Ex.ok at h; simp only [write]; exact .inert h .nil
  | .var w, h => by unfold Ex.ok at h; simp only [write]; exact .inert h .nil
  | .bin op l r, h => by
    unfold Ex.ok at h
    simp only [write]
    exact (bal_write l h.2.2.2.1).append (.inert h.2.1 (bal_write r h.2.2.2.2))
  | .paren e, h => by unfold Ex.ok at h; simp only [write]; exact (bal_write e h).round
  | .call f args, h => by
    unfold Ex.ok at h; simp only [write]; exact .inert h.1 (bal_args args h.2).round
  | .arr a idx, h => by
    unfold Ex.ok at h; simp only [write]; exact .inert h.1 (bal_idx idx h.2.2)
theorem bal_args : ∀ es : List Ex, okAll es → Bal (writeArgs es)
  | [], _ => by simp only [writeArgs]; exact .nil
  | e :: es, h => by unfold okAll at h; simp only [writeArgs]; exact (bal_write e h.1).append (bal_more es h.2)
theorem bal_more : ∀ es : List Ex, okAll es → Bal (writeMore es)
  | [], _ => by simp only [writeMore]; exact .nil
  | e :: es, h => by
    unfold okAll at h; simp only [writeMore]
    exact .cons (by decide) (by decide) (by decide) (by decide) ((bal_write e h.1).append (bal_more es h.2))
theorem bal_idx : ∀ es : List Ex, okAll es → Bal (writeIdx es)
  | [], _ => by simp only [writeIdx]; exact .nil
  | e :: es, h => by
    unfold okAll at h; simp only [writeIdx]
    have := (bal_write e h.1).square.append (bal_idx es h.2)
    simpa using this
end

/-! ### depth of a token in a list -/

/-- both kinds of brackets together -/
def dep (ts : List Token) : Int := depth ['('] [')'] ts + depth ['['] [']'] ts

theorem dep_append (a b) : dep (a ++ b) = dep a + dep b := by simp [dep, depth_append]; omega
theorem Bal.dep_zero {a} (h : Bal a) : dep a = 0 := by simp [dep, h.1.1, h.2.1]
theorem Bal.dep_nonneg {a p} (h : Bal a) (hp : p <+: a) : 0 ≤ dep p := by
  have h1 := h.1.2 p hp
  have h2 := h.2.2 p hp
  simp only [dep]; omega

/-- the tokens with the property `Q` all stand inside brackets -/
def Deep (Q : Token → Prop) (l : List Token) : Prop := ∀ p t, p ++ [t] <+: l → Q t → 0 < dep (p ++ [t])

theorem Deep.nil (Q) : Deep Q [] := by intro p t h; simp at h
theorem Deep.single {Q t} (h : ¬ Q t) : Deep Q [t] := by
  intro p u hp hu
  rcases prefix_cons_iff'.1 hp with h' | ⟨p', h', hp'⟩
  · simp at h'
  · have : p' = [] := by simpa using hp'
    subst this
    cases p with
    | nil => simp at h'; exact absurd (h' ▸ hu) h
    | cons a b => simp at h'
theorem Deep.append {Q a b} (ha : Deep Q a) (hz : dep a = 0) (hb : Deep Q b) : Deep Q (a ++ b) := by
  intro p t hp ht
  rcases prefix_append_cases hp with h | ⟨c, hc, hcb⟩
  · exact ha p t h ht
  · rcases List.eq_nil_or_concat c with rfl | ⟨c', u, rfl⟩
    · rw [List.append_nil] at hc
      rcases List.eq_nil_or_concat a with rfl | ⟨a', v, rfl⟩
      · simp at hc
      · exact ha p t (by rw [hc]; exact List.prefix_refl _) ht
    · rw [List.concat_eq_append] at hc hcb
      have hc' : p = a ++ c' ∧ t = u := by
        rw [← List.append_assoc] at hc
        exact List.append_inj' hc rfl |>.imp id (by simp)
      obtain ⟨rfl, rfl⟩ := hc'
      have := hb c' t hcb ht
      rw [List.append_assoc, dep_append, hz]
      omega

theorem Deep.wrap {Q} {o c : Token} (ho : dep [o] = 1) (hc : dep [c] = -1) (hQo : ¬ Q o) (hQc : ¬ Q c) {l} (hl : Bal l) :
    Deep Q (o :: (l ++ [c])) := by
  intro p t hp ht
  cases p with
  | nil =>
    simp at hp
    exact absurd (hp ▸ ht) hQo
  | cons u p =>
    have hp' : p ++ [t] <+: l ++ [c] := by
      rw [List.cons_append, List.cons_prefix_cons] at hp; exact hp.2
    have hu : u = o := by rw [List.cons_append, List.cons_prefix_cons] at hp; exact hp.1
    subst hu
    rcases prefix_append_cases hp' with h | ⟨d, hd, hdc⟩
    · have := hl.dep_nonneg h
      rw [show u :: p ++ [t] = [u] ++ (p ++ [t]) from rfl, dep_append, ho]
      omega
    · rcases prefix_cons_iff'.1 hdc with rfl | ⟨d', rfl, hd'⟩
      · rw [List.append_nil] at hd
        have := hl.dep_zero
        rw [show u :: p ++ [t] = [u] ++ (p ++ [t]) from rfl, dep_append, ho, hd, this]
        omega
      · have : d' = [] := by simpa using hd'
        subst this
        have := List.append_inj' hd rfl
        simp at this
        exact absurd (this.2 ▸ ht) hQc

theorem dep_lpar : dep [lpar] = 1 := by decide
theorem dep_rpar : dep [rpar] = -1 := by decide
theorem dep_lbrk : dep [lbrk] = 1 := by decide
theorem dep_rbrk : dep [rbrk] = -1 := by decide

theorem deep_idx {Q : Token → Prop} (h1 : ¬ Q lbrk) (h2 : ¬ Q rbrk) : ∀ es : List Ex, okAll es → Deep Q (writeIdx es)
  | [], _ => by simp only [writeIdx]; exact .nil _
  | e :: es, h => by
    unfold okAll at h
    have hw := bal_write e h.1
    have := (Deep.wrap (Q := Q) dep_lbrk dep_rbrk h1 h2 hw).append hw.square.dep_zero (deep_idx h1 h2 es h.2)
    simp only [writeIdx]
    simpa using this

/-- operators -/
def IsOp (t : Token) : Prop := isOperator t.type = true

/-- an expression that is no operation shows no operator -/
theorem deep_op (e : Ex) (h : e.ok) (hc : e.closed = true) : Deep IsOp (write e) := by
  have n1 : ¬ IsOp lpar := by simp [IsOp, lpar, isOperator]
  have n2 : ¬ IsOp rpar := by simp [IsOp, rpar, isOperator]
  have n3 : ¬ IsOp lbrk := by simp [IsOp, lbrk, isOperator]
  have n4 : ¬ IsOp rbrk := by simp [IsOp, rbrk, isOperator]
  cases e with
  | num w => simp only [write]; exact .single (by simp [IsOp, isOperator])
  | var w => simp only [write]; exact .single (by simp [IsOp, isOperator])
  | bin => simp [Ex.closed] at hc
  | paren e => unfold Ex.ok at h; simp only [write]; exact .wrap dep_lpar dep_rpar n1 n2 (bal_write e h)
  | call f args =>
    unfold Ex.ok at h
    simp only [write]
    exact Deep.append (a := [_]) (.single (by simp [IsOp, isOperator])) (Bal.inert h.1 .nil).dep_zero
      (.wrap dep_lpar dep_rpar n1 n2 (bal_args args h.2))
  | arr a idx =>
    unfold Ex.ok at h
    simp only [write]
    exact Deep.append (a := [_]) (.single (by simp [IsOp, isOperator])) (Bal.inert h.1 .nil).dep_zero
      (deep_idx n3 n4 idx h.2.2)

/-- a separator -/
def IsComma (t : Token) : Prop := t.text = [',']

theorem deep_comma : ∀ e : Ex, e.ok → Deep IsComma (write e) := by
  have n1 : ¬ IsComma lpar := by simp [IsComma, lpar]
  have n2 : ¬ IsComma rpar := by simp [IsComma, rpar]
  have n3 : ¬ IsComma lbrk := by simp [IsComma, lbrk]
  have n4 : ¬ IsComma rbrk := by simp [IsComma, rbrk]
  have ni : ∀ {w : List Char} {ty}, Inert w → ¬ IsComma ⟨ty, w⟩ := by
    intro w ty h h'; exact h.2.2.2.2.1 h'
  intro e
  induction e using Ex.rec (motive_2 := fun _ => True) with
  | num w => intro h; unfold Ex.ok at h; simp only [write]; exact .single (ni h)
  | var w => intro h; unfold Ex.ok at h; simp only [write]; exact .single (ni h)
  | bin op l r ihl ihr =>
    intro h
    unfold Ex.ok at h
    simp only [write]
    refine (ihl h.2.2.2.1).append (bal_write l h.2.2.2.1).dep_zero ?_
    exact Deep.append (a := [op]) (.single (ni (ty := op.type) h.2.1)) (Bal.inert (ty := op.type) h.2.1 .nil).dep_zero
      (ihr h.2.2.2.2)
  | paren e _ => intro h; unfold Ex.ok at h; simp only [write]; exact .wrap dep_lpar dep_rpar n1 n2 (bal_write e h)
  | call f args _ =>
    intro h
    unfold Ex.ok at h
    simp only [write]
    exact Deep.append (a := [_]) (.single (ni h.1)) (Bal.inert h.1 .nil).dep_zero
      (.wrap dep_lpar dep_rpar n1 n2 (bal_args args h.2))
  | arr a idx _ =>
    intro h
    unfold Ex.ok at h
    simp only [write]
    exact Deep.append (a := [_]) (.single (ni h.1)) (Bal.inert h.1 .nil).dep_zero (deep_idx n3 n4 idx h.2.2)
  | nil => trivial
  | cons => trivial

/-! ### splitting at operators and commas -/

theorem dep_cons (t : Token) (ts) : dep (t :: ts) = dep [t] + dep ts := dep_append [t] ts

theorem splitTopOp_skip : ∀ (l : List Token) (c1 c2 : Int) (acc rest : List Token),
    (∀ p t, p ++ [t] <+: l → IsOp t → ¬ (c1 + depth ['('] [')'] (p ++ [t]) = 0 ∧ c2 + depth ['['] [']'] (p ++ [t]) = 0)) →
    splitTopOp c1 c2 acc (l ++ rest) =
      splitTopOp (c1 + depth ['('] [')'] l) (c2 + depth ['['] [']'] l) (l.reverse ++ acc) rest := by
  intro l
  induction l with
  | nil => intro c1 c2 acc rest _; simp [depth]
  | cons t l ih =>
    intro c1 c2 acc rest h
    rw [List.cons_append]
    conv_lhs => unfold splitTopOp
    have e1 : (if t.text = [')'] then (if t.text = ['('] then c1 + 1 else c1) - 1 else if t.text = ['('] then c1 + 1 else c1)
        = c1 + depth ['('] [')'] [t] := by
      by_cases a : t.text = ['(']
      · simp [depth, a]
      · by_cases b : t.text = [')'] <;> simp [depth, a, b]; omega
    have e2 : (if t.text = [']'] then (if t.text = ['['] then c2 + 1 else c2) - 1 else if t.text = ['['] then c2 + 1 else c2)
        = c2 + depth ['['] [']'] [t] := by
      by_cases a : t.text = ['[']
      · simp [depth, a]
      · by_cases b : t.text = [']'] <;> simp [depth, a, b]; omega
    simp only [e1, e2]
    have h0 := h [] t (by simp)
    rw [if_neg (fun hh => h0 hh.1 hh.2)]
    rw [ih]
    · have d1 := depth_append ['('] [')'] [t] l
      have d2 := depth_append ['['] [']'] [t] l
      simp only [List.singleton_append] at d1 d2
      rw [d1, d2, List.reverse_cons, List.append_assoc, List.singleton_append]
      simp only [Int.add_assoc]
    · intro p u hp hu hz
      refine h (t :: p) u (by simpa using hp) hu ?_
      have d1 := depth_append ['('] [')'] [t] (p ++ [u])
      have d2 := depth_append ['['] [']'] [t] (p ++ [u])
      simp only [List.singleton_append] at d1 d2
      rw [List.cons_append, d1, d2]
      omega

theorem splitTopOp_bal {l : List Token} (hb : Bal l) (hd : Deep IsOp l) (acc rest) :
    splitTopOp 0 0 acc (l ++ rest) = splitTopOp 0 0 (l.reverse ++ acc) rest := by
  rw [splitTopOp_skip]
  · rw [hb.1.1, hb.2.1]; rfl
  · intro p t hp ht hz
    have h1 := hd p t hp ht
    simp only [dep] at h1
    omega

theorem splitTopOp_none {l : List Token} (hb : Bal l) (hd : Deep IsOp l) : splitTopOp 0 0 [] l = none := by
  have := splitTopOp_bal hb hd [] []
  rw [List.append_nil] at this
  rw [this]
  rfl

theorem splitTopOp_at {l : List Token} (hb : Bal l) (hd : Deep IsOp l) {op : Token} (ho : isOperator op.type = true)
    (hi : Inert op.text) (r) : splitTopOp 0 0 [] (l ++ op :: r) = some (l, op, r) := by
  rw [splitTopOp_bal hb hd]
  unfold splitTopOp
  simp [hi.1, hi.2.1, hi.2.2.1, hi.2.2.2.1, ho]

theorem splitTopText_skip : ∀ (l : List Token) (c : Int) (acc rest : List Token),
    (∀ p t, p ++ [t] <+: l → IsComma t → c + dep (p ++ [t]) ≠ 0) →
    splitTopText [','] c acc (l ++ rest) = splitTopText [','] (c + dep l) (l.reverse ++ acc) rest := by
  intro l
  induction l with
  | nil => intro c acc rest _; simp [dep, depth]
  | cons t l ih =>
    intro c acc rest h
    rw [List.cons_append]
    conv_lhs => unfold splitTopText
    have e1 : (if t.text = [')'] ∨ t.text = [']'] then (if t.text = ['('] ∨ t.text = ['['] then c + 1 else c) - 1
        else if t.text = ['('] ∨ t.text = ['['] then c + 1 else c) = c + dep [t] := by
      by_cases a : t.text = ['(']
      · simp [dep, depth, a]
      · by_cases b : t.text = [')']
        · simp [dep, depth, b]; omega
        · by_cases d : t.text = ['[']
          · simp [dep, depth, d]
          · by_cases e : t.text = [']'] <;> simp [dep, depth, a, b, d, e]; omega
    simp only [e1]
    have h0 := h [] t (by simp)
    rw [if_neg (fun hh => h0 hh.1 hh.2)]
    rw [ih]
    · rw [dep_cons t l, List.reverse_cons, List.append_assoc, List.singleton_append, Int.add_assoc]
    · intro p u hp hu hz
      refine h (t :: p) u (by simpa using hp) hu ?_
      rw [List.cons_append, dep_cons]
      omega

theorem splitTopText_end {l : List Token} (hd : Deep IsComma l) : splitTopText [','] 0 [] l = (l, none) := by
  have := splitTopText_skip l 0 [] [] (fun p t hp ht => by have := hd p t hp ht; omega)
  rw [List.append_nil] at this
  rw [this]
  simp [splitTopText]

theorem splitTopText_at {l : List Token} (hb : Bal l) (hd : Deep IsComma l) {r : List Token} (hr : r ≠ []) :
    splitTopText [','] 0 [] (l ++ comma :: r) = (l, some r) := by
  rw [splitTopText_skip l 0 [] _ (fun p t hp ht => by have := hd p t hp ht; omega), hb.dep_zero]
  simp [splitTopText, comma, hr]

/-! ### parentheses -/

mutual
theorem write_ne : ∀ e : Ex, write e ≠ []
  | .num w => by simp [write]
  | .var w => by simp [write]
  | .bin op l r => by simp [write]
  | .paren e => by simp [write]
  | .call f args => by simp [write]
  | .arr a idx => by simp [write]
end

theorem core_ok (e : Ex) (h : e.ok) : e.core.ok := by
  induction e using Ex.rec (motive_2 := fun _ => True) with
  | paren e ih => unfold Ex.ok at h; unfold Ex.core; exact ih h
  | num | var | bin | call | arr => unfold Ex.core; exact h
  | nil => trivial
  | cons => trivial

theorem core_not_paren (e : Ex) : ∀ e', e.core ≠ .paren e' := by
  induction e using Ex.rec (motive_2 := fun _ => True) with
  | paren e ih => unfold Ex.core; exact ih
  | num | var | bin | call | arr => unfold Ex.core; intro e' h; cases h
  | nil => trivial
  | cons => trivial

theorem tree_core (e : Ex) : tree e.core = tree e := by
  induction e using Ex.rec (motive_2 := fun _ => True) with
  | paren e ih => unfold Ex.core; rw [ih]; simp only [tree]
  | num | var | bin | call | arr => unfold Ex.core; rfl
  | nil => trivial
  | cons => trivial

theorem write_core_len (e : Ex) : (write e.core).length ≤ (write e).length := by
  induction e using Ex.rec (motive_2 := fun _ => True) with
  | paren e ih => unfold Ex.core; simp only [write, List.length_cons, List.length_append]; omega
  | num | var | bin | call | arr => unfold Ex.core; exact le_rfl
  | nil => trivial
  | cons => trivial

/-- an expression that is not in parentheses and shows no operator starts with a name or number -/
theorem head_inert (e : Ex) (h : e.ok) (hc : e.closed = true) (hp : ∀ e', e ≠ .paren e') :
    ∃ t ts, write e = t :: ts ∧ Inert t.text := by
  cases e with
  | num w => unfold Ex.ok at h; exact ⟨_, _, by simp only [write]; rfl, h⟩
  | var w => unfold Ex.ok at h; exact ⟨_, _, by simp only [write]; rfl, h⟩
  | bin => simp [Ex.closed] at hc
  | paren e => exact absurd rfl (hp e)
  | call f args => unfold Ex.ok at h; exact ⟨_, _, by simp only [write]; rfl, h.1⟩
  | arr a idx => unfold Ex.ok at h; exact ⟨_, _, by simp only [write]; rfl, h.1⟩

theorem split_par {l : List Token} (hl : Bal l) (r) : splitRound (lpar :: (l ++ rpar :: r)) = some (some (l, r)) := by
  unfold splitRound
  rw [split_open (op := ['(']) (cl := [')']) (u := lpar) (by decide) rfl]
  exact ⟨rpar, rfl, rfl, hl.1⟩

theorem not_surrounded_head {t : Token} {ts : List Token} (ht : t.text ≠ ['(']) (hb : Bal (t :: ts)) :
    isSurrounded (t :: ts) = false := by
  unfold isSurrounded splitRound
  rw [split_none (by decide) ht hb.1]

theorem not_surrounded (e : Ex) (h : e.ok) (hp : ∀ e', e ≠ .paren e') : isSurrounded (write e) = false := by
  cases hc : e.closed with
  | true =>
    obtain ⟨t, ts, hw, hi⟩ := head_inert e h hc hp
    have := bal_write e h
    rw [hw] at this ⊢
    exact not_surrounded_head hi.1 this
  | false =>
    cases e with
    | bin op l r =>
      have hb := bal_write _ h
      unfold Ex.ok at h
      by_cases hpl : ∃ e', l = .paren e'
      · obtain ⟨e', rfl⟩ := hpl
        have h4 := h.2.2.2.1
        unfold Ex.ok at h4
        have : write (.bin op (.paren e') r) = lpar :: (write e' ++ rpar :: (op :: write r)) := by
          simp only [write]; simp
        rw [this]
        unfold isSurrounded
        rw [split_par (bal_write e' h4)]
      · obtain ⟨t, ts, hw, hi⟩ := head_inert l h.2.2.2.1 h.2.2.1 (fun e' he => hpl ⟨e', he⟩)
        simp only [write, hw, List.cons_append] at hb ⊢
        exact not_surrounded_head hi.1 hb
    | num | var | paren | call | arr => simp [Ex.closed] at hc

theorem surrounded_paren (e : Ex) (h : e.ok) : isSurrounded (write (.paren e)) = true := by
  simp only [write]
  unfold isSurrounded
  rw [split_par (bal_write e h) []]

theorem stripLoop_write (e : Ex) : e.ok → ∀ n, (write e).length ≤ n → stripLoop n (write e) = some (write e.core) := by
  have triv : ∀ e : Ex, e.ok → (∀ e', e ≠ .paren e') → ∀ n, stripLoop n (write e) = some (write e) := by
    intro e h hp n
    cases n with
    | zero => rfl
    | succ n => unfold stripLoop; rw [not_surrounded e h hp]; rfl
  induction e using Ex.rec (motive_2 := fun _ => True) with
  | paren e ih =>
    intro h n hn
    unfold Ex.ok at h
    cases n with
    | zero => simp [write] at hn
    | succ n =>
      unfold stripLoop
      rw [surrounded_paren e h, if_pos rfl]
      have hl : ¬ (write (.paren e)).length < 2 := by simp [write]
      rw [if_neg hl]
      have : ((write (.paren e)).drop 1).dropLast = write e := by simp [write]
      rw [this]
      unfold Ex.core
      refine ih h n ?_
      simp [write] at hn
      omega
  | num w => intro h n _; exact triv _ h (by intro e' he; cases he) n
  | var w => intro h n _; exact triv _ h (by intro e' he; cases he) n
  | bin => intro h n _; exact triv _ h (by intro e' he; cases he) n
  | call => intro h n _; exact triv _ h (by intro e' he; cases he) n
  | arr => intro h n _; exact triv _ h (by intro e' he; cases he) n
  | nil => trivial
  | cons => trivial

theorem strip_write (e : Ex) (h : e.ok) : stripOfBrackets (write e) = some (write e.core) :=
  stripLoop_write e h _ le_rfl

end APS.Parse
