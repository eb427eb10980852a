import Verif.Spec.GoLoop
import Verif.Proofs.Lang
import Verif.Props.Lang

/-! C47: static conditions and loops. -/
namespace APS.LangSpec
open APS.Circuit (Name)
open APS.ParseSpec (Ex indexText)

variable {q : Nat} [Fact q.Prime] {gx : ZMod q → ZMod q} {P : List Fun}

theorem runList_mono {n k : Nat} (h : n ≤ k) {ρ ρ' : Store q} {sts : List Stm} (hr : runList (run gx P n) ρ sts = .ok ρ') :
    runList (run gx P k) ρ sts = .ok ρ' := by
  have := (runs_le gx P h ρ sts).resolve_left (by rw [hr]; simp)
  rw [← this, hr]

theorem run_mono {n k : Nat} (h : n ≤ k) {ρ ρ' : Store q} {st : Stm} (hr : run gx P n ρ st = .ok ρ') : run gx P k ρ st = .ok ρ' := by
  have := (run_le gx P h ρ st).resolve_left (by rw [hr]; simp)
  rw [← this, hr]

theorem word_no_bracket {x : Name} (hx : isWord x = true) : '[' ∉ x := by
  cases x with
  | nil => simp
  | cons c cs =>
    intro h
    simp only [isWord, Bool.and_eq_true, List.all_eq_true] at hx
    rcases List.mem_cons.mp h with rfl | h
    · exact absurd hx.1 (by decide)
    · exact absurd (hx.2 _ h) (by decide)

theorem element_ne {x a : Name} (hx : isWord x = true) {is : List Nat} (hi : is ≠ []) : a ++ indexText is ≠ x := by
  intro h
  apply word_no_bracket hx
  rw [← h]
  cases is with
  | nil => exact absurd rfl hi
  | cons i is => simp [indexText]

theorem bind_ok {α β} {a : Except Err α} {f : α → Except Err β} {b : β} : (a >>= f) = .ok b ↔ ∃ x, a = .ok x ∧ f x = .ok b := by
  cases a <;> simp [bind, Except.bind]

omit [Fact q.Prime] in
theorem declareFrom_keeps {ev : Store q → Ex → Except Err (ZMod q)} {x a : Name} (hx : isWord x = true) :
    ∀ (es : List Ex) (i : Nat) (ρ ρ' : Store q), declareFrom ev a i es ρ = .ok ρ' → ρ' x = ρ x
  | [], i, ρ, ρ', h => by simp only [declareFrom] at h; cases h; rfl
  | e :: es, i, ρ, ρ', h => by
    simp only [declareFrom] at h
    obtain ⟨v, _, h⟩ := bind_ok.mp h
    rw [declareFrom_keeps hx es _ _ _ h]
    simp only [put]
    rw [if_neg fun h => element_ne hx (is := [i]) (by simp) h.symm]

omit [Fact q.Prime] in
theorem runList_append {r : Store q → Stm → Except Err (Store q)} {ρ ρ' : Store q} {as bs : List Stm} :
    runList r ρ (as ++ bs) = .ok ρ' ↔ ∃ ρ1, runList r ρ as = .ok ρ1 ∧ runList r ρ1 bs = .ok ρ' := by
  induction as generalizing ρ with
  | nil => simp [runList]
  | cons a as ih =>
    simp only [List.cons_append, runList, bind_ok, ih]
    constructor
    · rintro ⟨ρ1, h1, ρ2, h2, h3⟩; exact ⟨ρ2, ⟨ρ1, h1, h2⟩, h3⟩
    · rintro ⟨ρ2, ⟨ρ1, h1, h2⟩, h3⟩; exact ⟨ρ1, h1, ρ2, h2, h3⟩

/-- a statement leaves the variables that it does not write -/
theorem run_keeps {x : Name} (hx : isWord x = true) (n : Nat) :
    ∀ (st : Stm) (ρ ρ' : Store q), x ∉ st.writes → run gx P n ρ st = .ok ρ' → ρ' x = ρ x := by
  induction n with
  | zero => intro st ρ ρ' _ h; simp [run] at h
  | succ n ih =>
    have hl : ∀ (sts : List Stm) (ρ ρ' : Store q), x ∉ writesAll sts → runList (run gx P n) ρ sts = .ok ρ' → ρ' x = ρ x := by
      intro sts
      induction sts with
      | nil => intro ρ ρ' _ h; simp only [runList] at h; cases h; rfl
      | cons st sts ihs =>
        intro ρ ρ' hw h
        simp only [writesAll, List.mem_append, not_or] at hw
        simp only [runList] at h
        obtain ⟨ρ1, h1, h⟩ := bind_ok.mp h
        rw [ihs _ _ hw.2 h, ih _ _ _ hw.1 h1]
    intro st ρ ρ' hw h
    cases st with
    | decl y e =>
      simp only [run] at h
      obtain ⟨v, _, h⟩ := bind_ok.mp h
      cases h
      simp only [Stm.writes, List.mem_singleton] at hw
      simp [put, hw]
    | declArr a es => simp only [run] at h; exact declareFrom_keeps hx _ _ _ _ h
    | assign y idx e =>
      simp only [run] at h
      obtain ⟨is, hi, h⟩ := bind_ok.mp h
      obtain ⟨v, _, h⟩ := bind_ok.mp h
      obtain ⟨_, _, h⟩ := bind_ok.mp h
      cases h
      simp only [Stm.writes, List.mem_singleton] at hw
      simp only [put]
      rw [if_neg]
      intro h
      by_cases h0 : is.map ZMod.val = []
      · rw [element, h0] at h; simp [indexText] at h; exact hw h
      · exact element_ne hx h0 h.symm
    | call f args =>
      simp only [run] at h
      split at h
      · obtain ⟨vs, _, h⟩ := bind_ok.mp h
        split at h
        · split at h
          · cases h; rfl
          · cases h
        · cases h
      · split at h
        · obtain ⟨vs, _, h⟩ := bind_ok.mp h; cases h; rfl
        · obtain ⟨vs, _, h⟩ := bind_ok.mp h; cases h; rfl
    | loop l cmp r y step body =>
      simp only [run] at h
      obtain ⟨a, _, h⟩ := bind_ok.mp h
      obtain ⟨b, _, h⟩ := bind_ok.mp h
      obtain ⟨go, _, h⟩ := bind_ok.mp h
      have hw' := hw
      simp only [Stm.writes, List.mem_cons, not_or] at hw
      split at h
      · obtain ⟨ρ1, h1, h⟩ := bind_ok.mp h
        obtain ⟨v, _, h⟩ := bind_ok.mp h
        obtain ⟨_, _, h⟩ := bind_ok.mp h
        rw [ih _ _ _ hw' h]
        simp only [put, if_neg hw.1]
        exact hl _ _ _ hw.2 h1
      · cases h; rfl
    | cond l cmp r body =>
      simp only [run] at h
      obtain ⟨a, _, h⟩ := bind_ok.mp h
      obtain ⟨b, _, h⟩ := bind_ok.mp h
      obtain ⟨go, _, h⟩ := bind_ok.mp h
      simp only [Stm.writes] at hw
      split at h
      · split at h
        · exact hl _ _ _ hw h
        · cases h
      · cases h; rfl

theorem runList_keeps {x : Name} (hx : isWord x = true) (n : Nat) :
    ∀ (sts : List Stm) (ρ ρ' : Store q), x ∉ writesAll sts → runList (run gx P n) ρ sts = .ok ρ' → ρ' x = ρ x := by
  intro sts
  induction sts with
  | nil => intro ρ ρ' _ h; simp only [runList] at h; cases h; rfl
  | cons st sts ihs =>
    intro ρ ρ' hw h
    simp only [writesAll, List.mem_append, not_or] at hw
    simp only [runList] at h
    obtain ⟨ρ1, h1, h⟩ := bind_ok.mp h
    rw [ihs _ _ hw.2 h, run_keeps hx n _ _ _ hw.1 h1]

theorem compareOp_go {cmp : Name} {a b : Nat} (hc : cmp ∈ [['=', '='], ['!', '='], ['>'], ['>', '='], ['<'], ['<', '=']]) :
    ∃ go, compareOp cmp a b = .ok go ∧ (go = true ↔ goHolds cmp a b) := by
  simp only [List.mem_cons, List.not_mem_nil, or_false] at hc
  rcases hc with rfl | rfl | rfl | rfl | rfl | rfl <;> simp [compareOp, goHolds]
  exact (Decidable.em _)

/-- `i + c` or `i - c`, and what Go makes of it -/
def goStep (op : Name) (c i : Int) : Int := if op = ['+'] then i + c else i - c

omit [Fact q.Prime] in
theorem put_self (ρ : Store q) {x : Name} {v : ZMod q} (h : ρ x = some v) : put ρ x v = ρ := by
  funext y
  simp only [put]
  split
  · subst_vars; exact h.symm
  · rfl

omit [Fact q.Prime] in
theorem put_put (ρ : Store q) (x : Name) (v w : ZMod q) : put (put ρ x v) x w = put ρ x w := by
  funext y
  simp only [put]
  split <;> rfl

theorem val_int {k : Int} (h0 : 0 ≤ k) (h1 : k < q) : ((((k : Int) : ZMod q).val : Nat) : Int) = k := by
  obtain ⟨n, rfl⟩ := Int.eq_ofNat_of_zero_le h0
  rw [Int.cast_natCast, ZMod.val_natCast_of_lt (by omega)]

section
variable {x b c : Name} {cmp : Name} {op : APS.Lex.Token} {body : List Stm}

theorem run_loop (l r st : Ex) (n : Nat) (ρ : Store q) : run gx P (n + 1) ρ (.loop l cmp r x st body) = (do
      let a ← eval gx P n ρ l
      let b ← eval gx P n ρ r
      let go ← compareOp cmp a.val b.val
      if go then do
        let ρ ← runList (run gx P n) ρ body
        let v ← eval gx P n ρ st
        let _ ← get ρ x
        run gx P n (put ρ x v) (.loop l cmp r x st body)
      else .ok ρ) := by
  rw [run]

omit [Fact q.Prime] in
theorem get_ok {ρ : Store q} {v : ZMod q} (h : ρ x = some v) : LangSpec.get ρ x = .ok v := by simp [LangSpec.get, h]

theorem step_ok (ho : op.text = ['+'] ∨ op.text = ['-']) {ρ : Store q} {i : Int} (n : Nat) (h : ρ x = some (i : ZMod q)) :
    eval gx P (n + 2) ρ (.bin op (.var x) (.num c)) = .ok ((goStep op.text (Nat.ofDigitChars 10 c 0) i : Int) : ZMod q) := by
  rcases ho with ho | ho <;> simp [eval, get_ok h, ho, arithOp, goStep, bind, Except.bind]

/-- one round of the loop, down -/
theorem loop_down (hc : cmp ∈ [['=', '='], ['!', '='], ['>'], ['>', '='], ['<'], ['<', '=']]) (ho : op.text = ['+'] ∨ op.text = ['-'])
    (hx : isWord x = true) (hw : x ∉ writesAll body) (hb : Nat.ofDigitChars 10 b 0 < q) {i : Int} (h0 : 0 ≤ i) (h1 : i < q)
    {s ρ' : Store q} {n : Nat}
    (h : run gx P n (put s x (i : ZMod q)) (.loop (.var x) cmp (.num b) x (.bin op (.var x) (.num c)) body) = .ok ρ') :
      (¬ goHolds cmp i (Nat.ofDigitChars 10 b 0) ∧ ρ' = put s x i) ∨
      (goHolds cmp i (Nat.ofDigitChars 10 b 0) ∧ ∃ s', RunsAll gx P body (put s x i) s' ∧ ∃ n', n' < n ∧
        run gx P n' (put s' x (goStep op.text (Nat.ofDigitChars 10 c 0) i : Int))
          (.loop (.var x) cmp (.num b) x (.bin op (.var x) (.num c)) body) = .ok ρ') := by
  obtain ⟨go, hg, hgo⟩ := compareOp_go (a := ((i : ZMod q)).val) (b := ((Nat.ofDigitChars 10 b 0 : Nat) : ZMod q).val) hc
  rw [val_int h0 h1, ZMod.val_natCast_of_lt hb] at hgo
  have hp : put s x (i : ZMod q) x = some (i : ZMod q) := by simp [put]
  match n, h with
  | 0, h => simp [run] at h
  | 1, h => rw [run_loop] at h; simp [eval, bind, Except.bind] at h
  | n + 2, h =>
    rw [run_loop] at h
    obtain ⟨a, ha, h⟩ := bind_ok.mp h
    obtain ⟨b', hb', h⟩ := bind_ok.mp h
    obtain ⟨go', hg', h⟩ := bind_ok.mp h
    simp only [eval, get_ok hp] at ha
    cases ha
    simp only [eval] at hb'
    cases hb'
    rw [hg] at hg'
    cases hg'
    split at h
    · rename_i hgt
      obtain ⟨s', h2, h⟩ := bind_ok.mp h
      obtain ⟨v, hv, h⟩ := bind_ok.mp h
      obtain ⟨_, _, h⟩ := bind_ok.mp h
      have hs' : s' x = some (i : ZMod q) := by rw [runList_keeps hx _ _ _ _ hw h2, hp]
      cases n with
      | zero => simp [eval, bind, Except.bind] at hv
      | succ n =>
      rw [step_ok ho n hs'] at hv
      cases hv
      exact Or.inr ⟨hgo.mp hgt, s', ⟨_, h2⟩, _, by omega, h⟩
    · rename_i hgt
      cases h
      exact Or.inl ⟨fun h => hgt (hgo.mpr h), rfl⟩

/-- one round of the loop, up -/
theorem loop_up (hc : cmp ∈ [['=', '='], ['!', '='], ['>'], ['>', '='], ['<'], ['<', '=']]) (ho : op.text = ['+'] ∨ op.text = ['-'])
    (hx : isWord x = true) (hw : x ∉ writesAll body) (hb : Nat.ofDigitChars 10 b 0 < q) {i : Int} (h0 : 0 ≤ i) (h1 : i < q)
    {s ρ' : Store q} (h : (¬ goHolds cmp i (Nat.ofDigitChars 10 b 0) ∧ ρ' = put s x i) ∨
      (goHolds cmp i (Nat.ofDigitChars 10 b 0) ∧ ∃ s', RunsAll gx P body (put s x i) s' ∧
        Runs gx P (.loop (.var x) cmp (.num b) x (.bin op (.var x) (.num c)) body)
          (put s' x (goStep op.text (Nat.ofDigitChars 10 c 0) i : Int)) ρ')) :
    Runs gx P (.loop (.var x) cmp (.num b) x (.bin op (.var x) (.num c)) body) (put s x (i : ZMod q)) ρ' := by
  obtain ⟨go, hg, hgo⟩ := compareOp_go (a := ((i : ZMod q)).val) (b := ((Nat.ofDigitChars 10 b 0 : Nat) : ZMod q).val) hc
  rw [val_int h0 h1, ZMod.val_natCast_of_lt hb] at hgo
  have hp : put s x (i : ZMod q) x = some (i : ZMod q) := by simp [put]
  rcases h with ⟨hn, rfl⟩ | ⟨hh, s', ⟨n1, h1'⟩, n2, h2⟩
  · refine ⟨2, ?_⟩
    have : go = false := by
      cases go with
      | false => rfl
      | true => exact absurd (hgo.mp rfl) hn
    rw [run_loop]
    refine bind_ok.mpr ⟨_, by rw [eval]; exact get_ok hp, bind_ok.mpr ⟨_, by rw [eval], bind_ok.mpr ⟨_, hg, ?_⟩⟩⟩
    rw [this]; rfl
  · have hs' : s' x = some (i : ZMod q) := by rw [runList_keeps hx _ _ _ _ hw h1', hp]
    refine ⟨(n1 + n2 + 2) + 1, ?_⟩
    rw [run_loop]
    refine bind_ok.mpr ⟨_, by rw [eval]; exact get_ok hp, bind_ok.mpr ⟨_, by rw [eval], bind_ok.mpr ⟨_, hg, ?_⟩⟩⟩
    rw [hgo.mpr hh, if_pos rfl]
    exact bind_ok.mpr ⟨_, runList_mono (by omega) h1', bind_ok.mpr ⟨_, step_ok ho _ hs', bind_ok.mpr ⟨_, get_ok hs',
      run_mono (by omega) h2⟩⟩⟩

/-- the counter goes on from the next value -/
theorem Counts.tail {cond : Int → Prop} {step : Int → Int} {i k : Int} (h : Counts cond step (step i) k) (hi : cond i) :
    Counts cond step i k := by
  induction h with
  | start => exact .next .start hi
  | next _ hk ih => exact .next ih hk

/-- C47: a loop with a counter leads from one store to another exactly if the Go loop does, as long as the counter of the Go
loop stays within `0 … q-1`.  The loop compares the counter with a number, steps by a number up or down, and its body does not
write the counter. -/
theorem C47_loop_partial (hc : cmp ∈ [['=', '='], ['!', '='], ['>'], ['>', '='], ['<'], ['<', '=']])
    (ho : op.text = ['+'] ∨ op.text = ['-']) (hx : isWord x = true) (hw : x ∉ writesAll body) (hb : Nat.ofDigitChars 10 b 0 < q)
    {i : Int} (hi : ∀ k, Counts (fun k => goHolds cmp k (Nat.ofDigitChars 10 b 0)) (goStep op.text (Nat.ofDigitChars 10 c 0)) i k →
      0 ≤ k ∧ k < q) {ρ ρ' : Store q} (hρ : ρ x = some (i : ZMod q)) :
    Runs gx P (.loop (.var x) cmp (.num b) x (.bin op (.var x) (.num c)) body) ρ ρ' ↔
      ∃ (j : Int) (t : Store q), GoLoop (fun k => goHolds cmp k (Nat.ofDigitChars 10 b 0)) (goStep op.text (Nat.ofDigitChars 10 c 0))
        (fun k s s' => RunsAll gx P body (put s x (k : ZMod q)) s') i ρ j t ∧ ρ' = put t x (j : ZMod q) := by
  have hρ' : put ρ x (i : ZMod q) = ρ := put_self ρ hρ
  constructor
  · rintro ⟨n, h⟩
    rw [← hρ'] at h
    clear hρ hρ'
    induction n using Nat.strong_induction_on generalizing i ρ with
    | _ n ih =>
    have hi0 := hi i .start
    rcases loop_down hc ho hx hw hb hi0.1 hi0.2 h with ⟨hn, rfl⟩ | ⟨hh, s', h1, n', hlt, h2⟩
    · exact ⟨i, ρ, .done hn, rfl⟩
    · obtain ⟨j, t, hg, rfl⟩ := ih n' hlt (fun k hk => hi k (hk.tail hh)) h2
      exact ⟨j, t, .next hh h1 hg, rfl⟩
  · rintro ⟨j, t, hg, rfl⟩
    rw [← hρ']
    clear hρ hρ'
    induction hg with
    | @done i s hn =>
      have hi0 := hi i .start
      exact loop_up hc ho hx hw hb hi0.1 hi0.2 (Or.inl ⟨hn, rfl⟩)
    | @next i s s' j t hh hb' _ ih =>
      have hi0 := hi i .start
      exact loop_up hc ho hx hw hb hi0.1 hi0.2 (Or.inr ⟨hh, s', hb', ih fun k hk => hi k (hk.tail hh)⟩)

/-- C47: in particular, `for (i < b; i = i + c)` runs as in Go from every start below `q` if `b + c ≤ q`. -/
theorem C47_loop_up_partial (ho : op.text = ['+']) (hx : isWord x = true) (hw : x ∉ writesAll body) {i : Nat} (hi : i < q)
    (hb : Nat.ofDigitChars 10 b 0 + Nat.ofDigitChars 10 c 0 ≤ q) (hbq : Nat.ofDigitChars 10 b 0 < q) {ρ ρ' : Store q}
    (hρ : ρ x = some (i : ZMod q)) :
    Runs gx P (.loop (.var x) ['<'] (.num b) x (.bin op (.var x) (.num c)) body) ρ ρ' ↔
      ∃ (j : Int) (t : Store q), GoLoop (fun k => k < Nat.ofDigitChars 10 b 0) (fun k => k + Nat.ofDigitChars 10 c 0)
        (fun k s s' => RunsAll gx P body (put s x (k : ZMod q)) s') i ρ j t ∧ ρ' = put t x (j : ZMod q) := by
  have h := C47_loop_partial (gx := gx) (P := P) (cmp := ['<']) (c := c) (op := op) (i := (i : Int)) (ρ' := ρ')
    (by simp) (Or.inl ho) hx hw hbq (by
    intro k hk
    induction hk with
    | start => omega
    | next _ hk ih =>
      simp only [goHolds, goStep, ho] at hk ⊢
      simp at hk
      simp
      omega) (by simpa using hρ)
  have hs : goStep op.text (Nat.ofDigitChars 10 c 0) = fun k : Int => k + (Nat.ofDigitChars 10 c 0 : Nat) := by funext k; simp [goStep, ho]
  rw [hs] at h
  simpa [goHolds] using h
end

end APS.LangSpec

namespace APS.Prog
open APS.Circuit hiding execute compile Prog
open APS.Parse (Constraint)
open APS.LangSpec
open APS.Spec (formVal factorVal)

/-- C47: a condition on two operands that are numbers is the comparison of these numbers; it adds no gates. -/
theorem C47_condition {comp : Comp} {cur : Nat} {cmp : Name} {t : APS.Lex.TokenType} {os rest : List Constraint} {l r out : Constraint}
    (hc : cmp ∈ [['=', '='], ['!', '='], ['>'], ['>', '='], ['<'], ['<', '=']]) {w w1 w2 : W} {a b : Res} {x y : Factor}
    (ha : comp cur l { w with s := {} } = some (a, w1)) (hb : comp cur r { w1 with s := {} } = some (b, w2))
    (hx : a.facs = [x]) (hy : b.facs = [y]) (hxn : x.tok.isNum = true) (hyn : y.tok.isNum = true) :
    ∃ go w', checkStatic comp cur (.mk out.output (.mk ⟨t, cmp⟩ os :: l :: r :: rest)) w = some (go, w') ∧
      w'.s = w.s ∧ w'.m = w2.m ∧ (go = true ↔ goHolds cmp x.mul y.mul) := by
  simp only [List.mem_cons, List.not_mem_nil, or_false] at hc
  simp only [checkStatic, Constraint.inputs, Constraint.output, ha, hb, Option.bind_eq_bind, Option.bind_some, hx, hy, hxn, hyn,
    Bool.and_self, if_true]
  rcases hc with rfl | rfl | rfl | rfl | rfl | rfl <;> simp [goHolds]
  exact Decidable.em _

/-- C47: the same for two literals: they are compared as they are written, if they are below the modulus. -/
theorem C47_condition_literals {H : Name → Nat} {q : Nat} (n cur : Nat) {cmp a b : Name}
    (hc : cmp ∈ [['=', '='], ['!', '='], ['>'], ['>', '='], ['<'], ['<', '=']]) (ha : Spec.IsLit a) (hb : Spec.IsLit b)
    (ha' : Nat.ofDigitChars 10 a 0 < q) (hb' : Nat.ofDigitChars 10 b 0 < q) (w : W) :
    ∃ go w', checkStatic (compile H q (n + 1)) cur (APS.ParseSpec.tree (.bin ⟨.comparator, cmp⟩ (.num a) (.num b))) w = some (go, w') ∧
      w'.s = w.s ∧ w'.m = w.m ∧ (go = true ↔ goHolds cmp (Nat.ofDigitChars 10 a 0) (Nat.ofDigitChars 10 b 0)) := by
  have e : ∀ t : Name, Spec.IsLit t → Nat.ofDigitChars 10 t 0 < q → ∀ w : W,
      compile H q (n + 1) cur (.mk ⟨.number, t⟩ []) w = some (⟨[⟨⟨true, t⟩, (Nat.ofDigitChars 10 t 0 : Nat)⟩], false, {}⟩, w) := by
    intro t ht hl w
    simp only [compile, compileStep, Constraint.output, compileNum, parseInt_digits t ht.1 ht.2, Fq.stringToField]
    simp [Int.emod_eq_of_lt (a := (Nat.ofDigitChars 10 t 0 : Int)) (b := (q : Int)) (by omega) (by omega)]
  obtain ⟨go, w', h1, h2, h3, h4⟩ := C47_condition (comp := compile H q (n + 1)) (t := .comparator) (os := []) (rest := [])
    (out := APS.ParseSpec.tree (.bin ⟨.comparator, cmp⟩ (.num a) (.num b))) hc (e a ha ha' _) (e b hb hb' _) rfl rfl rfl rfl
  refine ⟨go, w', ?_, h2, h3, h4⟩
  rw [← h1]
  rfl

/-- C47: a condition on anything but two numbers is rejected -/
theorem C47_dynamic {comp : Comp} {cur : Nat} {c : Constraint} {w : W} {go : Bool} {w' : W} (h : checkStatic comp cur c w = some (go, w')) :
    ∃ op l r rest a b w1 w2 x y, c.inputs = op :: l :: r :: rest ∧ comp cur l { w with s := {} } = some (a, w1) ∧
      comp cur r { w1 with s := {} } = some (b, w2) ∧ a.facs = [x] ∧ b.facs = [y] ∧ x.tok.isNum = true ∧ y.tok.isNum = true := by
  unfold checkStatic at h
  split at h
  · rename_i op l r rest hi
    simp only [Option.bind_eq_bind, Option.bind_eq_some_iff, Prod.exists] at h
    obtain ⟨a, w1, ha, b, w2, hb, h⟩ := h
    split at h
    · rename_i x y hx hy
      split at h
      · rename_i hn
        simp only [Bool.and_eq_true] at hn
        exact ⟨op, l, r, rest, a, b, w1, w2, x, y, hi, ha, hb, hx, hy, hn.1, hn.2⟩
      · cases h
    · cases h
  · cases h

/-- C47, for the gates: whatever values the wires have, if they satisfy all gates of a compiled program whose main function has a
loop with a counter that is `i` before the loop and stays within `0 … q-1`, then there is a run of the program in which the loop
runs as in Go, and its result is the value of the returned form (unless the program divides by zero).  Before the loop there is no
`if` with a `return`. -/
theorem C47_gates_partial {H : Name → Nat} {q : Nat} [Fact q.Prime] (hq : 2 ^ 63 ≤ q) {p : Program} (hp : p.ok) {m : Mem}
    (hm : program p.emit = some m) {n : Nat} {f : Factors} {w : W} (hx : execute H q n m = some (f, w)) (hc : Spec.CleanRun q w)
    (hn : Spec.NoConfusion w.s) {gx : ZMod q → ZMod q} {ν : Name → ZMod q} (hh : ∀ g ∈ w.s.c.gates, Spec.GateHolds gx ν g)
    {pre body post : List Stm} {x b c cmp : Name} {op : APS.Lex.Token}
    (hb : p.main.body = pre ++ .loop (.var x) cmp (.num b) x (.bin op (.var x) (.num c)) body :: post)
    (hcmp : cmp ∈ [['=', '='], ['!', '='], ['>'], ['>', '='], ['<'], ['<', '=']]) (ho : op.text = ['+'] ∨ op.text = ['-'])
    (hxw : isWord x = true) (hw : x ∉ writesAll body) (hbq : Nat.ofDigitChars 10 b 0 < q) {i : Int}
    (hi : ∀ k, Counts (fun k => goHolds cmp k (Nat.ofDigitChars 10 b 0)) (goStep op.text (Nat.ofDigitChars 10 c 0)) i k → 0 ≤ k ∧ k < q)
    (hex : ∀ st ∈ pre, st.isExit = false) (hpre : ∀ ρ, RunsAll gx p.funs pre (fun y => if y ∈ p.main.names then some (ν y) else none) ρ → ρ x = some (i : ZMod q)) :
    (∃ (ρ : Store q) (j : Int) (t : Store q) (k : Nat),
      RunsAll gx p.funs pre (fun y => if y ∈ p.main.names then some (ν y) else none) ρ ∧
      GoLoop (fun k => goHolds cmp k (Nat.ofDigitChars 10 b 0)) (goStep op.text (Nat.ofDigitChars 10 c 0))
        (fun k s s' => RunsAll gx p.funs body (LangSpec.put s x (k : ZMod q)) s') i ρ j t ∧
      LangSpec.finish (eval gx p.funs k) (run gx p.funs k) p.main.ret (LangSpec.put t x (j : ZMod q)) post = .ok (formVal ν f)) ∨
    Spec.Stops gx p ν .divByZero := by
  rcases C84_gates_sound hq hp hm hx hc hn hh with ⟨k, h⟩ | h
  · left
    unfold runMain at h
    rw [hb] at h
    rw [LangSpec.finish_append hex] at h
    obtain ⟨ρ, h3, h4⟩ := bind_ok.mp h
    rw [LangSpec.finish_step rfl] at h4
    obtain ⟨ρ2, h5, h6⟩ := bind_ok.mp h4
    obtain ⟨j, t, hg, rfl⟩ := (C47_loop_partial hcmp ho hxw hw hbq hi (hpre ρ ⟨k, h3⟩)).mp ⟨k, h5⟩
    exact ⟨ρ, j, t, k, ⟨k, h3⟩, hg, h6⟩
  · exact Or.inr h

/-- the loop of the program `Demo.prog` (C84) meets the conditions of C47 -/
example : ∃ pre body post, Demo.prog.main.body = pre ++ .loop (.var ['i']) ['<'] (.num ['2']) ['i']
      (.bin (Demo.op '+') (.var ['i']) (.num ['1'])) body :: post ∧ ['i'] ∉ writesAll body ∧
    (∀ k, Counts (fun k => goHolds ['<'] k (Nat.ofDigitChars 10 ['2'] 0)) (goStep ['+'] (Nat.ofDigitChars 10 ['1'] 0)) 0 k →
      0 ≤ k ∧ k < APS.Pairing.Order) ∧
    ∀ (ν : Name → ZMod APS.Pairing.Order) ρ, RunsAll (fun _ => 0) Demo.prog.funs pre (fun y => if y ∈ Demo.prog.main.names then some (ν y) else none) ρ →
      ρ ['i'] = some ((0 : Int) : ZMod APS.Pairing.Order) := by
  refine ⟨[.decl ['s'] (.num ['0']), .decl ['i'] (.num ['0'])], _, _, rfl, by decide, ?_, ?_⟩
  · have : ∀ k, Counts (fun k => goHolds ['<'] k (Nat.ofDigitChars 10 ['2'] 0)) (goStep ['+'] (Nat.ofDigitChars 10 ['1'] 0)) 0 k →
        0 ≤ k ∧ k ≤ 2 := by
      intro k hk
      have h2 : Nat.ofDigitChars 10 ['2'] 0 = 2 := by decide
      have h1 : Nat.ofDigitChars 10 ['1'] 0 = 1 := by decide
      rw [h1, h2] at hk
      induction hk with
      | start => omega
      | next _ hk ih =>
        simp [goHolds] at hk
        simp [goStep]
        omega
    intro k hk
    refine ⟨(this k hk).1, (this k hk).2.trans_lt (by decide +kernel)⟩
  · rintro ν ρ ⟨n, h⟩
    match n, h with
    | 0, h => simp [runList, run, bind, Except.bind] at h
    | 1, h => simp [runList, run, eval, bind, Except.bind] at h
    | n + 2, h =>
      simp [runList, run, eval, bind, Except.bind] at h
      subst h
      simp [LangSpec.put, Nat.ofDigitChars]

namespace Below
open APS.Pairing (Order)
open Demo (op)

/-- `func main(x) { var s = x var i = 0 i = i-1 for (i < 1; i = i+1) { s = s * x } return s }` -/
def prog : Program where
  before := []
  pubs := []
  main := ⟨"main".toList, [(['x'], [])],
    [.decl ['s'] (.var ['x']), .decl ['i'] (.num ['0']), .assign ['i'] [] (.bin (op '-') (.var ['i']) (.num ['1'])),
     .loop (.var ['i']) ['<'] (.num ['1']) ['i'] (.bin (op '+') (.var ['i']) (.num ['1']))
       [.assign ['s'] [] (.bin (op '*') (.var ['s']) (.var ['x']))]],
    .var ['s']⟩
  after := []

theorem prog_run : ∃ m n f w, program prog.emit = some m ∧ execute H0 Order n m = some (f, w) ∧ f = [argF ['x'] 1] ∧ w.s.c.gates = [] := by
  have h : (((program prog.emit).bind fun m => (execute H0 Order 20 m).map fun x => (m, x)).map fun x =>
      decide (x.2.1 = [argF ['x'] 1] ∧ x.2.2.s.c.gates = [])) = some true := by
    decide +kernel
  obtain ⟨⟨m, f, w⟩, h1, h2⟩ := Option.map_eq_some_iff.mp h
  obtain ⟨m', h3, h4⟩ := Option.bind_eq_some_iff.mp h1
  obtain ⟨⟨f', w'⟩, h5, h6⟩ := Option.map_eq_some_iff.mp h4
  cases h6
  simp only [decide_eq_true_eq] at h2
  exact ⟨m, 20, f, w, h3, h5, h2⟩
end Below

/-- C47 does not hold when the counter leaves `0 … q-1`: the loop of this program starts at `0 - 1` and, as the compiler reads
-1 as `q - 1`, never runs, so the program returns `x` without any gate; the Go loop runs twice and gives `x ^ 3`. -/
theorem C47_refuted : ∃ (p : Program) (m : Mem) (n : Nat) (f : Factors) (w : W),
    p.main.body[3]? = some (.loop (.var ['i']) ['<'] (.num ['1']) ['i'] (.bin (Demo.op '+') (.var ['i']) (.num ['1']))
       [.assign ['s'] [] (.bin (Demo.op '*') (.var ['s']) (.var ['x']))]) ∧
    program p.emit = some m ∧ execute H0 APS.Pairing.Order n m = some (f, w) ∧ w.s.c.gates = [] ∧
    (∀ ν : Name → ZMod APS.Pairing.Order, formVal ν f = ν ['x']) ∧
    ∀ x : Int, GoLoop (fun i => i < 1) (fun i => i + 1) (fun _ s s' => s' = s * x) (0 - 1) x 1 (x ^ 3) := by
  obtain ⟨m, n, f, w, h1, h2, rfl, h4⟩ := Below.prog_run
  refine ⟨Below.prog, m, n, _, w, rfl, h1, h2, h4, fun ν => ?_, fun x => ?_⟩
  · simp [formVal, factorVal, argF]
  · exact .next (by norm_num) rfl (.next (by norm_num) rfl (by
      rw [show (0 - 1 + 1 + 1 : Int) = 1 from rfl, show x * x * x = x ^ 3 by ring]
      exact .done (by norm_num)))

end APS.Prog
