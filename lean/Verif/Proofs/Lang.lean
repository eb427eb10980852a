import Verif.Spec.Lang

/-! More fuel gives the same result. -/
namespace APS.LangSpec
open APS.ParseSpec (Ex)
open APS.Circuit (Name)

variable {q : Nat} [Fact q.Prime]

/-- equal, unless the first ran out of fuel -/
def Le {α} (a b : Except Err α) : Prop := a = .error .outOfFuel ∨ a = b

theorem Le.refl {α} (a : Except Err α) : Le a a := Or.inr rfl

theorem Le.trans {α} {a b c : Except Err α} (h : Le a b) (h' : Le b c) : Le a c := by
  rcases h with h | rfl
  · exact Or.inl h
  · exact h'

theorem Le.bind {α β} {a b : Except Err α} {f g : α → Except Err β} (h : Le a b) (hf : ∀ x, Le (f x) (g x)) :
    Le (a >>= f) (b >>= g) := by
  rcases h with rfl | rfl
  · exact Or.inl rfl
  · cases a with
    | error e => exact Or.inr rfl
    | ok x => exact hf x

theorem Le.eq {α} {a b : Except Err α} (h : Le a b) (ha : a ≠ .error .outOfFuel) : b = a :=
  (h.resolve_left ha).symm

theorem evalList_le {α} {ev ev' : α → Except Err (ZMod q)} (h : ∀ e, Le (ev e) (ev' e)) (es : List α) :
    Le (evalList ev es) (evalList ev' es) := by
  induction es with
  | nil => exact Le.refl _
  | cons e es ih => exact (h e).bind fun v => ih.bind fun vs => Le.refl _

theorem runList_le {r r' : Store q → Stm → Except Err (Store q)} (h : ∀ ρ st, Le (r ρ st) (r' ρ st)) (sts : List Stm) :
    ∀ ρ, Le (runList r ρ sts) (runList r' ρ sts) := by
  induction sts with
  | nil => intro ρ; exact Le.refl _
  | cons st sts ih => intro ρ; exact (h ρ st).bind fun ρ' => ih ρ'

theorem finish_exit {ev : Store q → Ex → Except Err (ZMod q)} {r : Store q → Stm → Except Err (Store q)} {ret : Ex} {ρ : Store q} {l : Ex} {cmp : Name}
    {r0 : Ex} {body : List Stm} {e : Ex} {sts : List Stm} : finish ev r ret ρ (.cond l cmp r0 body (some e) :: sts) = (do
      let a ← ev ρ l
      let b ← ev ρ r0
      let go ← compareOp cmp a.val b.val
      if go then do
        let ρ ← runList r ρ body
        ev ρ e
      else finish ev r ret ρ sts) := by rw [finish]

theorem finish_step {ev : Store q → Ex → Except Err (ZMod q)} {r : Store q → Stm → Except Err (Store q)} {ret : Ex} {ρ : Store q} {st : Stm}
    {sts : List Stm} (h : st.isExit = false) : finish ev r ret ρ (st :: sts) = (do
      let ρ ← r ρ st
      finish ev r ret ρ sts) := by
  match st, h with
  | .decl .., _ => rw [finish]; simp
  | .declArr .., _ => rw [finish]; simp
  | .assign .., _ => rw [finish]; simp
  | .call .., _ => rw [finish]; simp
  | .loop .., _ => rw [finish]; simp
  | .cond _ _ _ _ none, _ => rw [finish]; simp

theorem finish_append {ev : Store q → Ex → Except Err (ZMod q)} {r : Store q → Stm → Except Err (Store q)} {ret : Ex} {pre post : List Stm}
    (h : ∀ st ∈ pre, st.isExit = false) : ∀ {ρ : Store q}, finish ev r ret ρ (pre ++ post) = (do
      let ρ ← runList r ρ pre
      finish ev r ret ρ post) := by
  induction pre with
  | nil => intro ρ; rfl
  | cons st pre ih =>
    intro ρ
    rw [List.cons_append, finish_step (h st (by simp)), runList]
    cases r ρ st with
    | error e => rfl
    | ok ρ1 => exact ih (fun x hx => h x (List.mem_cons_of_mem _ hx))

theorem finish_le {ev ev' : Store q → Ex → Except Err (ZMod q)} {r r' : Store q → Stm → Except Err (Store q)} (he : ∀ ρ e, Le (ev ρ e) (ev' ρ e))
    (h : ∀ ρ st, Le (r ρ st) (r' ρ st)) (ret : Ex) (sts : List Stm) : ∀ ρ, Le (finish ev r ret ρ sts) (finish ev' r' ret ρ sts) := by
  induction sts with
  | nil => intro ρ; exact he ρ ret
  | cons st sts ih =>
    intro ρ
    cases hst : st.isExit with
    | false =>
      rw [finish_step hst, finish_step hst]
      exact (h ρ st).bind fun ρ' => ih ρ'
    | true =>
      match st, hst with
      | .cond l cmp r0 body (some e), _ =>
        rw [finish_exit, finish_exit]
        refine (he ρ l).bind fun a => (he ρ r0).bind fun b => (Le.refl _).bind fun go => ?_
        split
        · exact (runList_le h _ _).bind fun ρ' => he ρ' e
        · exact ih ρ

theorem declareFrom_le {ev ev' : Store q → Ex → Except Err (ZMod q)} (h : ∀ ρ e, Le (ev ρ e) (ev' ρ e)) (a : Name)
    (es : List Ex) : ∀ i ρ, Le (declareFrom ev a i es ρ) (declareFrom ev' a i es ρ) := by
  induction es with
  | nil => intro i ρ; exact Le.refl _
  | cons e es ih => intro i ρ; exact (h ρ e).bind fun v => ih _ _

theorem fuel_succ (gx : ZMod q → ZMod q) (P : List Fun) (n : Nat) :
    (∀ ρ e, Le (eval gx P n ρ e) (eval gx P (n + 1) ρ e)) ∧ (∀ ρ st, Le (run gx P n ρ st) (run gx P (n + 1) ρ st)) := by
  induction n with
  | zero => exact ⟨fun ρ e => Or.inl (by simp [eval]), fun ρ e => Or.inl (by simp [run])⟩
  | succ n ih =>
    obtain ⟨ie, ir⟩ := ih
    have il : ∀ ρ es, Le (evalList (eval gx P n ρ) es) (evalList (eval gx P (n + 1) ρ) es) := fun ρ es => evalList_le (ie ρ) es
    constructor
    · intro ρ e
      cases e with
      | num w => exact Or.inr (by simp [eval])
      | var x => exact Or.inr (by simp [eval])
      | paren e => simpa only [eval] using ie ρ e
      | bin op l r =>
        have := (ie ρ l).bind fun x => (ie ρ r).bind fun y => Le.refl (arithOp op.text x y)
        simpa only [eval] using this
      | arr a idx =>
        have := (il ρ idx).bind fun is => Le.refl (get ρ (element a is))
        simpa only [eval] using this
      | call f args =>
        simp only [eval]
        refine (il ρ args).bind fun vs => ?_
        split
        · exact Le.refl _
        · refine (Le.refl (find P f)).bind fun F => ?_
          split
          · exact finish_le ie ir F.ret _ _
          · exact Le.refl _
    · intro ρ st
      cases st with
      | decl x e =>
        have := (ie ρ e).bind fun v => Le.refl (.ok (put ρ x v) : Except Err (Store q))
        simpa only [run] using this
      | declArr a es => simpa only [run] using declareFrom_le ie a es 0 ρ
      | assign x idx e =>
        simp only [run]
        exact (il ρ idx).bind fun is => (ie ρ e).bind fun v => Le.refl _
      | call f args =>
        simp only [run]
        split
        · exact (il ρ args).bind fun vs => Le.refl _
        · split
          · exact (il ρ args).bind fun vs => Le.refl _
          · exact (ie ρ _).bind fun vs => Le.refl _
      | loop l cmp r x step body =>
        simp only [run]
        refine (ie ρ l).bind fun a => (ie ρ r).bind fun b => (Le.refl _).bind fun go => ?_
        split
        · exact (runList_le ir _ _).bind fun ρ' => (ie ρ' step).bind fun v => (Le.refl _).bind fun _ => ir _ _
        · exact Le.refl _
      | cond l cmp r body fin =>
        simp only [run]
        refine (ie ρ l).bind fun a => (ie ρ r).bind fun b => (Le.refl _).bind fun go => ?_
        split
        · cases fin with
          | none => exact runList_le ir _ _
          | some _ => exact Le.refl _
        · exact Le.refl _

theorem eval_le (gx : ZMod q → ZMod q) (P : List Fun) {n k : Nat} (h : n ≤ k) (ρ : Store q) (e : Ex) :
    Le (eval gx P n ρ e) (eval gx P k ρ e) := by
  induction h with
  | refl => exact Le.refl _
  | step _ ih => exact ih.trans ((fuel_succ gx P _).1 ρ e)

theorem run_le (gx : ZMod q → ZMod q) (P : List Fun) {n k : Nat} (h : n ≤ k) (ρ : Store q) (st : Stm) :
    Le (run gx P n ρ st) (run gx P k ρ st) := by
  induction h with
  | refl => exact Le.refl _
  | step _ ih => exact ih.trans ((fuel_succ gx P _).2 ρ st)

theorem evals_le (gx : ZMod q → ZMod q) (P : List Fun) {n k : Nat} (h : n ≤ k) (ρ : Store q) (es : List Ex) :
    Le (evalList (eval gx P n ρ) es) (evalList (eval gx P k ρ) es) := evalList_le (eval_le gx P h ρ) es

theorem runs_le (gx : ZMod q → ZMod q) (P : List Fun) {n k : Nat} (h : n ≤ k) (ρ : Store q) (sts : List Stm) :
    Le (runList (run gx P n) ρ sts) (runList (run gx P k) ρ sts) := runList_le (run_le gx P h) sts ρ

theorem finishes_le (gx : ZMod q → ZMod q) (P : List Fun) {n k : Nat} (h : n ≤ k) (ret : Ex) (ρ : Store q) (sts : List Stm) :
    Le (finish (eval gx P n) (run gx P n) ret ρ sts) (finish (eval gx P k) (run gx P k) ret ρ sts) :=
  finish_le (eval_le gx P h) (run_le gx P h) ret sts ρ

theorem declares_le (gx : ZMod q → ZMod q) (P : List Fun) {n k : Nat} (h : n ≤ k) (a : Name) (i : Nat) (ρ : Store q) (es : List Ex) :
    Le (declareFrom (eval gx P n) a i es ρ) (declareFrom (eval gx P k) a i es ρ) := declareFrom_le (eval_le gx P h) a es i ρ

end APS.LangSpec
