import Verif.Props.Static
import Verif.Props.Text

/-! C96: `if` without `else`.  C99: `return` in such an `if`.  C97: `return` in a loop.  C98: an `if` at the end of a block. -/
namespace APS.LangSpec
open APS.Circuit (Name)
open APS.ParseSpec (Ex)

variable {q : Nat} [Fact q.Prime] {gx : ZMod q → ZMod q} {P : List Fun}

/-- C96: what `if (l cmp r) { body }` does to the store in the source language (Spec/Lang.lean): the values of both sides are
compared as integers in `0 … q-1`; if the comparison holds the body runs, otherwise nothing happens. -/
theorem C96_meaning {l r : Ex} {cmp : Name} (hc : cmp ∈ [['=', '='], ['!', '='], ['>'], ['>', '='], ['<'], ['<', '=']])
    {body : List Stm} {ρ ρ' : Store q} :
    Runs gx P (.cond l cmp r body none) ρ ρ' ↔
      ∃ a b k, eval gx P k ρ l = .ok a ∧ eval gx P k ρ r = .ok b ∧
        ((goHolds cmp (a.val : Nat) (b.val : Nat) ∧ RunsAll gx P body ρ ρ') ∨ (¬ goHolds cmp (a.val : Nat) (b.val : Nat) ∧ ρ' = ρ)) := by
  have emono : ∀ {n k : Nat} {e : Ex} {v : ZMod q}, n ≤ k → eval gx P n ρ e = .ok v → eval gx P k ρ e = .ok v := by
    intro n k e v h hr
    have := (eval_le gx P h ρ e).resolve_left (by rw [hr]; simp)
    rw [← this, hr]
  constructor
  · rintro ⟨n, h⟩
    cases n with
    | zero => simp [run] at h
    | succ n =>
      simp only [run] at h
      obtain ⟨a, ha, h⟩ := bind_ok.mp h
      obtain ⟨b, hb, h⟩ := bind_ok.mp h
      obtain ⟨go, hg, h⟩ := bind_ok.mp h
      obtain ⟨go', hg', hgo⟩ := compareOp_go (a := a.val) (b := b.val) hc
      rw [hg'] at hg
      cases hg
      refine ⟨a, b, n, ha, hb, ?_⟩
      split at h
      · rename_i ht
        exact Or.inl ⟨hgo.mp ht, n, h⟩
      · rename_i ht
        cases h
        exact Or.inr ⟨fun h => ht (hgo.mpr h), rfl⟩
  · rintro ⟨a, b, k, ha, hb, h⟩
    obtain ⟨go, hg, hgo⟩ := compareOp_go (a := a.val) (b := b.val) hc
    rcases h with ⟨h1, n, h2⟩ | ⟨h1, rfl⟩
    · refine ⟨k + n + 1, ?_⟩
      simp only [run]
      refine bind_ok.mpr ⟨a, emono (by omega) ha, bind_ok.mpr ⟨b, emono (by omega) hb, bind_ok.mpr ⟨go, hg, ?_⟩⟩⟩
      rw [if_pos (hgo.mpr h1)]
      exact runList_mono (by omega) h2
    · refine ⟨k + 1, ?_⟩
      simp only [run]
      refine bind_ok.mpr ⟨a, ha, bind_ok.mpr ⟨b, hb, bind_ok.mpr ⟨go, hg, ?_⟩⟩⟩
      rw [if_neg fun h => h1 (hgo.mp h)]

end APS.LangSpec

namespace APS.Prog
open APS.Circuit hiding execute compile Prog
open APS.LangSpec
open APS.Parse (Constraint)
open APS.ParseSpec (Ex)
open APS.Spec (Returns Stops CleanRun NoConfusion NoConstSplit GateHolds formVal factorVal)
open APS.Lex (stackAllTokens)

/-- the program with another body of the main function -/
def withBody (p : Program) (b : List Stm) : Program := { p with main := { p.main with body := b } }

/-- the program whose main function has the body `b` and returns `e` -/
def withReturn (p : Program) (b : List Stm) (e : Ex) : Program := { p with main := { p.main with body := b, ret := e } }

/-- the store in which the main function starts -/
def startStore {q : Nat} (p : Program) (ν : Name → ZMod q) : Store q := fun y => if y ∈ p.main.names then some (ν y) else none

variable {H : Name → Nat} {q : Nat}

/-- `sts` and then `return ret`, from the store `ρ`, end with the value `v` -/
def Gives [Fact q.Prime] (gx : ZMod q → ZMod q) (P : List Fun) (ret : Ex) (ρ : Store q) (sts : List Stm) (v : ZMod q) : Prop :=
  ∃ k, finish (eval gx P k) (run gx P k) ret ρ sts = .ok v

theorem returns_gives [Fact q.Prime] {gx : ZMod q → ZMod q} {p : Program} {ν : Name → ZMod q} {v : ZMod q} :
    Returns gx p ν v ↔ Gives gx p.funs p.main.ret (startStore p ν) p.main.body v := Iff.rfl

theorem finish_mono [Fact q.Prime] {gx : ZMod q → ZMod q} {P : List Fun} {ret : Ex} {ρ : Store q} {sts : List Stm} {v : ZMod q} {n k : Nat} (h : n ≤ k)
    (hv : finish (eval gx P n) (run gx P n) ret ρ sts = .ok v) : finish (eval gx P k) (run gx P k) ret ρ sts = .ok v := by
  have := (finishes_le gx P h ret ρ sts).resolve_left (by rw [hv]; simp)
  rw [← this, hv]

theorem gives_nil [Fact q.Prime] {gx : ZMod q → ZMod q} {P : List Fun} {ret : Ex} {ρ : Store q} {v : ZMod q} :
    Gives gx P ret ρ [] v ↔ ∃ k, eval gx P k ρ ret = .ok v := Iff.rfl

theorem gives_append [Fact q.Prime] {gx : ZMod q → ZMod q} {P : List Fun} {ret : Ex} {ρ : Store q} {v : ZMod q} {pre post : List Stm}
    (h : ∀ st ∈ pre, st.isExit = false) : Gives gx P ret ρ (pre ++ post) v ↔ ∃ τ, RunsAll gx P pre ρ τ ∧ Gives gx P ret τ post v := by
  constructor
  · rintro ⟨k, hk⟩
    rw [finish_append h] at hk
    obtain ⟨τ, h1, h2⟩ := bind_ok.mp hk
    exact ⟨τ, ⟨k, h1⟩, ⟨k, h2⟩⟩
  · rintro ⟨τ, ⟨n, h1⟩, ⟨k, h2⟩⟩
    refine ⟨n + k, ?_⟩
    rw [finish_append h]
    exact bind_ok.mpr ⟨τ, runList_mono (by omega) h1, finish_mono (by omega) h2⟩

theorem gives_step [Fact q.Prime] {gx : ZMod q → ZMod q} {P : List Fun} {ret : Ex} {ρ : Store q} {v : ZMod q} {st : Stm} {post : List Stm}
    (h : st.isExit = false) : Gives gx P ret ρ (st :: post) v ↔ ∃ τ, Runs gx P st ρ τ ∧ Gives gx P ret τ post v := by
  constructor
  · rintro ⟨k, hk⟩
    rw [finish_step h] at hk
    obtain ⟨τ, h1, h2⟩ := bind_ok.mp hk
    exact ⟨τ, ⟨k, h1⟩, ⟨k, h2⟩⟩
  · rintro ⟨τ, ⟨n, h1⟩, ⟨k, h2⟩⟩
    refine ⟨n + k, ?_⟩
    rw [finish_step h]
    exact bind_ok.mpr ⟨τ, run_mono (by omega) h1, finish_mono (by omega) h2⟩

/-- C99: what `if (l cmp r) { body; return e }` means in the source language (Spec/Lang.lean), in the body of a function that ends with
`return ret`: if the comparison holds, the function ends with the value of `e` after `body`; otherwise it goes on with what follows. -/
theorem C99_meaning [Fact q.Prime] {gx : ZMod q → ZMod q} {P : List Fun} {l r e ret : Ex} {cmp : Name}
    (hc : cmp ∈ [['=', '='], ['!', '='], ['>'], ['>', '='], ['<'], ['<', '=']]) {body post : List Stm} {ρ : Store q} {v : ZMod q} :
    Gives gx P ret ρ (.cond l cmp r body (some e) :: post) v ↔
      ∃ a b k, eval gx P k ρ l = .ok a ∧ eval gx P k ρ r = .ok b ∧
        ((goHolds cmp (a.val : Nat) (b.val : Nat) ∧ ∃ ρ', RunsAll gx P body ρ ρ' ∧ ∃ k, eval gx P k ρ' e = .ok v) ∨
         (¬ goHolds cmp (a.val : Nat) (b.val : Nat) ∧ Gives gx P ret ρ post v)) := by
  have emono : ∀ {n k : Nat} {ρ : Store q} {e : Ex} {v : ZMod q}, n ≤ k → eval gx P n ρ e = .ok v → eval gx P k ρ e = .ok v := by
    intro n k ρ e v h hr
    have := (eval_le gx P h ρ e).resolve_left (by rw [hr]; simp)
    rw [← this, hr]
  constructor
  · rintro ⟨n, h⟩
    rw [finish_exit] at h
    obtain ⟨a, ha, h⟩ := bind_ok.mp h
    obtain ⟨b, hb, h⟩ := bind_ok.mp h
    obtain ⟨go, hg, h⟩ := bind_ok.mp h
    obtain ⟨go', hg', hgo⟩ := compareOp_go (a := a.val) (b := b.val) hc
    rw [hg'] at hg
    cases hg
    refine ⟨a, b, n, ha, hb, ?_⟩
    split at h
    · rename_i ht
      obtain ⟨ρ', h1, h2⟩ := bind_ok.mp h
      exact Or.inl ⟨hgo.mp ht, ρ', ⟨n, h1⟩, n, h2⟩
    · rename_i ht
      exact Or.inr ⟨fun h => ht (hgo.mpr h), n, h⟩
  · rintro ⟨a, b, k, ha, hb, h⟩
    obtain ⟨go, hg, hgo⟩ := compareOp_go (a := a.val) (b := b.val) hc
    rcases h with ⟨h1, ρ', ⟨n, h2⟩, j, h3⟩ | ⟨h1, n, h2⟩
    · refine ⟨k + n + j, ?_⟩
      rw [finish_exit]
      refine bind_ok.mpr ⟨a, emono (by omega) ha, bind_ok.mpr ⟨b, emono (by omega) hb, bind_ok.mpr ⟨go, hg, ?_⟩⟩⟩
      rw [if_pos (hgo.mpr h1)]
      exact bind_ok.mpr ⟨ρ', runList_mono (by omega) h2, emono (by omega) h3⟩
    · refine ⟨k + n, ?_⟩
      rw [finish_exit]
      refine bind_ok.mpr ⟨a, emono (by omega) ha, bind_ok.mpr ⟨b, emono (by omega) hb, bind_ok.mpr ⟨go, hg, ?_⟩⟩⟩
      rw [if_neg fun h => h1 (hgo.mp h)]
      exact finish_mono (by omega) h2

theorem runsAll_det [Fact q.Prime] {gx : ZMod q → ZMod q} {P : List Fun} {sts : List Stm} {ρ ρ1 ρ2 : Store q} (h1 : RunsAll gx P sts ρ ρ1)
    (h2 : RunsAll gx P sts ρ ρ2) : ρ1 = ρ2 := by
  obtain ⟨n, h1⟩ := h1
  obtain ⟨k, h2⟩ := h2
  have e1 := runList_mono (show n ≤ n + k by omega) h1
  have e2 := runList_mono (show k ≤ n + k by omega) h2
  rw [e1] at e2
  cases e2
  rfl

/-- a run of a program with an `if` is a run of the program with the body in place of the `if`, or with nothing in its place -/
theorem returns_cond [Fact q.Prime] {gx : ZMod q → ZMod q} {p : Program} {ν : Name → ZMod q} {v : ZMod q} {pre body post : List Stm} {l r : Ex} {cmp : Name}
    (hb : p.main.body = pre ++ .cond l cmp r body none :: post) (hpre : ∀ st ∈ pre, st.isExit = false) (hbody : ∀ st ∈ body, st.isExit = false)
    (hc : cmp ∈ [['=', '='], ['!', '='], ['>'], ['>', '='], ['<'], ['<', '=']]) :
    Returns gx p ν v ↔ ∃ ρ a b k, RunsAll gx p.funs pre (startStore p ν) ρ ∧ eval gx p.funs k ρ l = .ok a ∧ eval gx p.funs k ρ r = .ok b ∧
      ((goHolds cmp (a.val : Nat) (b.val : Nat) ∧ Returns gx (withBody p (pre ++ (body ++ post))) ν v) ∨
       (¬ goHolds cmp (a.val : Nat) (b.val : Nat) ∧ Returns gx (withBody p (pre ++ post)) ν v)) := by
  have e : ∀ sts, Returns gx (withBody p sts) ν v ↔ Gives gx p.funs p.main.ret (startStore p ν) sts v := fun _ => Iff.rfl
  rw [e, e, returns_gives, hb, gives_append hpre, gives_append hpre, gives_append hpre]
  simp only [gives_append hbody, gives_step (st := .cond l cmp r body none) rfl, C96_meaning hc]
  constructor
  · rintro ⟨ρ, h1, τ, ⟨a, b, k, ha, hb', h2⟩, h3⟩
    refine ⟨ρ, a, b, k, h1, ha, hb', ?_⟩
    rcases h2 with ⟨h2, h5⟩ | ⟨h2, rfl⟩
    · exact Or.inl ⟨h2, ρ, h1, τ, h5, h3⟩
    · exact Or.inr ⟨h2, τ, h1, h3⟩
  · rintro ⟨ρ, a, b, k, h1, ha, hb', h⟩
    rcases h with ⟨h2, ρ2, h3, τ, h5, h6⟩ | ⟨h2, ρ2, h3, h6⟩
    · obtain rfl := runsAll_det h1 h3
      exact ⟨ρ, h1, τ, ⟨a, b, k, ha, hb', Or.inl ⟨h2, h5⟩⟩, h6⟩
    · obtain rfl := runsAll_det h1 h3
      exact ⟨ρ, h1, ρ, ⟨a, b, k, ha, hb', Or.inr ⟨h2, rfl⟩⟩, h6⟩

/-- the same for an `if` with a `return` -/
theorem returns_exit [Fact q.Prime] {gx : ZMod q → ZMod q} {p : Program} {ν : Name → ZMod q} {v : ZMod q} {pre body post : List Stm} {l r e : Ex} {cmp : Name}
    (hb : p.main.body = pre ++ .cond l cmp r body (some e) :: post) (hpre : ∀ st ∈ pre, st.isExit = false) (hbody : ∀ st ∈ body, st.isExit = false)
    (hc : cmp ∈ [['=', '='], ['!', '='], ['>'], ['>', '='], ['<'], ['<', '=']]) :
    Returns gx p ν v ↔ ∃ ρ a b k, RunsAll gx p.funs pre (startStore p ν) ρ ∧ eval gx p.funs k ρ l = .ok a ∧ eval gx p.funs k ρ r = .ok b ∧
      ((goHolds cmp (a.val : Nat) (b.val : Nat) ∧ Returns gx (withReturn p (pre ++ body) e) ν v) ∨
       (¬ goHolds cmp (a.val : Nat) (b.val : Nat) ∧ Returns gx (withBody p (pre ++ post)) ν v)) := by
  have e1 : ∀ sts, Returns gx (withBody p sts) ν v ↔ Gives gx p.funs p.main.ret (startStore p ν) sts v := fun _ => Iff.rfl
  have e2 : ∀ sts, Returns gx (withReturn p sts e) ν v ↔ Gives gx p.funs e (startStore p ν) (sts ++ []) v := fun sts => by
    rw [List.append_nil]; exact Iff.rfl
  rw [e1, e2, returns_gives, hb, gives_append hpre, gives_append hpre, List.append_assoc, gives_append hpre]
  simp only [gives_append hbody, gives_nil, C99_meaning hc]
  constructor
  · rintro ⟨ρ, h1, a, b, k, ha, hb', ⟨h2, h5⟩ | ⟨h2, h5⟩⟩
    · exact ⟨ρ, a, b, k, h1, ha, hb', Or.inl ⟨h2, ρ, h1, h5⟩⟩
    · exact ⟨ρ, a, b, k, h1, ha, hb', Or.inr ⟨h2, ρ, h1, h5⟩⟩
  · rintro ⟨ρ, a, b, k, h1, ha, hb', h⟩
    rcases h with ⟨h2, ρ2, h3, h5⟩ | ⟨h2, ρ2, h3, h6⟩
    · obtain rfl := runsAll_det h1 h3
      exact ⟨ρ, h1, a, b, k, ha, hb', Or.inl ⟨h2, h5⟩⟩
    · obtain rfl := runsAll_det h1 h3
      exact ⟨ρ, h1, a, b, k, ha, hb', Or.inr ⟨h2, h6⟩⟩

/-- in a well-formed program there is no `if`, and so no `return`, in the body of an `if` -/
theorem body_noExit {P : List Fun} {outer : List Name} {pre body post : List Stm} {l r : Ex} {cmp : Name} {fin : Option Ex} :
    ∀ {vis : List Name}, okStms P outer vis (pre ++ .cond l cmp r body fin :: post) → ∀ st ∈ body, st.isExit = false := by
  have free : ∀ {sts : List Stm}, ifFrees sts = true → ∀ st ∈ sts, st.isExit = false := by
    intro sts
    induction sts with
    | nil => simp
    | cons a as ih =>
      intro h st hst
      simp only [ifFrees, Bool.and_eq_true] at h
      rcases List.mem_cons.mp hst with rfl | hst
      · cases st with
        | cond => simp [Stm.ifFree] at h
        | _ => rfl
      · exact ih h.2 st hst
  induction pre with
  | nil => intro vis h; exact free h.1.2.2.2.2.1
  | cons a as ih => intro vis h; exact ih h.2

/-- C96, soundness: whatever values the wires have, if they satisfy all gates of a compiled program whose main function contains
`if (l cmp r) { body }`, then the value of the returned form is the result of the program in which the `if` is replaced by its body
(when the comparison of the values of `l` and `r` at this place holds) or by nothing (when it does not), on the same inputs.  There is
no `if` with a `return` before this one. -/
theorem C96_if_sound_partial [Fact q.Prime] (hq : 2 ^ 63 ≤ q) {p : Program} (hp : p.ok) {m : Mem} (hm : program p.emit = some m) {n : Nat}
    {f : Factors} {w : W} (hx : execute H q n m = some (f, w)) (hc : CleanRun q w) (hn : NoConfusion w.s) {gx : ZMod q → ZMod q}
    {ν : Name → ZMod q} (hh : ∀ g ∈ w.s.c.gates, GateHolds gx ν g) {pre body post : List Stm} {l r : Ex} {cmp : Name}
    (hb : p.main.body = pre ++ .cond l cmp r body none :: post) (hpre : ∀ st ∈ pre, st.isExit = false)
    (hcmp : cmp ∈ [['=', '='], ['!', '='], ['>'], ['>', '='], ['<'], ['<', '=']]) :
    (∃ ρ a b k, RunsAll gx p.funs pre (startStore p ν) ρ ∧ eval gx p.funs k ρ l = .ok a ∧ eval gx p.funs k ρ r = .ok b ∧
      ((goHolds cmp (a.val : Nat) (b.val : Nat) ∧ Returns gx (withBody p (pre ++ (body ++ post))) ν (formVal ν f)) ∨
       (¬ goHolds cmp (a.val : Nat) (b.val : Nat) ∧ Returns gx (withBody p (pre ++ post)) ν (formVal ν f)))) ∨ Stops gx p ν .divByZero :=
  (C84_gates_sound hq hp hm hx hc hn hh).imp_left (returns_cond hb hpre (body_noExit (by have := hp.mainOk.2.2.1; rwa [hb] at this)) hcmp).mp

/-- C96, completeness: and if the program with the chosen branch returns `v`, then the gates of the program with the `if` can be
satisfied with the same inputs and the result `v`. -/
theorem C96_if_complete_partial [Fact q.Prime] (hq : 2 ^ 63 ≤ q) {p : Program} (hp : p.ok) {m : Mem} (hm : program p.emit = some m) {n : Nat}
    {f : Factors} {w : W} (hx : execute H q n m = some (f, w)) (hc : CleanRun q w) (hn : NoConfusion w.s) (hs : NoConstSplit w.s)
    {gx : ZMod q → ZMod q} {vals : Name → ZMod q} {v : ZMod q} {pre body post : List Stm} {l r : Ex} {cmp : Name}
    (hb : p.main.body = pre ++ .cond l cmp r body none :: post) (hpre : ∀ st ∈ pre, st.isExit = false)
    (hcmp : cmp ∈ [['=', '='], ['!', '='], ['>'], ['>', '='], ['<'], ['<', '=']])
    (hv : ∃ ρ a b k, RunsAll gx p.funs pre (startStore p vals) ρ ∧ eval gx p.funs k ρ l = .ok a ∧ eval gx p.funs k ρ r = .ok b ∧
      ((goHolds cmp (a.val : Nat) (b.val : Nat) ∧ Returns gx (withBody p (pre ++ (body ++ post))) vals v) ∨
       (¬ goHolds cmp (a.val : Nat) (b.val : Nat) ∧ Returns gx (withBody p (pre ++ post)) vals v))) :
    ∃ ν, (∀ x ∈ p.main.names, ν x = vals x) ∧ (∀ g ∈ w.s.c.gates, GateHolds gx ν g) ∧ formVal ν f = v :=
  C85_gates_complete hq hp hm hx hc hn hs ((returns_cond hb hpre (body_noExit (by have := hp.mainOk.2.2.1; rwa [hb] at this)) hcmp).mpr hv)

/-- C99, soundness: whatever values the wires have, if they satisfy all gates of a compiled program whose main function contains
`if (l cmp r) { body; return e }`, then the value of the returned form is the result of the program that ends at this place with `body`
and `return e` (when the comparison of the values of `l` and `r` at this place holds), or of the program without the `if` (when it does
not), on the same inputs.  There is no other `if` with a `return` before this one. -/
theorem C99_return_sound_partial [Fact q.Prime] (hq : 2 ^ 63 ≤ q) {p : Program} (hp : p.ok) {m : Mem} (hm : program p.emit = some m) {n : Nat}
    {f : Factors} {w : W} (hx : execute H q n m = some (f, w)) (hc : CleanRun q w) (hn : NoConfusion w.s) {gx : ZMod q → ZMod q}
    {ν : Name → ZMod q} (hh : ∀ g ∈ w.s.c.gates, GateHolds gx ν g) {pre body post : List Stm} {l r e : Ex} {cmp : Name}
    (hb : p.main.body = pre ++ .cond l cmp r body (some e) :: post) (hpre : ∀ st ∈ pre, st.isExit = false)
    (hcmp : cmp ∈ [['=', '='], ['!', '='], ['>'], ['>', '='], ['<'], ['<', '=']]) :
    (∃ ρ a b k, RunsAll gx p.funs pre (startStore p ν) ρ ∧ eval gx p.funs k ρ l = .ok a ∧ eval gx p.funs k ρ r = .ok b ∧
      ((goHolds cmp (a.val : Nat) (b.val : Nat) ∧ Returns gx (withReturn p (pre ++ body) e) ν (formVal ν f)) ∨
       (¬ goHolds cmp (a.val : Nat) (b.val : Nat) ∧ Returns gx (withBody p (pre ++ post)) ν (formVal ν f)))) ∨ Stops gx p ν .divByZero :=
  (C84_gates_sound hq hp hm hx hc hn hh).imp_left (returns_exit hb hpre (body_noExit (by have := hp.mainOk.2.2.1; rwa [hb] at this)) hcmp).mp

/-- C99, completeness: and if that program returns `v`, then the gates of the program with the `if` can be satisfied with the same inputs
and the result `v`. -/
theorem C99_return_complete_partial [Fact q.Prime] (hq : 2 ^ 63 ≤ q) {p : Program} (hp : p.ok) {m : Mem} (hm : program p.emit = some m) {n : Nat}
    {f : Factors} {w : W} (hx : execute H q n m = some (f, w)) (hc : CleanRun q w) (hn : NoConfusion w.s) (hs : NoConstSplit w.s)
    {gx : ZMod q → ZMod q} {vals : Name → ZMod q} {v : ZMod q} {pre body post : List Stm} {l r e : Ex} {cmp : Name}
    (hb : p.main.body = pre ++ .cond l cmp r body (some e) :: post) (hpre : ∀ st ∈ pre, st.isExit = false)
    (hcmp : cmp ∈ [['=', '='], ['!', '='], ['>'], ['>', '='], ['<'], ['<', '=']])
    (hv : ∃ ρ a b k, RunsAll gx p.funs pre (startStore p vals) ρ ∧ eval gx p.funs k ρ l = .ok a ∧ eval gx p.funs k ρ r = .ok b ∧
      ((goHolds cmp (a.val : Nat) (b.val : Nat) ∧ Returns gx (withReturn p (pre ++ body) e) vals v) ∨
       (¬ goHolds cmp (a.val : Nat) (b.val : Nat) ∧ Returns gx (withBody p (pre ++ post)) vals v))) :
    ∃ ν, (∀ x ∈ p.main.names, ν x = vals x) ∧ (∀ g ∈ w.s.c.gates, GateHolds gx ν g) ∧ formVal ν f = v :=
  C85_gates_complete hq hp hm hx hc hn hs ((returns_exit hb hpre (body_noExit (by have := hp.mainOk.2.2.1; rwa [hb] at this)) hcmp).mpr hv)

/-! ### C97 -/

theorem call_no_return {comp : Comp} {cur : Nat} {name : Name} {is : List Constraint} {w w' : W} {r : Res}
    (h : callFunction H q comp cur name is w = some (r, w')) : r.ret = false := by
  unfold callFunction at h
  split at h
  · simp only [Option.bind_eq_bind, Option.bind_eq_some_iff, Option.pure_def, Option.some.injEq, Prod.mk.injEq] at h
    obtain ⟨_, _, rfl, _⟩ := h
    rfl
  split at h
  · split at h
    · simp only [Option.bind_eq_bind, Option.bind_eq_some_iff, Option.pure_def, Option.some.injEq, Prod.mk.injEq] at h
      obtain ⟨_, _, _, _, rfl, _⟩ := h
      rfl
    · cases h
  split at h
  · cases h
  split at h
  · split at h
    · simp only [Option.bind_eq_bind, Option.bind_eq_some_iff, Option.pure_def, Option.some.injEq, Prod.mk.injEq] at h
      obtain ⟨_, _, _, _, _, _, rfl, _⟩ := h
      rfl
    · cases h
  split at h
  · split at h
    · simp only [Option.bind_eq_bind, Option.bind_eq_some_iff, Option.pure_def, Option.some.injEq, Prod.mk.injEq] at h
      obtain ⟨_, _, _, _, rfl, _⟩ := h
      rfl
    · cases h
  split at h
  · split at h
    · simp only [Option.bind_eq_bind, Option.bind_eq_some_iff, Option.pure_def, Option.some.injEq, Prod.mk.injEq] at h
      obtain ⟨_, _, _, _, _, _, rfl, _⟩ := h
      rfl
    · cases h
  · unfold callUser at h
    simp only [Option.bind_eq_bind, Option.bind_eq_some_iff] at h
    obtain ⟨_, _, _, _, _, _, ⟨ready, _⟩, _, h⟩ := h
    cases ready with
    | true =>
      simp only [if_true, Option.bind_eq_some_iff, Option.pure_def, Option.some.injEq, Prod.mk.injEq] at h
      obtain ⟨_, _, rfl, _⟩ := h
      rfl
    | false =>
      simp only [Bool.false_eq_true, if_false, Option.bind_eq_some_iff, Option.pure_def, Option.some.injEq, Prod.mk.injEq] at h
      obtain ⟨_, _, rfl, _⟩ := h
      rfl

/-- C97, for every loop in every program: the statement `for` is never left by a `return`; after it the next statement of the
surrounding function is compiled, whatever the body of the loop contains. -/
theorem C97_loop_never_returns (n cur : Nat) (c : Constraint) (hc : c.output.type = .forT) (w w' : W) (r : Res)
    (h : compile H q n cur c w = some (r, w')) : r.ret = false := by
  induction n generalizing w with
  | zero => simp [compile] at h
  | succ n ih =>
    rw [compile, compileStep] at h
    simp only [hc] at h
    split at h
    · simp only [Option.bind_eq_bind, Option.bind_eq_some_iff, Prod.exists] at h
      obtain ⟨go, w1, _, h⟩ := h
      cases go with
      | false =>
        simp only [Bool.false_eq_true, if_false, Option.pure_def, Option.some.injEq, Prod.mk.injEq] at h
        rw [← h.1]
      | true =>
        simp only [if_true, Option.bind_eq_some_iff, Prod.exists] at h
        obtain ⟨r1, w2, h1, h⟩ := h
        have h2 : r1.ret = false := by
          cases n with
          | zero => simp [compile] at h1
          | succ n =>
            rw [compile, compileStep] at h1
            exact call_no_return h1
        rw [h2] at h
        simp only [Bool.false_eq_true, if_false, Option.bind_eq_some_iff, Prod.exists] at h
        obtain ⟨_, w3, _, h⟩ := h
        exact ih w3 h
    · cases h

/-- the text of a program with a `return` in a loop -/
def loopReturn : List Char := "func main(x){
var i = 0
for(i<1;i=i+1){
return x*x
}
return x
}
".toList

/-- C97 is refuted: the loop of `loopReturn` runs once and reaches `return x*x`, its product becomes a gate, but the program goes on and
returns `x`, whatever the value of `x` is. -/
theorem C97_refuted : ∃ toks pubs m f w, APS.LexSpec.TokenizesTo loopReturn toks ∧
    parse H0 APS.Pairing.Order 100 (fun _ => none) (stackAllTokens toks) = some (pubs, m) ∧ execute H0 APS.Pairing.Order 20 m = some (f, w) ∧
    w.s.c.gates.length = 1 ∧ ∀ ν : Name → ZMod APS.Pairing.Order, formVal ν f = ν ['x'] := by
  have h : ((APS.Lex.tokenize 400 loopReturn).map fun o => match o with
      | .closed toks => ((parse H0 APS.Pairing.Order 100 (fun _ => none) (stackAllTokens toks)).bind fun pm =>
          (execute H0 APS.Pairing.Order 20 pm.2).map fun fw => decide (fw.2.s.c.gates.length = 1 ∧ fw.1 = [⟨⟨false, ['x']⟩, 1⟩])) = some true
      | .panicked _ => False) = some True := by
    have : ((APS.Lex.tokenize 400 loopReturn).map fun o => match o with
      | .closed toks => decide (((parse H0 APS.Pairing.Order 100 (fun _ => none) (stackAllTokens toks)).bind fun pm =>
          (execute H0 APS.Pairing.Order 20 pm.2).map fun fw => decide (fw.2.s.c.gates.length = 1 ∧ fw.1 = [⟨⟨false, ['x']⟩, 1⟩])) = some true)
      | .panicked _ => false) = some true := by decide +kernel
    obtain ⟨o, h1, h2⟩ := Option.map_eq_some_iff.mp this
    rw [h1]
    cases o with
    | closed toks => simpa using h2
    | panicked toks => simp at h2
  obtain ⟨o, h1, h2⟩ := Option.map_eq_some_iff.mp h
  cases o with
  | panicked toks => simp at h2
  | closed toks =>
    simp only [eq_iff_iff, iff_true] at h2
    obtain ⟨⟨pubs, m⟩, h3, h4⟩ := Option.bind_eq_some_iff.mp h2
    obtain ⟨⟨f, w⟩, h5, h6⟩ := Option.map_eq_some_iff.mp h4
    simp only [decide_eq_true_eq] at h6
    refine ⟨toks, pubs, m, f, w, ⟨400, h1⟩, h3, h5, h6.1, fun ν => ?_⟩
    rw [h6.2]
    simp [formVal, factorVal]

/-! ### C98 -/

open APS.Parse in
/-- C98 is refuted: an `if` at the end of a block is not accepted.  For every condition, every body that the parser reads, with or
without a line break after it (the lexer joins consecutive breaks), the parser panics on a block that consists of an `if`. -/
theorem C98_refuted {rf : List Char → Option (List APS.Lex.Token)} {l r : Ex} {cmp : Name} {body : List Stm} {fin : Option Ex}
    (hw : (Stm.cond l cmp r body fin).written) (n : Nat) (j : Nat) (hj : j ≤ 1) :
    statementMode rf n ((Stm.cond l cmp r body fin).write ++ List.replicate j brk) = none := by
  unfold Stm.written at hw
  cases n with
  | zero => rfl
  | succ m =>
    have hk : removeBreaks ((Stm.cond l cmp r body fin).write ++ List.replicate j brk) = (Stm.cond l cmp r body fin).write := by
      have h0 : removeBreaks ((Stm.cond l cmp r body fin).write) = (Stm.cond l cmp r body fin).write := by
        have hl : Line ((Stm.cond l cmp r body fin).write) := by
          rw [Stm.write]
          exact .mk' (us := kwIf :: ParseSpec.lpar :: (ParseSpec.write (.bin ⟨.comparator, cmp⟩ l r) ++ ParseSpec.rpar :: lcur :: brk :: (lines body ++ writeFin fin))) (u := rcur) (by decide) (by simp) (by decide)
        have := removeBreaks_top hl (R := []) (by simp)
        simpa using this
      have hl' : ∃ ts t, (Stm.cond l cmp r body fin).write = ts ++ [t] ∧ t.text ≠ ['\n'] := by
        refine ⟨kwIf :: ParseSpec.lpar :: (ParseSpec.write (.bin ⟨.comparator, cmp⟩ l r) ++ ParseSpec.rpar :: lcur :: brk :: (lines body ++ writeFin fin)), rcur, ?_, by decide⟩
        simp [Stm.write]
      rcases Nat.le_one_iff_eq_zero_or_eq_one.mp hj with rfl | rfl
      · simpa using h0
      · obtain ⟨ts, t, e, ht⟩ := hl'
        rw [List.replicate_one]
        unfold removeBreaks at h0 ⊢
        rw [trailing_brk]
        rw [e, trailing_id ht, ← e] at h0
        exact h0
    have hif : ifChain (statementMode rf m) ((Stm.cond l cmp r body fin).write) = none := by
      unfold ifChain
      cases hbr : branch (statementMode rf m) 1 true .ifT ((Stm.cond l cmp r body fin).write) with
      | none => rfl
      | some x =>
        obtain ⟨s, rest⟩ := x
        have : rest = [] := by
          have h1 := cond_split (R := []) hw.1 (blk := lines body ++ writeFin fin)
          have h4 := splitSwing_braced (r := []) (swing_cons (t := brk) (by decide) (by decide) ((swing_lines body hw.2.1).append (swing_fin fin hw.2.2.1)))
          rw [T_nil] at h1
          rw [List.cons_append] at h4
          rw [List.append_assoc] at h1 h4
          unfold branch at hbr
          simp only [Stm.write, h1, h4, Option.bind_eq_bind, Option.pure_def] at hbr
          obtain ⟨_, _, hbr⟩ := Option.bind_eq_some_iff.mp hbr
          obtain ⟨_, _, hbr⟩ := Option.bind_eq_some_iff.mp hbr
          simp only [Option.bind_eq_some_iff, Option.some.injEq, Prod.mk.injEq] at hbr
          obtain ⟨_, _, _, rfl⟩ := hbr
          rfl
        subst this
        simp [elseIfs]
    rw [statementMode]
    simp only [hk]
    rw [show (Stm.cond l cmp r body fin).write = kwIf :: (((Stm.cond l cmp r body fin).write).tail) by simp [Stm.write]]
    simp only [kwIf]
    rw [show (⟨.ifT, "if".toList⟩ : APS.Lex.Token) :: (((Stm.cond l cmp r body fin).write).tail) = (Stm.cond l cmp r body fin).write by simp [Stm.write, kwIf]]
    simp [hif]

/-! ### a program with `if` that meets all conditions -/

namespace Branchy
open APS.Pairing (Order)
open APS.LexSpec (TokenizesTo)
open APS.Spec (NoClash)
open Demo (op)

/-- the body of the main function of `prog` up to the last `if` -/
def pre : List Stm :=
  [.decl ['s'] (.num ['1']), .decl ['i'] (.num ['0']),
   .loop (.var ['i']) ['<'] (.num ['3']) ['i'] (.bin (op '+') (.var ['i']) (.num ['1']))
     [.cond (.var ['i']) ['!', '='] (.num ['1']) [.assign ['s'] [] (.bin (op '*') (.var ['s']) (.var ['x']))] none,
      .assign ['s'] [] (.bin (op '+') (.var ['s']) (.num ['1']))]]

/-- the program of `src` -/
def prog : Program where
  before := []
  pubs := [(['x'], [])]
  main := ⟨"main".toList, [(['x'], []), (['y'], [])],
    pre ++ [.cond (.var ['i']) ['>'] (.num ['2']) [.assign ['s'] [] (.bin (op '*') (.var ['s']) (.var ['y']))] none], .var ['s']⟩
  after := []

/-- an `if` in a loop and an `if` after it -/
def src : List Char := "func main(x,y) {
  public{x}
  var s = 1
  var i = 0
  for (i<3; i=i+1) {
    if (i != 1) {
      s = s*x
    }
    s = s+1
  }
  if (i > 2) {
    s = s*y
  }
  return s
}
".toList

theorem prog_ok : prog.ok := by
  refine ⟨rfl, ?_, ?_, ?_, ?_, ?_⟩
  · decide
  · decide +kernel
  · intro F hF
    simp [prog, Program.funs] at hF
  · refine ⟨by decide, by decide +kernel, ?_, ?_⟩
    · refine ⟨?_, ?_, ⟨?_, ?_, ?_, ?_, ?_, ?_, ?_, ?_, ?_⟩, ⟨?_, ?_, ?_, ?_, ?_, ?_, ?_⟩, trivial⟩
      · show Spec.IsLit _; decide
      · show Spec.IsLit _; decide
      · show _ ∈ _; decide
      · show Spec.IsLit _; decide
      · decide
      · refine ⟨rfl, by decide, ?_, ?_⟩
        · show _ ∈ _; decide
        · show Spec.IsLit _; decide
      · decide
      · decide
      · intro y hy; simp [LangSpec.declared, Stm.declares] at hy
      · decide
      · refine ⟨⟨?_, ?_, ?_, ?_, ?_, by simp, ⟨?_, ?_, ?_⟩, trivial⟩, ⟨?_, ?_, ?_⟩, trivial⟩
        · show _ ∈ _; decide
        · show Spec.IsLit _; decide
        · decide
        · rfl
        · rfl
        · decide
        · trivial
        · refine ⟨rfl, by decide, ?_, ?_⟩
          · show _ ∈ _; decide
          · show _ ∈ _; decide
        · decide
        · trivial
        · refine ⟨rfl, by decide, ?_, ?_⟩
          · show _ ∈ _; decide
          · show Spec.IsLit _; decide
      · show _ ∈ _; decide
      · show Spec.IsLit _; decide
      · decide
      · rfl
      · rfl
      · simp
      · refine ⟨⟨by decide, trivial, rfl, by decide, ?_, ?_⟩, trivial⟩
        · show _ ∈ _; decide
        · show _ ∈ _; decide
    · show _ ∈ _; decide
  · decide +kernel

/-- the run over the scalar field of bn256 meets the conditions of C84 - C88 and C96, and the rows can be built -/
theorem prog_run : ∃ m n f w, program prog.emit = some m ∧ execute H0 Order n m = some (f, w) ∧ CleanRun Order w ∧
    NoClash prog w.s ∧ w.s.c.gates.length = 2 ∧
    (gatesToR1CS (Spec.oneName :: prog.publics) prog.main.names w.s.c.gates true).isSome = true := by
  have h : (((program prog.emit).bind fun m => (execute H0 Order 20 m).map fun x => (m, x)).map fun x =>
      decide (CleanRun Order x.2.2 ∧ NoClash prog x.2.2.s ∧
        x.2.2.s.c.gates.length = 2 ∧ (gatesToR1CS (Spec.oneName :: prog.publics) prog.main.names x.2.2.s.c.gates true).isSome = true)) = some true := by
    decide +kernel
  obtain ⟨⟨m, f, w⟩, h1, h2⟩ := Option.map_eq_some_iff.mp h
  obtain ⟨m', h3, h4⟩ := Option.bind_eq_some_iff.mp h1
  obtain ⟨⟨f', w'⟩, h5, h6⟩ := Option.map_eq_some_iff.mp h4
  cases h6
  simp only [decide_eq_true_eq] at h2
  exact ⟨m, 20, f, w, h3, h5, h2⟩

/-- x = 5: s = 5, 6, 7, 7·5 + 1 = 36; and 36·2 = 72 -/
theorem prog_returns : Returns (q := Order) (fun _ => 0) prog (fun x => if x = ['x'] then 5 else 2) 72 := by
  have h : (runMain (q := Order) (fun _ => 0) prog.funs prog.main 15 (fun x => if x = ['x'] then 5 else 2)).toOption = some 72 := by
    decide +kernel
  refine ⟨15, ?_⟩
  revert h
  cases runMain (q := Order) (fun _ => 0) prog.funs prog.main 15 (fun x => if x = ['x'] then 5 else 2) with
  | ok v => intro h; simpa [Except.toOption] using h
  | error e => intro h; simp [Except.toOption] at h

theorem prog_written : prog.written := by
  refine ⟨?_, ?_, ?_⟩
  · intro F hF
    simp [prog, Program.funs] at hF
  · refine ⟨by decide, ?_, ?_, ?_⟩
    · simp [prog, LangSpec.paramWritten]; decide
    · simp [prog, pre, LangSpec.writtenAll, Stm.written, ParseSpec.Ex.ok, ParseSpec.okAll, op, ParseSpec.Ex.closed, endsPlain]; decide
    · simp [prog, ParseSpec.Ex.ok]; decide
  · simp [prog]; decide

/-- the text spells the program -/
theorem src_tokens : ∃ toks, TokenizesTo src toks ∧ prog.spelled (stackAllTokens toks) := by
  have h : ((APS.Lex.tokenize 500 src).map fun o => match o with
      | .closed toks => decide (prog.spelled (stackAllTokens toks))
      | .panicked _ => false) = some true := by decide +kernel
  obtain ⟨o, h1, h2⟩ := Option.map_eq_some_iff.mp h
  cases o with
  | closed toks => exact ⟨toks, ⟨500, h1⟩, by simpa using h2⟩
  | panicked toks => simp at h2

/-- the text compiles over the scalar field of bn256, with all conditions of C90 -/
theorem src_compiles : ∃ pubs ins f w r, Compiles H0 Order src true pubs ins f w r ∧ CleanRun Order w ∧ NoClash prog w.s := by
  obtain ⟨m, n, f, w, h1, h2, h3, h4, -, h5⟩ := prog_run
  obtain ⟨toks, t1, t2⟩ := src_tokens
  obtain ⟨r, hr⟩ := Option.isSome_iff_exists.mp h5
  have hin := execute_inputs (by decide +kernel) prog_ok h1 h2 (fin_of_clean prog_ok h2 h3)
  refine ⟨_, _, f, w, r, ⟨⟨toks, fun _ => none, (stackAllTokens toks).length + 2 + 1, n, m, t1, by omega, ?_, h2⟩, hin, hr⟩, h3, h4⟩
  rw [parse_spelled prog_written _ t2 (by omega), h1]
  rfl

/-- C96 on this program: the last `if` is taken -/
example (ν : Name → ZMod Order) : ∃ m n f w, program prog.emit = some m ∧ execute H0 Order n m = some (f, w) ∧
    ((∀ g ∈ w.s.c.gates, GateHolds (fun _ => 0) ν g) →
      Returns (q := Order) (fun _ => 0) (withBody prog (pre ++ [.assign ['s'] [] (.bin (op '*') (.var ['s']) (.var ['y']))])) ν (formVal ν f) ∨
      Returns (q := Order) (fun _ => 0) (withBody prog pre) ν (formVal ν f) ∨ Stops (q := Order) (fun _ => 0) prog ν .divByZero) := by
  obtain ⟨m, n, f, w, h1, h2, h3, h4, -⟩ := prog_run
  refine ⟨m, n, f, w, h1, h2, fun hh => ?_⟩
  rcases C96_if_sound_partial (by decide +kernel) prog_ok h1 h2 h3 h4.conf hh (pre := pre) (post := []) rfl (by decide) (by decide) with ⟨_, _, _, _, _, _, _, ⟨_, h⟩ | ⟨_, h⟩⟩ | h
  · exact Or.inl (by simpa using h)
  · exact Or.inr (Or.inl (by simpa using h))
  · exact Or.inr (Or.inr h)

/-- an `if` as in C98 -/
example : (Stm.cond (.var ['i']) ['>'] (.num ['2']) [.assign ['s'] [] (.bin (op '*') (.var ['s']) (.var ['y']))] none).written := by
  simp [LangSpec.writtenAll, Stm.written, ParseSpec.Ex.ok, ParseSpec.okAll, op, ParseSpec.Ex.closed, endsPlain]; decide

end Branchy

/-! ### a recursive program with `return` in `if` that meets all conditions -/

namespace Early
open APS.Pairing (Order)
open APS.LexSpec (TokenizesTo)
open APS.Spec (NoClash)
open Demo (op)

/-- the function of the same name in testPrograms/codes.go:86-95, with `+` in place of the builtin -/
def fubunaci : Fun where
  name := "fubunaci".toList
  params := [(['a'], [])]
  body := [.cond (.var ['a']) ['=', '='] (.num ['0']) [] (some (.num ['1'])), .cond (.var ['a']) ['=', '='] (.num ['1']) [] (some (.num ['1']))]
  ret := .bin (op '+') (.call "fubunaci".toList [.bin (op '-') (.var ['a']) (.num ['1'])]) (.call "fubunaci".toList [.bin (op '-') (.var ['a']) (.num ['2'])])

/-- the program of `src` -/
def prog : Program where
  before := []
  pubs := [(['y'], [])]
  main := ⟨"main".toList, [(['x'], []), (['y'], [])],
    [.decl ['s'] (.call "fubunaci".toList [.num ['3']]),
     .cond (.var ['s']) ['>'] (.num ['2']) [.assign ['s'] [] (.bin (op '*') (.var ['s']) (.var ['x']))] (some (.bin (op '*') (.var ['s']) (.var ['y'])))],
    .var ['x']⟩
  after := [fubunaci]

/-- a `return` in an `if` of the main function, and the base cases of a recursion -/
def src : List Char := "func main(x,y) {
  public{y}
  var s = fubunaci(3)
  if (s > 2) {
    s = s*x
    return s*y
  }
  return x
}
func fubunaci(a) {
  if (a == 0) {
    return 1
  }
  if (a == 1) {
    return 1
  }
  return fubunaci(a-1)+fubunaci(a-2)
}
".toList

theorem call_ok {P : List Fun} {vis : List Name} {f : Name} {e : Ex} {F : Fun} (h : f ∉ LangSpec.builtins) (hF : F ∈ P) (hn : F.name = f) (hl : F.names.length = 1)
    (he : okEx P vis e) : okEx P vis (.call f [e]) := ⟨⟨he, trivial⟩, Or.inr ⟨h, F, hF, hn, by simp [hl]⟩⟩

theorem prog_ok : prog.ok := by
  have hf : ∀ {vis : List Name} {e : Ex}, okEx prog.funs vis e → okEx prog.funs vis (.call "fubunaci".toList [e]) := fun h =>
    call_ok (F := fubunaci) (by decide +kernel) (by simp [prog, Program.funs]) rfl rfl h
  refine ⟨rfl, ?_, ?_, ?_, ?_, ?_⟩
  · decide +kernel
  · decide +kernel
  · intro F hF
    simp only [prog, Program.funs, List.nil_append, List.mem_singleton] at hF
    subst hF
    refine ⟨by decide +kernel, by decide +kernel, ⟨⟨?_, ?_, by decide +kernel, rfl, rfl, ?_, trivial⟩, ⟨?_, ?_, by decide +kernel, rfl, rfl, ?_, trivial⟩, trivial⟩, rfl, by decide +kernel, hf ⟨rfl, by decide +kernel, ?_, ?_⟩, hf ⟨rfl, by decide +kernel, ?_, ?_⟩⟩
    · show _ ∈ _; decide +kernel
    · show Spec.IsLit _; decide +kernel
    · rintro _ ⟨⟩; show Spec.IsLit _; decide +kernel
    · show _ ∈ _; decide +kernel
    · show Spec.IsLit _; decide +kernel
    · rintro _ ⟨⟩; show Spec.IsLit _; decide +kernel
    · show _ ∈ _; decide +kernel
    · show Spec.IsLit _; decide +kernel
    · show _ ∈ _; decide +kernel
    · show Spec.IsLit _; decide +kernel
  · refine ⟨by decide +kernel, by decide +kernel, ⟨hf ?_, ⟨?_, ?_, by decide +kernel, rfl, rfl, ?_, ⟨by decide +kernel, trivial, rfl, by decide +kernel, ?_, ?_⟩, trivial⟩, trivial⟩, ?_⟩
    · show Spec.IsLit _; decide +kernel
    · show _ ∈ _; decide +kernel
    · show Spec.IsLit _; decide +kernel
    · rintro _ ⟨⟩
      refine ⟨rfl, by decide +kernel, ?_, ?_⟩
      · show _ ∈ _; decide +kernel
      · show _ ∈ _; decide +kernel
    · show _ ∈ _; decide +kernel
    · show _ ∈ _; decide +kernel
    · show _ ∈ _; decide +kernel
  · decide +kernel

/-- the run over the scalar field of bn256 meets the conditions of C84 - C88 and C99, and the rows can be built -/
theorem prog_run : ∃ m n f w, program prog.emit = some m ∧ execute H0 Order n m = some (f, w) ∧ CleanRun Order w ∧
    NoClash prog w.s ∧ w.s.c.gates.length = 2 ∧
    (gatesToR1CS (Spec.oneName :: prog.publics) prog.main.names w.s.c.gates true).isSome = true := by
  have h : (((program prog.emit).bind fun m => (execute H0 Order 14 m).map fun x => (m, x)).map fun x =>
      decide (CleanRun Order x.2.2 ∧ NoClash prog x.2.2.s ∧
        x.2.2.s.c.gates.length = 2 ∧ (gatesToR1CS (Spec.oneName :: prog.publics) prog.main.names x.2.2.s.c.gates true).isSome = true)) = some true := by
    decide +kernel
  obtain ⟨⟨m, f, w⟩, h1, h2⟩ := Option.map_eq_some_iff.mp h
  obtain ⟨m', h3, h4⟩ := Option.bind_eq_some_iff.mp h1
  obtain ⟨⟨f', w'⟩, h5, h6⟩ := Option.map_eq_some_iff.mp h4
  cases h6
  simp only [decide_eq_true_eq] at h2
  exact ⟨m, 14, f, w, h3, h5, h2⟩

/-- x = 7, y = 2: the number is 3, and 3·7·2 = 42 -/
theorem prog_returns : Returns (q := Order) (fun _ => 0) prog (fun x => if x = ['x'] then 7 else 2) 42 := by
  have h : (runMain (q := Order) (fun _ => 0) prog.funs prog.main 12 (fun x => if x = ['x'] then 7 else 2)).toOption = some 42 := by
    decide +kernel
  refine ⟨12, ?_⟩
  revert h
  cases runMain (q := Order) (fun _ => 0) prog.funs prog.main 12 (fun x => if x = ['x'] then 7 else 2) with
  | ok v => intro h; simpa [Except.toOption] using h
  | error e => intro h; simp [Except.toOption] at h

theorem fub_written : fubunaci.written := by
  have e1 : fubunaci.params = [(['a'], [])] := rfl
  have e2 : fubunaci.body = [.cond (.var ['a']) ['=', '='] (.num ['0']) [] (some (.num ['1'])), .cond (.var ['a']) ['=', '='] (.num ['1']) [] (some (.num ['1']))] := rfl
  have e3 : fubunaci.ret = .bin (op '+') (.call "fubunaci".toList [.bin (op '-') (.var ['a']) (.num ['1'])]) (.call "fubunaci".toList [.bin (op '-') (.var ['a']) (.num ['2'])]) := rfl
  refine ⟨by decide +kernel, ?_, ?_, ?_⟩
  · rw [e1]; simp [LangSpec.paramWritten]; decide +kernel
  · rw [e2]; simp [LangSpec.writtenAll, Stm.written, ParseSpec.Ex.ok, ParseSpec.Ex.closed, endsPlain]; decide +kernel
  · rw [e3]; simp [ParseSpec.Ex.ok, ParseSpec.okAll, op, ParseSpec.Ex.closed]; decide +kernel

theorem prog_written : prog.written := by
  refine ⟨?_, ?_, ?_⟩
  · intro F hF
    simp only [prog, Program.funs, List.nil_append, List.mem_singleton] at hF
    subst hF
    exact fub_written
  · refine ⟨by decide +kernel, ?_, ?_, ?_⟩
    · simp [prog, LangSpec.paramWritten]; decide +kernel
    · simp [prog, LangSpec.writtenAll, Stm.written, ParseSpec.Ex.ok, ParseSpec.okAll, op, ParseSpec.Ex.closed, endsPlain]; decide +kernel
    · simp [prog, ParseSpec.Ex.ok]; decide +kernel
  · simp [prog]; decide +kernel

/-- the text spells the program -/
theorem src_tokens : ∃ toks, TokenizesTo src toks ∧ prog.spelled (stackAllTokens toks) := by
  have h : ((APS.Lex.tokenize 500 src).map fun o => match o with
      | .closed toks => decide (prog.spelled (stackAllTokens toks))
      | .panicked _ => false) = some true := by decide +kernel
  obtain ⟨o, h1, h2⟩ := Option.map_eq_some_iff.mp h
  cases o with
  | closed toks => exact ⟨toks, ⟨500, h1⟩, by simpa using h2⟩
  | panicked toks => simp at h2

/-- the text compiles over the scalar field of bn256, with all conditions of C90 -/
theorem src_compiles : ∃ pubs ins f w r, Compiles H0 Order src true pubs ins f w r ∧ CleanRun Order w ∧ NoClash prog w.s := by
  obtain ⟨m, n, f, w, h1, h2, h3, h4, -, h5⟩ := prog_run
  obtain ⟨toks, t1, t2⟩ := src_tokens
  obtain ⟨r, hr⟩ := Option.isSome_iff_exists.mp h5
  have hin := execute_inputs (by decide +kernel) prog_ok h1 h2 (fin_of_clean prog_ok h2 h3)
  refine ⟨_, _, f, w, r, ⟨⟨toks, fun _ => none, (stackAllTokens toks).length + 2 + 1, n, m, t1, by omega, ?_, h2⟩, hin, hr⟩, h3, h4⟩
  rw [parse_spelled prog_written _ t2 (by omega), h1]
  rfl

/-- C99 on this program -/
example (ν : Name → ZMod Order) : ∃ m n f w, program prog.emit = some m ∧ execute H0 Order n m = some (f, w) ∧
    ((∀ g ∈ w.s.c.gates, GateHolds (fun _ => 0) ν g) →
      Returns (q := Order) (fun _ => 0) (withReturn prog [.decl ['s'] (.call "fubunaci".toList [.num ['3']]),
        .assign ['s'] [] (.bin (op '*') (.var ['s']) (.var ['x']))] (.bin (op '*') (.var ['s']) (.var ['y']))) ν (formVal ν f) ∨
      Returns (q := Order) (fun _ => 0) (withBody prog [.decl ['s'] (.call "fubunaci".toList [.num ['3']])]) ν (formVal ν f) ∨
      Stops (q := Order) (fun _ => 0) prog ν .divByZero) := by
  obtain ⟨m, n, f, w, h1, h2, h3, h4, -⟩ := prog_run
  refine ⟨m, n, f, w, h1, h2, fun hh => ?_⟩
  rcases C99_return_sound_partial (by decide +kernel) prog_ok h1 h2 h3 h4.conf hh (pre := [.decl ['s'] (.call "fubunaci".toList [.num ['3']])]) (post := [])
    rfl (by decide) (by decide) with ⟨_, _, _, _, _, _, _, ⟨_, h⟩ | ⟨_, h⟩⟩ | h
  · rw [List.singleton_append] at h; exact Or.inl h
  · rw [List.append_nil] at h; exact Or.inr (Or.inl h)
  · exact Or.inr (Or.inr h)

end Early
end APS.Prog
