import Verif.Spec.Run
import Verif.Proofs.CompiledMade

/-! Every clean run meets the conditions of the simulation; inputs are not names of gates. -/
namespace APS.Prog
open APS.Circuit hiding execute compile Prog
open APS.LangSpec (Fun Program builtins isWord runMain)
open APS.ParseSpec (indexText)
open APS.Spec (CleanRun IsConst NoConfusion NoConstSplit GateHolds formVal)

variable {H : Name → Nat} {q : Nat}

theorem execute_mono {m : Mem} {n : Nat} {f : Factors} {w : W} (hx : execute H q n m = some (f, w)) : Mono { m := m } w := by
  simp only [execute, Option.bind_eq_bind, Option.bind_eq_some_iff] at hx
  obtain ⟨a, -, fo, -, hx⟩ := hx
  obtain ⟨r, hr, -⟩ := execGen_true hx
  exact execGen_mono (compile_mono H q n) hr

theorem computed_dig {m : Mem} {n : Nat} {f : Factors} {w : W} (hx : execute H q n m = some (f, w)) : ∀ x ∈ w.s.c.computed, Dig x :=
  fun x h => ((execute_mono hx).grows.new x h).resolve_left (by simp)

theorem word_not_dig {y : Name} (h : isWord y = true) (l : Name) : ¬ Dig (y ++ l) := by
  rintro ⟨c, cs, h1, h2⟩
  cases y with
  | nil => cases h
  | cons d ds =>
    simp only [List.cons_append, List.cons.injEq] at h1
    obtain ⟨rfl, -⟩ := h1
    simp only [isWord, Bool.and_eq_true, Bool.or_eq_true, beq_iff_eq] at h
    rcases h.1 with h | h
    · simp only [APS.Lex.isLetter, Char.isDigit, Bool.and_eq_true, Bool.or_eq_true, decide_eq_true_eq, Char.le_def,
        UInt32.le_iff_toNat_le, ge_iff_le] at h h2
      have e : ∀ c : Char, c.val.toNat = c.toNat := fun _ => rfl
      simp only [e, show 'a'.toNat = 97 from rfl, show 'A'.toNat = 65 from rfl, show 'z'.toNat = 122 from rfl, show 'Z'.toNat = 90 from rfl,
        show '0'.toNat = 48 from rfl, show '9'.toNat = 57 from rfl, UInt32.reduceToNat] at h h2
      omega
    · subst h; revert h2; decide

theorem main_names {p : Program} (hp : p.ok) {x : Name} (hx : x ∈ p.main.names) : Plain x ∧ ¬ Dig x := by
  obtain ⟨h1, h2, -, -⟩ := hp.mainOk
  have hnames : ∀ y ∈ p.main.top, NameOK p.funs y := fun y hy => ⟨(h2 y hy).1, (h2 y hy).2.1, (h2 y hy).2.2⟩
  obtain ⟨hw, -, -, -⟩ := ok_params hp.mainOk
  obtain ⟨-, y, hy, is, rfl⟩ := word_names hw hx
  have hn := hnames y.1 (List.mem_append_left _ (List.mem_map_of_mem hy))
  refine ⟨⟨?_, plain_user hn is⟩, word_not_dig hn.word _⟩
  have := hn.word
  intro he
  rw [(List.append_eq_nil_iff.mp he).1] at this
  cases this

theorem dig_plain {x : Name} (h : Dig x) : Plain x := by
  refine ⟨(by rintro rfl; obtain ⟨_, _, h, -⟩ := h; cases h), fun hb => ?_⟩
  have hall : ∀ n ∈ builtins, isWord n = true := by decide +kernel
  have := word_not_dig (hall x hb) []
  rw [List.append_nil] at this
  exact this h

theorem fin_of_clean {p : Program} (hp : p.ok) {m : Mem} {n : Nat} {f : Factors} {w : W} (hx : execute H q n m = some (f, w))
    (hc : CleanRun q w) : Fin q p.main.names w := by
  refine ⟨fun x h => ?_, fun t ht => ?_, hc.kept⟩
  · rcases List.mem_append.mp h with h | h
    · exact (main_names hp h).1
    · exact dig_plain (computed_dig hx x h)
  · obtain ⟨h1, h2⟩ := hc.static t ht
    refine ⟨h1, ?_⟩
    unfold IsConst at h2
    split at h2
    · exact ⟨_, by assumption, h2.1, h2.2.1, h2.2.2⟩
    · exact h2.elim

theorem inputs_fresh {p : Program} (hp : p.ok) {m : Mem} {n : Nat} {f : Factors} {w : W} (hx : execute H q n m = some (f, w)) :
    ∀ x ∈ p.main.names, x ∉ w.s.c.computed := fun _ h h' => (main_names hp h).2 (computed_dig hx _ h')

end APS.Prog
