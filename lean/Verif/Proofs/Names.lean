import Verif.Proofs.Compiled
import Verif.Proofs.CompiledMade
import Verif.Spec.Witness

/-!
Names of wires.  Gates get a name of sixteen digits or, for the bits of a number, digits followed by the name of the number; the
parameters of `main` begin with a letter or an underscore.  So the names never clash, and the name conditions of `RunOK` hold.
-/
namespace APS.Circuit
open APS.Spec (oneName)

/-- names of gates: sixteen digits, or for bits the number and the name of what is split -/
structure NameInv (s : St) : Prop where
  comp : s.c.computed = s.c.gates.map (·.ident)
  sig : ∀ g ∈ s.c.gates, g.typ ≠ .zeroOrOne → ∃ n, sig16 n = some g.ident
  bit : ∀ g ∈ s.c.gates, g.typ = .zeroOrOne → ∃ i, g.ident = bitName i g.arith.ident

theorem withID_sig {H : Name → Nat} {g g0 : Gate} (h : withID H g = some g0) (hi : g.ident = [] ∨ ∃ n, sig16 n = some g.ident) :
    ∃ n, sig16 n = some g0.ident := by
  unfold withID at h
  split at h
  · unfold setAndGetID at h
    obtain ⟨s, hs, rfl⟩ := Option.map_eq_some_iff.mp h
    exact ⟨_, hs⟩
  · rename_i hne
    cases h
    exact hi.resolve_left hne

theorem nameInv_stable {H : Name → Nat} : StableP H NameInv := by
  intro s s' g g' post ht hi hp hpt h hs
  obtain ⟨g0, h0, rfl, ⟨-, rfl⟩ | ⟨-, rfl⟩⟩ := St.add_spec h hp
  · exact ⟨hs.comp, hs.sig, hs.bit⟩
  · have hty : (post g0).typ ≠ .zeroOrOne := by rw [hpt, (withID_fields h0).1]; exact ht
    refine ⟨by simp [hs.comp, hp], fun x hx hxt => ?_, fun x hx hxt => ?_⟩
    · rcases List.mem_append.mp hx with hx | hx
      · exact hs.sig x hx hxt
      · simp only [List.mem_singleton] at hx
        subst hx
        rw [hp]
        exact withID_sig h0 hi
    · rcases List.mem_append.mp hx with hx | hx
      · exact hs.bit x hx hxt
      · simp only [List.mem_singleton] at hx
        subst hx
        exact absurd hxt hty

theorem nameInv_loop {H : Name → Nat} {z : Tok} (is : List Nat) : ∀ {s s' : St}, splitLoop H z is s = some s' → NameInv s → NameInv s' := by
  induction is with
  | nil => intro s s' h hs; simp [splitLoop] at h; subst h; exact hs
  | cons i is ih =>
    intro s s' h hs
    obtain ⟨s1, ha, h1⟩ := splitLoop_cons h
    refine ih h1 ?_
    obtain ⟨g0, h0, he, ⟨-, rfl⟩ | ⟨-, rfl⟩⟩ := St.add_spec ha (fun _ => rfl)
    · exact ⟨hs.comp, hs.sig, hs.bit⟩
    · have he : bitGate z i = g0 := he
      subst he
      refine ⟨by simp [hs.comp], fun x hx hxt => ?_, fun x hx hxt => ?_⟩
      · rcases List.mem_append.mp hx with hx | hx
        · exact hs.sig x hx hxt
        · simp only [List.mem_singleton] at hx
          subst hx
          exact absurd rfl hxt
      · rcases List.mem_append.mp hx with hx | hx
        · exact hs.bit x hx hxt
        · simp only [List.mem_singleton] at hx
          subst hx
          exact ⟨i, rfl⟩

theorem nameInv_split {H : Name → Nat} {q : Nat} {f : Factors} {s s' : St} (h : splitGate H q f s = some s') (hs : NameInv s) : NameInv s' := by
  obtain ⟨x, s1, g, rfl, hl, ha⟩ := splitGate_eq h
  exact nameInv_stable (by simp) (Or.inl rfl) (fun _ => rfl) (fun _ => rfl) ha (nameInv_loop _ hl hs)

/-- a name begins with a digit -/
def DigitFirst (n : Name) : Prop := ∃ c cs, n = c :: cs ∧ c.isDigit = true

theorem toDigits_first (n : Nat) : DigitFirst (Nat.toDigits 10 n) := by
  have h1 : Nat.toDigits 10 n ≠ [] := Nat.toDigits_ne_nil
  obtain ⟨c, cs, h⟩ := List.exists_cons_of_ne_nil h1
  exact ⟨c, cs, h, Nat.isDigit_of_mem_toDigits (b := 10) (n := n) (by norm_num) (by norm_num) (by rw [h]; simp)⟩

/-- names of gates begin with a digit, have at least two characters and no `@` if the inputs have none and are not empty -/
theorem gate_name {I : List Name} {s : St} (hn : NameInv s)
    (hatt : ∀ g ∈ s.c.gates, g.typ = .zeroOrOne → g.arith.ident ∈ I ∨ g.arith.ident ∈ s.c.computed)
    (hI : ∀ n ∈ I, n ≠ [] ∧ '@' ∉ n) : ∀ n ∈ s.c.computed, DigitFirst n ∧ 2 ≤ n.length ∧ '@' ∉ n := by
  have dig : ∀ k, '@' ∉ Nat.toDigits 10 k := by
    intro k hk
    have := Nat.isDigit_of_mem_toDigits (by norm_num) (by norm_num) hk
    revert this; decide
  have key : ∀ (l : Nat) (n : Name), n.length = l → n ∈ s.c.computed → DigitFirst n ∧ 2 ≤ n.length ∧ '@' ∉ n := by
    intro l
    induction l using Nat.strong_induction_on with
    | _ l ih =>
      intro n hl hm
      rw [hn.comp] at hm
      obtain ⟨g, hg, rfl⟩ := List.mem_map.mp hm
      by_cases ht : g.typ = .zeroOrOne
      · obtain ⟨i, hi⟩ := hn.bit g hg ht
        obtain ⟨c, cs, hc, hd⟩ := toDigits_first i
        have hz : g.arith.ident ≠ [] ∧ '@' ∉ g.arith.ident := by
          rcases hatt g hg ht with h | h
          · exact hI _ h
          · have hlt : g.arith.ident.length < l := by
              rw [← hl, hi]
              simp only [bitName, List.length_append, hc, List.length_cons]
              omega
            obtain ⟨-, h2, h3⟩ := ih _ hlt _ rfl h
            exact ⟨by rintro e; rw [e] at h2; simp at h2, h3⟩
        rw [hi]
        refine ⟨⟨c, cs ++ g.arith.ident, by simp [bitName, hc], hd⟩, ?_, ?_⟩
        · have := List.length_pos_of_ne_nil hz.1
          simp only [bitName, List.length_append, hc, List.length_cons]
          omega
        · simp only [bitName, List.mem_append, not_or]
          exact ⟨dig i, hz.2⟩
      · obtain ⟨k, hk⟩ := hn.sig g hg ht
        unfold sig16 at hk
        simp only at hk
        split at hk
        · cases hk
        · rename_i hlen
          simp only [Option.some.injEq] at hk
          obtain ⟨c, cs, hc, hd⟩ := toDigits_first k
          rw [← hk]
          refine ⟨⟨c, cs.take 15, by rw [hc]; rfl, hd⟩, ?_, fun h => dig k (List.mem_of_mem_take h)⟩
          rw [List.length_take]; omega
  exact fun n hn => key _ n rfl hn

end APS.Circuit

namespace APS.Prog
open APS.Circuit hiding execute compile Prog
open APS.LangSpec (Fun Program isWord)
open APS.Sym (sym_inv)
open APS.Spec (NoConfusion NoConstSplit oneName RunOK NoRandName)

variable {H : Name → Nat} {q : Nat}

theorem exec_names [Fact q.Prime] (hq : 2 ^ 63 ≤ q) {p : Program} (hp : p.ok) {m : Mem} (h : program p.emit = some m) {n : Nat} {f : Factors} {w : W}
    (hx : execute H q n m = some (f, w)) (hf : Fin q p.main.names w) : NameInv w.s := by
  obtain ⟨s2, h1, h3⟩ := execute_sym hq hp h hx hf
  have hP : StableP H NameInv := nameInv_stable
  have hS : ∀ {f : Factors} {s s' : St}, splitGate H q f s = some s' → NameInv s → NameInv s' := fun h' hs => nameInv_split h' hs
  have q2 : NameInv s2 := sym_inv hP hS h1 ⟨rfl, by simp, by simp⟩
  exact completeFunction_inv hP h3 q2

/-- the first character of a parameter is a letter or an underscore, and none is `@` -/
theorem main_name {p : Program} (hp : p.ok) : ∀ x ∈ p.main.names, ∃ c cs, x = c :: cs ∧ c.isDigit = false ∧ '@' ∉ x := by
  intro x hx
  simp only [Fun.names, List.mem_flatMap, List.mem_map] at hx
  obtain ⟨⟨a, dims⟩, ha, is, -, rfl⟩ := hx
  have hw := (hp.mainOk.2.1 a (List.mem_append_left _ (List.mem_map_of_mem (f := Prod.fst) ha))).1
  match a, hw with
  | [], hw => simp [isWord] at hw
  | c :: cs, hw =>
    simp only [isWord, Bool.and_eq_true, List.all_eq_true] at hw
    have hat : ∀ d : Char, (APS.Lex.isLetter d || APS.Lex.isDigit d || d == '_') = true → d ≠ '@' := by
      rintro d hd rfl
      revert hd; decide
    refine ⟨c, cs ++ ParseSpec.indexText is, rfl, ?_, ?_⟩
    · have h1 := hw.1
      by_contra hd
      rw [Bool.not_eq_false] at hd
      simp only [Char.isDigit, Bool.and_eq_true, decide_eq_true_eq] at hd
      simp only [APS.Lex.isLetter, Bool.or_eq_true, Bool.and_eq_true, decide_eq_true_eq, beq_iff_eq, Char.le_def] at h1
      have e1 : ('a' : Char).val = 97 := rfl
      have e2 : ('A' : Char).val = 65 := rfl
      rcases h1 with (h1 | h1) | h1
      · have := UInt32.le_trans h1.1 hd.2; revert this; decide
      · have := UInt32.le_trans h1.1 hd.2; revert this; decide
      · subst h1; revert hd; decide
    · simp only [List.cons_append, List.mem_cons, List.mem_append, not_or]
      refine ⟨fun e => ?_, fun e => hat _ (hw.2 _ e) rfl, fun e => ?_⟩
      · refine hat c ?_ e.symm
        have := hw.1
        simp only [Bool.or_eq_true] at this ⊢
        tauto
      · simp only [ParseSpec.indexText, List.mem_flatMap, List.mem_cons, List.mem_append, List.not_mem_nil, or_false] at e
        obtain ⟨k, -, e | e | e⟩ := e
        · revert e; decide
        · have := Nat.isDigit_of_mem_toDigits (by norm_num) (by norm_num) e
          revert this; decide
        · revert e; decide

/-- the names of a program never clash: what remains of the conditions on a run are the confusion of constraints, split constants and
repeated public inputs -/
theorem runOK_of [Fact q.Prime] (hq : 2 ^ 63 ≤ q) {p : Program} (hp : p.ok) {m : Mem} (h : program p.emit = some m) {n : Nat} {f : Factors} {w : W}
    (hx : execute H q n m = some (f, w)) (hf : Fin q p.main.names w) (hn : NoConfusion w.s) (hs : NoConstSplit w.s) (hd : p.publics.Nodup)
    (rand : Bool) : RunOK p.main.names p.publics rand w.s ∧ NoRandName p.main.names p.publics w.s := by
  have hM := exec_made hq hp h hx hf
  have hI := main_name hp
  have hatt : ∀ g ∈ w.s.c.gates, g.typ = .zeroOrOne → g.arith.ident ∈ p.main.names ∨ g.arith.ident ∈ w.s.c.computed := by
    intro g hg ht
    rcases (hM.att g (Or.inl hg)).arith (Or.inr ht) (hs g hg (Or.inr ht)) with h | ⟨g', hg' | hg', -, h2⟩
    · exact Or.inl h
    · rw [← h2, hM.wf.comp]; exact Or.inr (List.mem_map_of_mem hg')
    · rw [← h2]; exact Or.inr (hM.wf.drop _ hg')
  have hN := gate_name (exec_names hq hp h hx hf) hatt fun x hx => by
    obtain ⟨c, cs, rfl, -, h3⟩ := hI x hx
    exact ⟨by simp, h3⟩
  have i1 : ∀ x ∈ p.main.names, ¬ DigitFirst x := by
    rintro x hx ⟨d, ds, e, hd⟩
    obtain ⟨c, cs, rfl, h2, -⟩ := hI x hx
    cases e
    rw [h2] at hd; cases hd
  have one : DigitFirst oneName := ⟨'1', [], rfl, by decide⟩
  have rin : ∀ x ∈ [randIn, randOut], x ∉ oneName :: p.publics ∧ x ∉ p.main.names ∧ x ∉ w.s.c.computed := by
    intro x hx
    have hat : '@' ∈ x := by
      simp only [List.mem_cons, List.not_mem_nil, or_false] at hx
      rcases hx with rfl | rfl <;> decide
    have h1 : x ∉ p.main.names := fun e => by obtain ⟨_, _, _, _, h⟩ := hI x e; exact h hat
    refine ⟨?_, h1, fun e => (hN x e).2.2 hat⟩
    intro e
    rcases List.mem_cons.mp e with rfl | e
    · revert hat; decide
    · exact h1 (hp.pubs x e)
  refine ⟨⟨hn, hs, ?_, ⟨fun e => i1 _ e one, fun e => ?_⟩, fun x hx e => i1 x hx (hN x e).1, fun _ => rin⟩, rin randIn (by simp)⟩
  · exact List.nodup_cons.mpr ⟨fun e => i1 _ (hp.pubs _ e) one, hd⟩
  · have := (hN _ e).2.1
    simp [oneName] at this

end APS.Prog
