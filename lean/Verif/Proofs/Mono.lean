import Verif.Model.Program
import Verif.Proofs.Statement

/-! The identifiers of gates and the recorded static operands only grow during an execution. -/
namespace APS.Prog
open APS.Lex (Token TokenType)
open APS.Parse (Constraint)
open APS.Circuit

/-- names that begin with a digit -/
def Dig (n : Name) : Prop := ∃ c cs, n = c :: cs ∧ c.isDigit = true

/-- the computed names grow, the new ones begin with a digit -/
structure Grows (s s' : St) : Prop where
  sub : s.c.computed ⊆ s'.c.computed
  new : ∀ n ∈ s'.c.computed, n ∈ s.c.computed ∨ Dig n

theorem Grows.refl (s : St) : Grows s s := ⟨fun _ h => h, fun _ h => Or.inl h⟩

theorem Grows.trans {a b c : St} (h : Grows a b) (h' : Grows b c) : Grows a c :=
  ⟨fun _ x => h'.1 (h.1 x), fun n x => (h'.2 n x).elim (fun y => h.2 n y) Or.inr⟩

/-- gates and records grow -/
structure Mono (w w' : W) : Prop where
  grows : Grows w.s w'.s
  thrown : w.thrown ⊆ w'.thrown
  kept : w.kept ⊆ w'.kept

theorem Mono.computed {w w' : W} (h : Mono w w') : w.s.c.computed ⊆ w'.s.c.computed := h.grows.sub

theorem Mono.refl (w : W) : Mono w w := ⟨Grows.refl _, fun _ h => h, fun _ h => h⟩

theorem Mono.trans {a b c : W} (h : Mono a b) (h' : Mono b c) : Mono a c :=
  ⟨h.1.trans h'.1, fun _ x => h'.2 (h.2 x), fun _ x => h'.3 (h.3 x)⟩

theorem Mono.heap (w : W) (m : Mem) : Mono w { w with m := m } := ⟨Grows.refl _, fun _ h => h, fun _ h => h⟩

theorem Mono.keep (w : W) (m : Mem) (f : Factors) : Mono w { w with m := m, kept := w.kept ++ [f] } :=
  ⟨Grows.refl _, fun _ h => h, fun _ h => List.mem_append_left _ h⟩

theorem Mono.gates {w : W} {s : St} (h : Grows w.s s) : Mono w { w with s := s } :=
  ⟨h, fun _ h => h, fun _ h => h⟩

theorem digits_dig (n : Nat) (l : Name) : Dig (Nat.toDigits 10 n ++ l) := by
  cases h : Nat.toDigits 10 n with
  | nil => exact (Nat.toDigits_ne_nil h).elim
  | cons c cs => exact ⟨c, cs ++ l, rfl, Nat.isDigit_of_mem_toDigits (b := 10) (n := n) (by omega) (by omega) (by rw [h]; simp)⟩

theorem sig16_dig {n : Nat} {s : Name} (h : sig16 n = some s) : Dig s := by
  unfold sig16 at h
  simp only at h
  split at h
  · cases h
  · cases h
    obtain ⟨c, cs, h1, h2⟩ := digits_dig n []
    rw [List.append_nil] at h1
    rw [h1]
    exact ⟨c, cs.take 15, rfl, h2⟩

theorem withID_dig {H : Name → Nat} {g g' : Gate} (hg : g.ident = [] ∨ Dig g.ident) (h : withID H g = some g') : Dig g'.ident := by
  unfold withID at h
  split at h
  · unfold setAndGetID at h
    simp only [Option.map_eq_some_iff] at h
    obtain ⟨s, h1, rfl⟩ := h
    exact sig16_dig h1
  · rename_i hn
    cases h
    exact hg.resolve_left hn

theorem add_computed {H : Name → Nat} {s s' : St} {g g' : Gate} {post : Gate → Gate} (h : s.add H g post = some (s', g'))
    (hg : g.ident = [] ∨ Dig g.ident := by exact Or.inl rfl) : Grows s s' := by
  unfold St.add at h
  split at h
  · cases h
  · rename_i c' g1 hc
    cases h
    unfold Container.add at hc
    split at hc
    · cases hc
    · rename_i g2 hw
      split at hc
      · cases hc; exact ⟨fun _ h => h, fun _ h => Or.inl h⟩
      · cases hc
        refine ⟨fun _ h => List.mem_append_left _ h, fun n hn => ?_⟩
        rcases List.mem_append.mp hn with hn | hn
        · exact Or.inl hn
        · rw [List.mem_singleton] at hn
          subst hn
          exact Or.inr (withID_dig hg hw)

variable {q : Nat}

theorem mul_computed {H : Name → Nat} {l r f : Factors} {s s' : St} (h : mulGate H q l r s = some (f, s')) :
    Grows s s' := by
  rcases mulGate_eq h with ⟨-, -, rfl⟩ | ⟨_, _, _, _, -, ha, -⟩
  · exact Grows.refl _
  · exact add_computed ha

theorem div_computed {H : Name → Nat} {l r f : Factors} {s s' : St} (h : divGate H q l r s = some (f, s')) :
    Grows s s' := by
  rcases divGate_eq h with ⟨-, -, rfl⟩ | ⟨_, _, _, _, _, _, -, -, -, ha, -⟩
  · exact Grows.refl _
  · exact add_computed ha

theorem base_computed {H : Name → Nat} {l f : Factors} {s s' : St} (h : baseGate H l s = some (f, s')) :
    Grows s s' := by
  obtain ⟨_, ha, -⟩ := baseGate_eq h
  exact add_computed ha

theorem addGate_computed {H : Name → Nat} {l r f : Factors} {s s' : St} (h : addGateConstraint H q l r s = some (f, s')) :
    Grows s s' := by
  unfold addGateConstraint at h
  simp only [Option.bind_eq_bind, Option.bind_eq_some_iff, Prod.exists] at h
  obtain ⟨k, l', r', -, s1, g, ha, he⟩ := h
  cases he
  exact add_computed ha

theorem split_computed {H : Name → Nat} {f : Factors} {s s' : St} (h : splitGate H q f s = some s') :
    Grows s s' := by
  have loop : ∀ (z : Tok) (is : List Nat) (s s' : St), splitLoop H z is s = some s' → Grows s s' := by
    intro z is
    induction is with
    | nil => intro s s' h; cases h; exact Grows.refl _
    | cons i is ih =>
      intro s s' h
      simp only [splitLoop, Option.bind_eq_bind, Option.bind_eq_some_iff, Prod.exists] at h
      obtain ⟨s1, _, ha, hb⟩ := h
      exact (add_computed ha (Or.inr (digits_dig _ _))).trans (ih _ _ hb)
  unfold splitGate at h
  split at h
  · simp only [Option.bind_eq_bind, Option.bind_eq_some_iff, Prod.exists] at h
    obtain ⟨s1, h1, s2, _, ha, he⟩ := h
    cases he
    exact (loop _ _ _ _ h1).trans (add_computed ha)
  · cases h

theorem complete_computed {H : Name → Nat} {f : Factors} {s s' : St} (h : completeFunction H f s = some s') :
    Grows s s' := by
  rcases completeFunction_sig h with rfl | ⟨_, _, hs, ha⟩
  · exact Grows.refl _
  · exact add_computed ha (Or.inr (sig16_dig hs))

/-- a compilation that only grows -/
def MonoC (comp : Comp) : Prop := ∀ cur c w r w', comp cur c w = some (r, w') → Mono w w'

theorem static_mono {comp : Comp} (hc : MonoC comp) {cur : Nat} {c : Constraint} {w w' : W} {b : Bool}
    (h : checkStatic comp cur c w = some (b, w')) : Mono w w' := by
  unfold checkStatic at h
  split at h
  · simp only [Option.bind_eq_bind, Option.bind_eq_some_iff, Prod.exists] at h
    obtain ⟨a, w1, h1, b', w2, h2, h3⟩ := h
    have m1 := hc _ _ _ _ _ h1
    have m2 := hc _ _ _ _ _ h2
    have key : w' = { w2 with s := w.s, thrown := w2.thrown ++ [(a.facs, w1.s), (b'.facs, w2.s)] } := by
      split at h3
      · split at h3
        · repeat (split at h3; · cases h3; rfl)
          cases h3
        · cases h3
      · cases h3
    subst key
    exact ⟨Grows.refl _, fun _ x => List.mem_append_left _ (m2.2 (m1.2 x)), fun _ x => m2.3 (m1.3 x)⟩
  · cases h

theorem array_mono {comp : Comp} (hc : MonoC comp) {cur : Nat} : ∀ {is : List Constraint} {n n' : Name} {w w' : W},
    resolveArray comp cur is n w = some (n', w') → Mono w w' := by
  intro is
  induction is with
  | nil => intro n n' w w' h; cases h; exact Mono.refl _
  | cons i is ih =>
    intro n n' w w' h
    simp only [resolveArray, Option.bind_eq_bind, Option.bind_eq_some_iff, Prod.exists] at h
    obtain ⟨r, w1, h1, h2⟩ := h
    have m1 := hc _ _ _ _ _ h1
    split at h2
    · split at h2
      · split at h2
        · have m2 := ih h2
          exact ⟨m2.1, fun _ x => m2.2 (List.mem_append_left _ (m1.2 x)), fun _ x => m2.3 (m1.3 x)⟩
        · cases h2
      · cases h2
    · cases h2

theorem tasks_mono {comp : Comp} (hc : MonoC comp) {cur : Nat} : ∀ {ts : List Constraint} {r : Res} {w w' : W},
    execTasks comp cur ts w = some (r, w') → Mono w w' := by
  intro ts
  induction ts with
  | nil => intro r w w' h; cases h; exact Mono.refl _
  | cons t ts ih =>
    intro r w w' h
    simp only [execTasks, Option.bind_eq_bind, Option.bind_eq_some_iff, Prod.exists] at h
    obtain ⟨r1, w1, h1, h2⟩ := h
    have m1 := hc _ _ _ _ _ h1
    split at h2
    · cases h2; exact m1
    · exact m1.trans (ih h2)

theorem args_mono {comp : Comp} (hc : MonoC comp) {cur : Nat} : ∀ {vs : List Constraint} {as : List Nat} {w w' : W},
    callArgs q comp cur vs w = some (as, w') → Mono w w' := by
  intro ts
  induction ts with
  | nil => intro r w w' h; cases h; exact Mono.refl _
  | cons t ts ih =>
    intro r w w' h
    simp only [callArgs, Option.bind_eq_bind, Option.bind_eq_some_iff, Prod.exists] at h
    obtain ⟨r1, w1, h1, h2⟩ := h
    have m1 := hc _ _ _ _ _ h1
    split at h2
    · simp only [Option.bind_eq_some_iff, Prod.exists] at h2
      obtain ⟨as, w2, h2, h3⟩ := h2
      cases h3
      exact (m1.trans (Mono.heap _ _)).trans (ih h2)
    · simp only [Option.bind_eq_some_iff, Prod.exists] at h2
      obtain ⟨a, m, -, as, w2, h2, h3⟩ := h2
      cases h3
      exact (m1.trans (Mono.keep _ _ _)).trans (ih h2)

theorem user_mono {comp : Comp} (hc : MonoC comp) {cur : Nat} {n : Name} {args : List Constraint} {r : Res} {w w' : W}
    (h : callUser q comp cur n args w = some (r, w')) : Mono w w' := by
  simp only [callUser, Option.bind_eq_bind, Option.bind_eq_some_iff, Prod.exists] at h
  obtain ⟨f, -, nxt, m, -, as, w1, h1, ready, m', -, h2⟩ := h
  have m1 := (Mono.heap w m).trans (args_mono hc h1)
  split at h2
  · simp only [execFunction, Option.bind_eq_bind, Option.bind_eq_some_iff, Prod.exists] at h2
    obtain ⟨r1, w2, ⟨o, -, h2⟩, h3⟩ := h2
    cases h3
    exact (m1.trans (Mono.heap _ _)).trans (tasks_mono hc h2)
  · simp only [Option.bind_eq_some_iff] at h2
    obtain ⟨o, -, h3⟩ := h2
    cases h3
    exact m1.trans (Mono.heap _ _)

theorem operate_mono {H : Name → Nat} {comp : Comp} (hc : MonoC comp) {cur : Nat} {b : Bool} {is : List Constraint} {r : Res} {w w' : W}
    (h : operate H q comp cur b is w = some (r, w')) : Mono w w' := by
  unfold operate at h
  split at h
  · split at h
    · split at h
      · simp only [Option.bind_eq_bind, Option.bind_eq_some_iff, Prod.exists] at h
        obtain ⟨_, w1, h1, _, w2, h2, f, s, h3, h4⟩ := h
        cases h4
        exact ((hc _ _ _ _ _ h1).trans (hc _ _ _ _ _ h2)).trans (Mono.gates (mul_computed h3))
      · split at h
        · simp only [Option.bind_eq_bind, Option.bind_eq_some_iff, Prod.exists] at h
          obtain ⟨_, w1, h1, _, w2, h2, f, s, h3, h4⟩ := h
          cases h4
          exact ((hc _ _ _ _ _ h1).trans (hc _ _ _ _ _ h2)).trans (Mono.gates (div_computed h3))
        · split at h
          · simp only [Option.bind_eq_bind, Option.bind_eq_some_iff, Prod.exists] at h
            obtain ⟨_, w1, h1, _, w2, h2, h4⟩ := h
            cases h4
            exact (hc _ _ _ _ _ h1).trans (hc _ _ _ _ _ h2)
          · split at h
            · simp only [Option.bind_eq_bind, Option.bind_eq_some_iff, Prod.exists] at h
              obtain ⟨_, w1, h1, _, w2, h2, h4⟩ := h
              cases h4
              exact (hc _ _ _ _ _ h1).trans (hc _ _ _ _ _ h2)
            · cases h
    · cases h
  · cases h

theorem break_mono {comp : Comp} (hc : MonoC comp) {cur : Nat} : ∀ {vs : List Constraint} {w w' : W},
    breakArgs comp cur vs w = some w' → Mono w w' := by
  intro vs
  induction vs with
  | nil => intro w w' h; cases h; exact Mono.refl _
  | cons v vs ih =>
    intro w w' h
    simp only [breakArgs, Option.bind_eq_bind, Option.bind_eq_some_iff, Prod.exists] at h
    obtain ⟨_, w1, h1, h2⟩ := h
    exact (hc _ _ _ _ _ h1).trans (ih h2)

theorem callFunction_mono {H : Name → Nat} {comp : Comp} (hc : MonoC comp) {cur : Nat} {n : Name} {is : List Constraint} {r : Res} {w w' : W}
    (h : callFunction H q comp cur n is w = some (r, w')) : Mono w w' := by
  unfold callFunction at h
  split at h
  · simp only [Option.bind_eq_bind, Option.bind_eq_some_iff] at h
    obtain ⟨w1, h1, h2⟩ := h
    cases h2
    exact break_mono hc h1
  · split at h
    · split at h
      · simp only [Option.bind_eq_bind, Option.bind_eq_some_iff, Prod.exists] at h
        obtain ⟨_, w1, h1, s, h2, h3⟩ := h
        cases h3
        exact (hc _ _ _ _ _ h1).trans (Mono.gates (split_computed h2))
      · cases h
    · split at h
      · cases h
      · split at h
        · split at h
          · simp only [Option.bind_eq_bind, Option.bind_eq_some_iff, Prod.exists] at h
            obtain ⟨_, w1, h1, _, w2, h2, f, s, h3, h4⟩ := h
            cases h4
            exact ((hc _ _ _ _ _ h1).trans (hc _ _ _ _ _ h2)).trans (Mono.gates (addGate_computed h3))
          · cases h
        · split at h
          · split at h
            · simp only [Option.bind_eq_bind, Option.bind_eq_some_iff, Prod.exists] at h
              obtain ⟨_, w1, h1, f, s, h3, h4⟩ := h
              cases h4
              exact (hc _ _ _ _ _ h1).trans (Mono.gates (base_computed h3))
            · cases h
          · split at h
            · split at h
              · simp only [Option.bind_eq_bind, Option.bind_eq_some_iff, Prod.exists] at h
                obtain ⟨_, w1, h1, _, w2, h2, s, g, h3, h4⟩ := h
                cases h4
                exact ((hc _ _ _ _ _ h1).trans (hc _ _ _ _ _ h2)).trans (Mono.gates (add_computed h3))
              · cases h
            · exact user_mono hc h

theorem compile_mono (H : Name → Nat) (q : Nat) (n : Nat) : MonoC (compile H q n) := by
  induction n with
  | zero => intro cur c w r w' h; simp [compile] at h
  | succ n ih =>
    intro cur k w r w' h
    simp only [compile, compileStep] at h
    split at h
    · simp only [Option.map_eq_some_iff] at h
      obtain ⟨f, -, h⟩ := h
      cases h; exact Mono.refl _
    · simp only [Option.bind_eq_bind, Option.bind_eq_some_iff] at h
      obtain ⟨a, -, f, -, h⟩ := h
      split at h
      · cases h; exact Mono.refl _
      · split at h
        · simp only [Option.bind_eq_some_iff] at h
          obtain ⟨c, -, h⟩ := h
          exact ih _ _ _ _ _ h
        · cases h; exact Mono.refl _
    · split at h
      · simp only [Option.bind_eq_bind, Option.bind_eq_some_iff, Prod.exists] at h
        obtain ⟨go, w1, h1, h⟩ := h
        have m1 := static_mono ih h1
        split at h
        · simp only [Option.bind_eq_some_iff, Prod.exists] at h
          obtain ⟨r1, w2, h2, h⟩ := h
          have m2 := m1.trans (ih _ _ _ _ _ h2)
          split at h
          · cases h; exact m2
          · simp only [Option.bind_eq_some_iff, Prod.exists] at h
            obtain ⟨r2, w3, h3, h⟩ := h
            exact (m2.trans (ih _ _ _ _ _ h3)).trans (ih _ _ _ _ _ h)
        · cases h; exact m1
      · cases h
    · split at h
      · simp only [Option.bind_eq_bind, Option.bind_eq_some_iff] at h
        obtain ⟨f, -, c, -, h⟩ := h
        exact ih _ _ _ _ _ h
      · exact ih _ _ _ _ _ h
      · exact operate_mono ih h
    · split at h
      · cases h; exact Mono.refl _
      · simp only [Option.bind_eq_bind, Option.bind_eq_some_iff, Prod.exists] at h
        obtain ⟨r1, w1, h1, h⟩ := h
        cases h
        exact ih _ _ _ _ _ h1
      · exact operate_mono ih h
    · cases h; exact Mono.refl _
    · split at h
      · simp only [Option.bind_eq_bind, Option.bind_eq_some_iff, Prod.exists] at h
        obtain ⟨name, w1, h1, r1, w2, h2, h⟩ := h
        have m1 : Mono w w1 := by
          unfold targetName at h1
          split at h1
          · exact array_mono ih h1
          · cases h1; exact Mono.refl _
        have m2 := m1.trans (ih _ _ _ _ _ h2)
        simp only [assignTo, Option.bind_eq_bind, Option.bind_eq_some_iff] at h
        obtain ⟨owner, -, h⟩ := h
        split at h
        · simp only [Option.bind_eq_some_iff] at h
          obtain ⟨m, -, h⟩ := h
          cases h
          exact m2.trans (Mono.heap _ _)
        · simp only [Option.bind_eq_some_iff, Prod.exists] at h
          obtain ⟨a, m, -, m', -, h⟩ := h
          cases h
          exact m2.trans (Mono.keep _ _ _)
      · cases h
    · simp only [Option.bind_eq_bind, Option.bind_eq_some_iff, Prod.exists] at h
      obtain ⟨name, w1, h1, c, -, r1, w2, h2, h⟩ := h
      cases h
      exact (array_mono ih h1).trans (ih _ _ _ _ _ h2)
    · split at h
      · exact ih _ _ _ _ _ h
      · simp only [Option.bind_eq_bind, Option.bind_eq_some_iff, Prod.exists] at h
        obtain ⟨go, w1, h1, h⟩ := h
        have m1 := static_mono ih h1
        split at h
        · exact m1.trans (ih _ _ _ _ _ h)
        · cases h; exact m1
    · simp only [Option.bind_eq_bind, Option.bind_eq_some_iff, execFunction] at h
      obtain ⟨a, -, o, -, h⟩ := h
      exact tasks_mono ih h
    · exact callFunction_mono ih h
    · exact operate_mono ih h

end APS.Prog
