import Verif.Spec.Parser
import Mathlib.Data.List.Basic
import Mathlib.Tactic.Linarith

/-! Bracket scanning. -/
namespace APS.Parse
open APS.Lex (Token TokenType)
open APS.ParseSpec

theorem depth_append (op cl : List Char) (a b : List Token) : depth op cl (a ++ b) = depth op cl a + depth op cl b := by
  induction a with
  | nil => simp [depth]
  | cons t a ih => simp only [List.cons_append, depth, ih]; omega

theorem prefix_append_cases {α} {p a b : List α} (h : p <+: a ++ b) : p <+: a ∨ ∃ c, p = a ++ c ∧ c <+: b := by
  induction a generalizing p with
  | nil => exact Or.inr ⟨p, by simp, by simpa using h⟩
  | cons x a ih =>
    rcases List.prefix_cons_iff.1 h with rfl | ⟨p', rfl, hp'⟩
    · exact Or.inl (by simp)
    · rcases ih hp' with h | ⟨c, rfl, hc⟩
      · exact Or.inl (by simpa using h)
      · exact Or.inr ⟨c, by simp, hc⟩

theorem prefix_cons_iff' {α} {p : List α} {t : α} {ts : List α} : p <+: t :: ts ↔ p = [] ∨ ∃ p', p = t :: p' ∧ p' <+: ts := by
  rw [List.prefix_cons_iff]

theorem closeScan_iff {op cl : List Char} (hne : op ≠ cl) : ∀ (ts : List Token) (ctr : Int) (acc x r), 1 ≤ ctr →
    (closeScan op cl ctr acc ts = some (x, r) ↔
      ∃ l t, ts = l ++ t :: r ∧ t.text = cl ∧ x = acc.reverse ++ l ∧ ctr + depth op cl l = 1 ∧
        ∀ p, p <+: l → 1 ≤ ctr + depth op cl p) := by
  intro ts
  induction ts with
  | nil =>
    intro ctr acc x r _
    simp [closeScan]
  | cons u us ih =>
    intro ctr acc x r hc
    simp only [closeScan]
    by_cases hcl : u.text = cl
    · have hop : u.text ≠ op := fun h => hne (h.symm.trans hcl)
      rw [if_pos hcl, if_neg hop]
      by_cases h0 : ctr - 1 = 0
      · rw [if_pos h0]
        constructor
        · intro h
          simp only [Option.some.injEq, Prod.mk.injEq] at h
          refine ⟨[], u, by simp [h.2], hcl, by simp [h.1], by simp [depth]; omega, ?_⟩
          intro p hp
          have : p = [] := by simpa using hp
          subst this
          simp [depth]; omega
        · rintro ⟨l, t, h1, h2, h3, h4, h5⟩
          cases l with
          | nil => simp at h1; simp [h3, h1.2]
          | cons v l =>
            exfalso
            simp at h1
            have := h5 [v] (by simp)
            rw [← h1.1] at this
            simp [depth, hcl] at this
            rw [if_neg hne.symm] at this
            omega
      · rw [if_neg h0, ih _ _ _ _ (by omega)]
        constructor
        · rintro ⟨l, t, h1, h2, h3, h4, h5⟩
          refine ⟨u :: l, t, by simp [h1], h2, by simp [h3], ?_, ?_⟩
          · simp only [depth, if_pos hcl, if_neg hop]; omega
          · intro p hp
            rcases prefix_cons_iff'.1 hp with rfl | ⟨p', rfl, hp'⟩
            · simp [depth]; omega
            · have := h5 p' hp'
              simp only [depth, if_pos hcl, if_neg hop]; omega
        · rintro ⟨l, t, h1, h2, h3, h4, h5⟩
          cases l with
          | nil =>
            exfalso
            simp [depth] at h4
            omega
          | cons v l =>
            simp at h1
            obtain ⟨rfl, h1⟩ := h1
            simp only [depth, if_pos hcl, if_neg hop] at h4
            refine ⟨l, t, h1, h2, by simp [h3], by omega, ?_⟩
            intro p hp
            have := h5 (u :: p) (by simpa using hp)
            simp only [depth, if_pos hcl, if_neg hop] at this
            omega
    · rw [if_neg hcl]
      have hd : ∀ l, depth op cl (u :: l) = (if u.text = op then 1 else 0) + depth op cl l := by
        intro l; simp [depth, hcl]
      have hce : (if u.text = op then ctr + 1 else ctr) = ctr + (if u.text = op then 1 else 0) := by split_ifs <;> simp
      rw [hce, ih _ _ _ _ (by split_ifs <;> omega)]
      constructor
      · rintro ⟨l, t, h1, h2, h3, h4, h5⟩
        refine ⟨u :: l, t, by simp [h1], h2, by simp [h3], ?_, ?_⟩
        · rw [hd]; omega
        · intro p hp
          rcases prefix_cons_iff'.1 hp with rfl | ⟨p', rfl, hp'⟩
          · simp [depth]; omega
          · have := h5 p' hp'
            rw [hd]; omega
      · rintro ⟨l, t, h1, h2, h3, h4, h5⟩
        cases l with
        | nil => simp at h1; exact absurd (h1.1 ▸ h2) hcl
        | cons v l =>
          simp at h1
          obtain ⟨rfl, h1⟩ := h1
          rw [hd] at h4
          refine ⟨l, t, h1, h2, by simp [h3], by omega, ?_⟩
          intro p hp
          have := h5 (u :: p) (by simpa using hp)
          rw [hd] at this
          omega

theorem closeScan_bal {op cl : List Char} (hne : op ≠ cl) (ts : List Token) (acc x r) :
    closeScan op cl 1 acc ts = some (x, r) ↔
      ∃ l t, ts = l ++ t :: r ∧ t.text = cl ∧ x = acc.reverse ++ l ∧ Balanced op cl l := by
  rw [closeScan_iff hne ts 1 acc x r le_rfl]
  constructor
  · rintro ⟨l, t, h1, h2, h3, h4, h5⟩
    exact ⟨l, t, h1, h2, h3, by omega, fun p hp => by have := h5 p hp; omega⟩
  · rintro ⟨l, t, h1, h2, h3, h4, h5⟩
    exact ⟨l, t, h1, h2, h3, by omega, fun p hp => by have := h5 p hp; omega⟩

/-- the list starts behind the opening bracket -/
theorem split_inside {op cl : List Char} (hne : op ≠ cl) {u : Token} {us : List Token} (hu : u.text ≠ op) (l r) :
    splitAtClosing op cl (u :: us) = some (some (l, r)) ↔
      ∃ t, u :: us = l ++ t :: r ∧ t.text = cl ∧ Balanced op cl l := by
  simp only [splitAtClosing, if_pos hu, Option.some.injEq]
  rw [closeScan_bal hne]
  constructor
  · rintro ⟨l', t, h1, h2, h3, h4⟩
    simp at h3
    subst h3
    exact ⟨t, h1, h2, h4⟩
  · rintro ⟨t, h1, h2, h3⟩
    exact ⟨l, t, h1, h2, by simp, h3⟩

/-- the list starts with the opening bracket -/
theorem split_open {op cl : List Char} (hne : op ≠ cl) {u : Token} {us : List Token} (hu : u.text = op) (l r) :
    splitAtClosing op cl (u :: us) = some (some (l, r)) ↔
      ∃ t, us = l ++ t :: r ∧ t.text = cl ∧ Balanced op cl l := by
  have hcl : u.text ≠ cl := fun h => hne (hu.symm.trans h)
  have : closeScan op cl 0 [] (u :: us) = closeScan op cl 1 [u] us := by
    simp [closeScan, hu, hne]
  simp only [splitAtClosing, hu, ne_eq, not_true_eq_false, if_false, Option.some.injEq, this, Option.map_eq_some_iff]
  constructor
  · rintro ⟨⟨x, r'⟩, h, he⟩
    rw [closeScan_bal hne] at h
    obtain ⟨l', t, h1, h2, h3, h4⟩ := h
    simp at he
    obtain ⟨he1, rfl⟩ := he
    subst h3
    simp at he1
    subst he1
    exact ⟨t, h1, h2, h4⟩
  · rintro ⟨t, h1, h2, h3⟩
    refine ⟨(u :: l, r), ?_, by simp⟩
    rw [closeScan_bal hne]
    exact ⟨l, t, h1, h2, by simp, h3⟩

theorem _root_.APS.ParseSpec.Balanced.nil (op cl) : Balanced op cl [] := by
  refine ⟨rfl, fun p hp => ?_⟩
  have : p = [] := by simpa using hp
  subst this
  simp [depth]

theorem _root_.APS.ParseSpec.Balanced.append {op cl a b} (ha : Balanced op cl a) (hb : Balanced op cl b) : Balanced op cl (a ++ b) := by
  refine ⟨by rw [depth_append, ha.1, hb.1]; rfl, fun p hp => ?_⟩
  rcases prefix_append_cases hp with h | ⟨c, rfl, hc⟩
  · exact ha.2 p h
  · rw [depth_append, ha.1]
    have := hb.2 c hc
    omega

theorem _root_.APS.ParseSpec.Balanced.single {op cl : List Char} {t : Token} (h1 : t.text ≠ op) (h2 : t.text ≠ cl) : Balanced op cl [t] := by
  refine ⟨by simp [depth, h1, h2], fun p hp => ?_⟩
  rcases prefix_cons_iff'.1 hp with rfl | ⟨p', rfl, hp'⟩
  · simp [depth]
  · have : p' = [] := by simpa using hp'
    subst this
    simp [depth, h1, h2]

theorem _root_.APS.ParseSpec.Balanced.wrap {op cl : List Char} (hne : op ≠ cl) {o c : Token} (ho : o.text = op) (hc : c.text = cl) {l}
    (hl : Balanced op cl l) : Balanced op cl (o :: (l ++ [c])) := by
  have h1 : ∀ x, depth op cl (o :: x) = 1 + depth op cl x := by
    intro x; simp [depth, ho, hne]
  have h2 : depth op cl [c] = -1 := by simp [depth, hc, hne.symm]
  refine ⟨by rw [h1, depth_append, h2, hl.1]; rfl, fun p hp => ?_⟩
  rcases prefix_cons_iff'.1 hp with rfl | ⟨p', rfl, hp'⟩
  · simp [depth]
  · rw [h1]
    rcases prefix_append_cases hp' with h | ⟨q, rfl, hq⟩
    · have := hl.2 _ h; omega
    · rw [depth_append, hl.1]
      rcases prefix_cons_iff'.1 hq with rfl | ⟨p', rfl, hp'⟩
      · simp [depth]
      · have : p' = [] := by simpa using hp'
        subst this
        rw [h2]; rfl

/-- a balanced list is never split behind its end -/
theorem closeScan_none {op cl : List Char} (hne : op ≠ cl) {ts : List Token} (h : Balanced op cl ts) (acc) :
    closeScan op cl 1 acc ts = none := by
  cases e : closeScan op cl 1 acc ts with
  | none => rfl
  | some x =>
    obtain ⟨x, r⟩ := x
    rw [closeScan_bal hne] at e
    obtain ⟨l, t, h1, h2, h3, h4⟩ := e
    exfalso
    have := h.2 (l ++ [t]) ⟨r, by simp [h1]⟩
    rw [depth_append, h4.1] at this
    have hop : t.text ≠ op := fun h => hne (h.symm.trans h2)
    simp [depth, h2, hne.symm] at this

theorem split_none {op cl : List Char} (hne : op ≠ cl) {u : Token} {us : List Token} (hu : u.text ≠ op)
    (h : Balanced op cl (u :: us)) : splitAtClosing op cl (u :: us) = some none := by
  simp only [splitAtClosing, if_pos hu]
  rw [closeScan_none hne h]

end APS.Parse
