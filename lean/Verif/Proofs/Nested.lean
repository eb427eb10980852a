import Verif.Spec.Nested
import Verif.Proofs.ParseBrackets

/-! Nested parts and if chains. -/
namespace APS.Prog
open APS.Lex (Token TokenType)
open APS.Parse (Constraint prefix_append_cases prefix_cons_iff')
open APS.ProgSpec

/-- change of the nesting level -/
def lv1 (c : Constraint) : Int :=
  (if opensNested c.output.type then 1 else 0) - (if c.output.type = .nestedEnd then 1 else 0)
def lv : List Constraint → Int
  | [] => 0
  | c :: cs => lv1 c + lv cs

theorem lv_append (a b : List Constraint) : lv (a ++ b) = lv a + lv b := by
  induction a with
  | nil => simp [lv]
  | cons c a ih => simp only [List.cons_append, lv, ih]; omega

/-- the level never falls below the one at the start and ends there -/
def Even (l : List Constraint) : Prop := lv l = 0 ∧ ∀ p, p <+: l → 0 ≤ lv p

theorem Even.nil : Even [] := ⟨rfl, fun p hp => by
  have : p = [] := by simpa using hp
  subst this; simp [lv]⟩
theorem Even.append {a b} (ha : Even a) (hb : Even b) : Even (a ++ b) := by
  refine ⟨by rw [lv_append, ha.1, hb.1]; rfl, fun p hp => ?_⟩
  rcases prefix_append_cases hp with h | ⟨c, rfl, hc⟩
  · exact ha.2 p h
  · rw [lv_append, ha.1]
    have := hb.2 c hc
    omega
theorem Even.single {c : Constraint} (h : lv1 c = 0) : Even [c] := by
  refine ⟨by simp [lv, h], fun p hp => ?_⟩
  rcases prefix_cons_iff'.1 hp with rfl | ⟨p', rfl, hp'⟩
  · simp [lv]
  · have : p' = [] := by simpa using hp'
    subst this
    simp [lv, h]
theorem lv_end : lv1 nestedEnd = -1 := by decide
theorem lv_chainEnd : lv1 chainEnd = 0 := by decide
theorem lv_opens {c : Constraint} (h : opensNested c.output.type = true) : lv1 c = 1 := by
  have : c.output.type ≠ .nestedEnd := by rintro h'; rw [h'] at h; simp [opensNested] at h
  simp [lv1, h, this]
theorem Even.wrap {c : Constraint} (h : opensNested c.output.type = true) {l} (hl : Even l) :
    Even (c :: (l ++ [nestedEnd])) := by
  have h1 := lv_opens h
  refine ⟨by simp [lv, lv_append, h1, hl.1, lv_end], fun p hp => ?_⟩
  rcases prefix_cons_iff'.1 hp with rfl | ⟨p', rfl, hp'⟩
  · simp [lv]
  · simp only [lv, h1]
    rcases prefix_append_cases hp' with h | ⟨q, rfl, hq⟩
    · have := hl.2 _ h; omega
    · rw [lv_append, hl.1]
      rcases prefix_cons_iff'.1 hq with rfl | ⟨p', rfl, hp'⟩
      · simp [lv]
      · have : p' = [] := by simpa using hp'
        subst this
        simp [lv, lv_end]

theorem opens_of_block {t : TokenType} (h : t = .forT ∨ t = .functionDefine) : opensNested t = true := by
  rcases h with rfl | rfl <;> rfl

mutual
theorem even_emit : ∀ s : Code, s.ok → Even (emit s)
  | .simple c, h => by
    unfold Code.ok at h; unfold emit
    exact .single (by simp [lv1, h.1, h.2.1])
  | .block c body, h => by
    unfold Code.ok at h; unfold emit
    exact .wrap (opens_of_block h.1) (even_emitAll body h.2)
  | .chain c body more, h => by
    unfold Code.ok at h; unfold emit
    have h1 : Even (c :: (emitAll body ++ [nestedEnd])) := .wrap (by rw [h.1]; rfl) (even_emitAll body h.2.1)
    have h2 := even_branches more h.2.2
    have h3 : Even [chainEnd] := .single lv_chainEnd
    have := h1.append (h2.append h3)
    simpa using this
theorem even_emitAll : ∀ ss : List Code, okCodes ss → Even (emitAll ss)
  | [], _ => by unfold emitAll; exact .nil
  | s :: ss, h => by
    unfold okCodes at h; unfold emitAll
    exact (even_emit s h.1).append (even_emitAll ss h.2)
theorem even_branches : ∀ bs : List (Constraint × List Code), okBranches bs → Even (emitBranches bs)
  | [], _ => by unfold emitBranches; exact .nil
  | b :: bs, h => by
    unfold okBranches at h; unfold emitBranches
    exact (even_branch b h.1).append (even_branches bs h.2)
theorem even_branch : ∀ b : Constraint × List Code, okBranch b → Even (emitBranch b)
  | (c, body), h => by
    unfold okBranch at h; unfold emitBranch
    exact .wrap (by rw [h.1]; rfl) (even_emitAll body h.2)
end

theorem nestedScan_skip : ∀ (l : List Constraint) (ctr : Int) (r : List Constraint),
    (∀ c p, c :: p <+: l → 1 ≤ ctr + lv (c :: p)) →
    nestedScan ctr (l ++ r) = (nestedScan (ctr + lv l) r).map fun x => (l ++ x.1, x.2) := by
  intro l
  induction l with
  | nil => intro ctr r _; simp [lv]
  | cons c l ih =>
    intro ctr r h
    rw [List.cons_append]
    conv_lhs => unfold nestedScan
    have e : (if c.output.type = .nestedEnd then (if opensNested c.output.type then ctr + 1 else ctr) - 1
        else if opensNested c.output.type then ctr + 1 else ctr) = ctr + lv1 c := by
      unfold lv1; split_ifs <;> omega
    simp only [e]
    have h0 := h c [] (by simp)
    simp only [lv] at h0
    rw [if_neg (by omega)]
    rw [ih]
    · simp only [lv, Option.map_map, Int.add_assoc]
      rfl
    · intro d p hp
      have := h c (d :: p) (by simpa using hp)
      simp only [lv] at this ⊢
      omega

/-- a nested part is split off exactly, whatever is nested inside -/
theorem split_nested {c : Constraint} (hc : opensNested c.output.type = true) {l : List Constraint} (hl : Even l) (r) :
    splitAtNestedEnd (c :: (l ++ nestedEnd :: r)) = some (c :: l, r) := by
  unfold splitAtNestedEnd
  have h1 := lv_opens hc
  have := nestedScan_skip (c :: l) 0 (nestedEnd :: r) (by
    intro d p hp
    rw [List.cons_prefix_cons] at hp
    obtain ⟨rfl, hp⟩ := hp
    have := hl.2 p hp
    simp only [lv, h1]
    omega)
  rw [List.cons_append] at this
  rw [this]
  simp only [lv, h1, hl.1]
  unfold nestedScan
  simp [nestedEnd, opensNested, Constraint.output]

theorem split_unclosed {c : Constraint} (hc : opensNested c.output.type = true) {l : List Constraint}
    (hl : ∀ p, p <+: l → 0 ≤ lv p) : splitAtNestedEnd (c :: l) = none := by
  unfold splitAtNestedEnd
  have h1 := lv_opens hc
  have := nestedScan_skip (c :: l) 0 [] (by
    intro d p hp
    rw [List.cons_prefix_cons] at hp
    obtain ⟨rfl, hp⟩ := hp
    have := hl p hp
    simp only [lv, h1]
    omega)
  rw [List.append_nil] at this
  rw [this]
  simp [nestedScan]

/-- no chain ends in the list -/
def NoChain (l : List Constraint) : Prop := ∀ c ∈ l, c.output.type ≠ .ifElseEnd

theorem splitAtIfEnd_at : ∀ {l : List Constraint}, NoChain l → ∀ r, splitAtIfEnd (l ++ chainEnd :: r) = some (l, chainEnd :: r) := by
  intro l
  induction l with
  | nil => intro _ r; simp [splitAtIfEnd, chainEnd, Constraint.output]
  | cons c l ih =>
    intro h r
    simp only [List.cons_append, splitAtIfEnd, if_neg (h c (by simp))]
    rw [ih (fun d hd => h d (by simp [hd]))]
    rfl

/-- the constraints before the first chain end -/
def Cut (l pre post : List Constraint) : Prop := l = pre ++ chainEnd :: post ∧ NoChain pre

mutual
theorem cut_emit : ∀ s : Code, s.ok → (s.hasIf = false ∧ NoChain (emit s)) ∨ (s.hasIf = true ∧ ∃ pre post, Cut (emit s) pre post)
  | .simple c, h => by
    unfold Code.ok at h
    refine Or.inl ⟨rfl, ?_⟩
    unfold emit
    intro d hd
    simp at hd
    subst hd
    exact h.2.2
  | .block c body, h => by
    unfold Code.ok at h
    have hc : c.output.type ≠ .ifElseEnd := by rcases h.1 with h | h <;> rw [h] <;> decide
    unfold emit Code.hasIf
    rcases cut_emitAll body h.2 with ⟨h1, h2⟩ | ⟨h1, pre, post, h2, h3⟩
    · refine Or.inl ⟨h1, ?_⟩
      intro d hd
      simp only [List.mem_cons, List.mem_append, List.not_mem_nil, or_false] at hd
      rcases hd with rfl | hd | rfl
      · exact hc
      · exact h2 d hd
      · decide
    · refine Or.inr ⟨h1, c :: pre, post ++ [nestedEnd], by simp [h2], ?_⟩
      intro d hd
      rcases List.mem_cons.1 hd with rfl | hd
      · exact hc
      · exact h3 d hd
  | .chain c body more, h => by
    unfold Code.ok at h
    have hc : c.output.type ≠ .ifElseEnd := by rw [h.1]; decide
    refine Or.inr ⟨rfl, ?_⟩
    unfold emit
    rcases cut_emitAll body h.2.1 with ⟨h1, h2⟩ | ⟨h1, pre, post, h2, h3⟩
    · have hpre : NoChain (c :: (emitAll body ++ [nestedEnd])) := by
        intro d hd
        simp only [List.mem_cons, List.mem_append, List.not_mem_nil, or_false] at hd
        rcases hd with rfl | hd | rfl
        · exact hc
        · exact h2 d hd
        · decide
      rcases cut_branches more h.2.2 with g2 | ⟨pre, post, g2, g3⟩
      · refine ⟨c :: (emitAll body ++ [nestedEnd]) ++ emitBranches more, [], by simp, ?_⟩
        intro d hd
        rcases List.mem_append.1 hd with hd | hd
        · exact hpre d hd
        · exact g2 d hd
      · refine ⟨c :: (emitAll body ++ [nestedEnd]) ++ pre, post ++ [chainEnd], by simp [g2], ?_⟩
        intro d hd
        rcases List.mem_append.1 hd with hd | hd
        · exact hpre d hd
        · exact g3 d hd
    · refine ⟨c :: pre, post ++ nestedEnd :: (emitBranches more ++ [chainEnd]), by simp [h2], ?_⟩
      intro d hd
      rcases List.mem_cons.1 hd with rfl | hd
      · exact hc
      · exact h3 d hd
theorem cut_emitAll : ∀ ss : List Code, okCodes ss →
    (hasIfs ss = false ∧ NoChain (emitAll ss)) ∨ (hasIfs ss = true ∧ ∃ pre post, Cut (emitAll ss) pre post)
  | [], _ => by
    refine Or.inl ⟨rfl, ?_⟩
    unfold emitAll
    intro d hd; simp at hd
  | s :: ss, h => by
    unfold okCodes at h
    unfold emitAll hasIfs
    rcases cut_emit s h.1 with ⟨h1, h2⟩ | ⟨h1, pre, post, h2, h3⟩
    · rcases cut_emitAll ss h.2 with ⟨g1, g2⟩ | ⟨g1, pre, post, g2, g3⟩
      · refine Or.inl ⟨by simp [h1, g1], ?_⟩
        intro d hd
        rcases List.mem_append.1 hd with hd | hd
        · exact h2 d hd
        · exact g2 d hd
      · refine Or.inr ⟨by simp [g1], emit s ++ pre, post, by simp [g2], ?_⟩
        intro d hd
        rcases List.mem_append.1 hd with hd | hd
        · exact h2 d hd
        · exact g3 d hd
    · exact Or.inr ⟨by simp [h1], pre, post ++ emitAll ss, by simp [h2], h3⟩
theorem cut_branches : ∀ bs : List (Constraint × List Code), okBranches bs →
    NoChain (emitBranches bs) ∨ ∃ pre post, Cut (emitBranches bs) pre post
  | [], _ => by
    unfold emitBranches
    exact Or.inl (by intro d hd; simp at hd)
  | b :: bs, h => by
    unfold okBranches at h
    unfold emitBranches
    rcases cut_branch b h.1 with h2 | ⟨pre, post, h2, h3⟩
    · rcases cut_branches bs h.2 with g2 | ⟨pre, post, g2, g3⟩
      · left
        intro d hd
        rcases List.mem_append.1 hd with hd | hd
        · exact h2 d hd
        · exact g2 d hd
      · refine Or.inr ⟨emitBranch b ++ pre, post, by simp [g2], ?_⟩
        intro d hd
        rcases List.mem_append.1 hd with hd | hd
        · exact h2 d hd
        · exact g3 d hd
    · exact Or.inr ⟨pre, post ++ emitBranches bs, by simp [h2], h3⟩
theorem cut_branch : ∀ b : Constraint × List Code, okBranch b →
    NoChain (emitBranch b) ∨ ∃ pre post, Cut (emitBranch b) pre post
  | (c, body), h => by
    unfold okBranch at h
    have hc : c.output.type ≠ .ifElseEnd := by rw [h.1]; decide
    unfold emitBranch
    rcases cut_emitAll body h.2 with ⟨h1, h2⟩ | ⟨h1, pre, post, h2, h3⟩
    · left
      intro d hd
      simp only [List.mem_cons, List.mem_append, List.not_mem_nil, or_false] at hd
      rcases hd with rfl | hd | rfl
      · exact hc
      · exact h2 d hd
      · decide
    · refine Or.inr ⟨c :: pre, post ++ [nestedEnd], by simp [h2], ?_⟩
      intro d hd
      rcases List.mem_cons.1 hd with rfl | hd
      · exact hc
      · exact h3 d hd
end

theorem noChain_all {ss : List Code} (h : okCodes ss) (hi : hasIfs ss = false) : NoChain (emitAll ss) := by
  rcases cut_emitAll ss h with ⟨_, h2⟩ | ⟨h1, _⟩
  · exact h2
  · rw [hi] at h1; simp at h1

theorem cut_all {ss : List Code} (h : okCodes ss) (hi : hasIfs ss = true) : ∃ pre post, Cut (emitAll ss) pre post := by
  rcases cut_emitAll ss h with ⟨h1, _⟩ | ⟨_, h2⟩
  · rw [hi] at h1; simp at h1
  · exact h2

theorem noChain_branches : ∀ {bs : List (Constraint × List Code)}, okBranches bs → (bs.any fun b => hasIfs b.2) = false →
    NoChain (emitBranches bs) := by
  intro bs
  induction bs with
  | nil => intro _ _ d hd; simp [emitBranches] at hd
  | cons b bs ih =>
    intro h hi
    obtain ⟨c, body⟩ := b
    unfold okBranches okBranch at h
    simp only [List.any_cons, Bool.or_eq_false_iff] at hi
    have h1 := noChain_all h.1.2 hi.1
    have h2 := ih h.2 hi.2
    unfold emitBranches emitBranch
    intro d hd
    simp only [List.mem_cons, List.mem_append, List.not_mem_nil, or_false, List.cons_append] at hd
    rcases hd with rfl | (hd | rfl) | hd
    · rw [h.1.1]; decide
    · exact h1 d hd
    · decide
    · exact h2 d hd

/-- a chain without further chains inside is split off exactly -/
theorem split_chain {c : Constraint} {body : List Code} {more : List (Constraint × List Code)}
    (h : (Code.chain c body more).ok) (hi : nestedIf body more = false) (r : List Constraint) :
    splitAtIfEnd (emit (.chain c body more) ++ r) =
      some (c :: (emitAll body ++ nestedEnd :: emitBranches more), chainEnd :: r) := by
  unfold Code.ok at h
  simp only [nestedIf, Bool.or_eq_false_iff] at hi
  have h1 := noChain_all h.2.1 hi.1
  have h2 := noChain_branches h.2.2 hi.2
  have : NoChain (c :: (emitAll body ++ nestedEnd :: emitBranches more)) := by
    intro d hd
    simp only [List.mem_cons, List.mem_append] at hd
    rcases hd with rfl | hd | rfl | hd
    · rw [h.1]; decide
    · exact h1 d hd
    · decide
    · exact h2 d hd
  have e := splitAtIfEnd_at this r
  rw [← e]
  unfold emit
  simp

/-- the branches before one with a chain inside do not help -/
theorem branches_none : ∀ (bs : List (Constraint × List Code)), okBranches bs → (bs.any fun b => hasIfs b.2) = true →
    ∃ pre post, Cut (emitBranches bs) pre post ∧ ∀ n m cur, preCompile n m cur pre = none := by
  intro bs
  induction bs with
  | nil => intro _ h; simp at h
  | cons b bs ih =>
    intro h hi
    obtain ⟨c, body⟩ := b
    unfold okBranches okBranch at h
    have hc : c.output.type ≠ .ifElseEnd := by rw [h.1.1]; decide
    have ho : opensNested c.output.type = true := by rw [h.1.1]; rfl
    cases hb : hasIfs body with
    | true =>
      obtain ⟨pre, post, h2, h3⟩ := cut_all h.1.2 hb
      refine ⟨c :: pre, post ++ nestedEnd :: emitBranches bs, ⟨by simp only [emitBranches, emitBranch]; simp [h2], ?_⟩, ?_⟩
      · intro d hd
        rcases List.mem_cons.1 hd with rfl | hd
        · exact hc
        · exact h3 d hd
      · intro n m cur
        cases n with
        | zero => rfl
        | succ n =>
          have hs : splitAtNestedEnd (c :: pre) = none := by
            refine split_unclosed ho ?_
            intro p hp
            refine (even_emitAll body h.1.2).2 p (hp.trans ?_)
            rw [h2]; exact List.prefix_append _ _
          unfold preCompile
          simp only [h.1.1, hs]
          rfl
    | false =>
      simp only [List.any_cons, hb, Bool.false_or] at hi
      obtain ⟨pre, post, ⟨g1, g2⟩, g3⟩ := ih h.2 hi
      refine ⟨c :: (emitAll body ++ nestedEnd :: pre), post, ⟨by simp only [emitBranches, emitBranch]; simp [g1], ?_⟩, ?_⟩
      · intro d hd
        simp only [List.mem_cons, List.mem_append] at hd
        rcases hd with rfl | hd | rfl | hd
        · exact hc
        · exact noChain_all h.1.2 hb d hd
        · decide
        · exact g2 d hd
      · intro n m cur
        cases n with
        | zero => rfl
        | succ n =>
          unfold preCompile
          simp only [h.1.1, split_nested ho (even_emitAll body h.1.2)]
          simp [g3]

/-- a chain with a further chain inside crashes the compiler -/
theorem nested_panics {c : Constraint} {body : List Code} {more : List (Constraint × List Code)}
    (h : (Code.chain c body more).ok) (hi : nestedIf body more = true) (r : List Constraint) (n : Nat) (m : Mem) (cur : Nat) :
    preCompile n m cur (emit (.chain c body more) ++ r) = none := by
  unfold Code.ok at h
  have hc : c.output.type ≠ .ifElseEnd := by rw [h.1]; decide
  have ho : opensNested c.output.type = true := by rw [h.1]; rfl
  have he : emit (.chain c body more) ++ r = c :: (emitAll body ++ nestedEnd :: (emitBranches more ++ chainEnd :: r)) := by
    unfold emit; simp
  rw [he]
  cases n with
  | zero => rfl
  | succ n =>
    unfold preCompile
    simp only [h.1]
    cases hb : hasIfs body with
    | true =>
      obtain ⟨pre, post, h2, h3⟩ := cut_all h.2.1 hb
      have hs : splitAtIfEnd (c :: (emitAll body ++ nestedEnd :: (emitBranches more ++ chainEnd :: r))) =
          some (c :: pre, chainEnd :: (post ++ nestedEnd :: (emitBranches more ++ chainEnd :: r))) := by
        rw [h2]
        have := splitAtIfEnd_at (l := c :: pre) (by
          intro d hd
          rcases List.mem_cons.1 hd with rfl | hd
          · exact hc
          · exact h3 d hd) (post ++ nestedEnd :: (emitBranches more ++ chainEnd :: r))
        rw [← this]; simp
      have hu : splitAtNestedEnd (c :: pre) = none := by
        refine split_unclosed ho ?_
        intro p hp
        refine (even_emitAll body h.2.1).2 p (hp.trans ?_)
        rw [h2]; exact List.prefix_append _ _
      simp [hs, hu]
    | false =>
      simp only [nestedIf, hb, Bool.false_or] at hi
      obtain ⟨pre, post, ⟨g1, g2⟩, g3⟩ := branches_none more h.2.2 hi
      have hs : splitAtIfEnd (c :: (emitAll body ++ nestedEnd :: (emitBranches more ++ chainEnd :: r))) =
          some (c :: (emitAll body ++ nestedEnd :: pre), chainEnd :: (post ++ chainEnd :: r)) := by
        rw [g1]
        have := splitAtIfEnd_at (l := c :: (emitAll body ++ nestedEnd :: pre)) (by
          intro d hd
          simp only [List.mem_cons, List.mem_append] at hd
          rcases hd with rfl | hd | rfl | hd
          · exact hc
          · exact noChain_all h.2.1 hb d hd
          · decide
          · exact g2 d hd) (post ++ chainEnd :: r)
        rw [← this]; simp
      simp [hs, split_nested ho (even_emitAll body h.2.1), g3]

end APS.Prog
