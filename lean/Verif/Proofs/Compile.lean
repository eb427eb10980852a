import Verif.Spec.Source
import Verif.Proofs.Factors

/-! Correctness of `compile` on straight-line programs. -/
namespace APS.Circuit
open APS.Spec

variable {q : Nat}

/-! ### keys, texts, well-formed forms -/

/-- what a factor refers to: `none` for a constant, the name otherwise -/
def Factor.key (f : Factor) : Option Name := if f.tok.isNum then none else some f.tok.ident

/-- number factors carry a text that denotes their value -/
def TextOK (q : Nat) (f : Factor) : Prop :=
  f.tok.isNum = true → ∃ v : Int, parseInt f.tok.ident = some v ∧ (v : ZMod q) = (f.mul : ZMod q)

/-- well-formed forms: non-empty, texts fit, every name at most once, at most one constant -/
structure GoodF (q : Nat) (f : Factors) : Prop where
  ne : f ≠ []
  text : ∀ x ∈ f, TextOK q x
  nodup : (f.map Factor.key).Nodup

theorem isDigit_range {c : Char} (h : c.isDigit = true) : '0'.toNat ≤ c.toNat ∧ c.toNat ≤ '9'.toNat := by
  simp only [Char.isDigit, Bool.and_eq_true, decide_eq_true_eq] at h
  exact ⟨by simpa using UInt32.le_iff_toNat_le.mp h.1, by simpa using UInt32.le_iff_toNat_le.mp h.2⟩

theorem parseNat_digits (l : Name) (h : ∀ c ∈ l, c.isDigit = true) (acc : Nat) :
    parseNat acc l = some (Nat.ofDigitChars 10 l acc) := by
  induction l generalizing acc with
  | nil => simp [parseNat]
  | cons c cs ih =>
    unfold parseNat
    rw [if_pos (isDigit_range (h c List.mem_cons_self)), ih (fun x hx => h x (List.mem_cons_of_mem _ hx)),
      Nat.ofDigitChars_cons]

theorem parseInt_digits (l : Name) (hne : l ≠ []) (h : ∀ c ∈ l, c.isDigit = true) :
    parseInt l = some (Nat.ofDigitChars 10 l 0 : Int) := by
  cases l with
  | nil => exact absurd rfl hne
  | cons c cs =>
    have hc : c ≠ '-' := by
      rintro rfl
      exact absurd (h '-' List.mem_cons_self) (by decide)
    unfold parseInt
    split
    · rename_i heq; cases heq
    · rename_i heq; cases heq; exact absurd rfl hc
    · rename_i heq; cases heq; exact absurd rfl hc
    · rename_i c' cs' _ heq
      cases heq
      rw [parseNat_digits _ h]; rfl

theorem parseInt_intStr (v : Int) : parseInt (intStr v) = some v := by
  unfold intStr
  have hd : ∀ n, ∀ c ∈ Nat.toDigits 10 n, c.isDigit = true := fun n c hc =>
    Nat.isDigit_of_mem_toDigits (by omega) (by omega) hc
  split
  · rename_i hv
    have hne : Nat.toDigits 10 v.natAbs ≠ [] := Nat.toDigits_ne_nil
    have : parseInt ('-' :: Nat.toDigits 10 v.natAbs) =
        (parseNat 0 (Nat.toDigits 10 v.natAbs)).map fun n => -(n : Int) := by
      cases hx : Nat.toDigits 10 v.natAbs with
      | nil => exact absurd hx hne
      | cons a b => rfl
    rw [this, parseNat_digits _ (hd _), Nat.ofDigitChars_ten_toDigits]
    show some (-(v.natAbs : Int)) = some v
    congr 1
    omega
  · rename_i hv
    rw [parseInt_digits _ Nat.toDigits_ne_nil (hd _), Nat.ofDigitChars_ten_toDigits]
    congr 1
    omega

theorem textOK_numF (v : Int) : TextOK q (numF v) := fun _ => ⟨v, parseInt_intStr v, rfl⟩
theorem textOK_argF (n : Name) (v : Int) : TextOK q (argF n v) := fun h => by simp [argF] at h
@[simp] theorem key_numF (v : Int) : (numF v).key = none := rfl
@[simp] theorem key_argF (n : Name) (v : Int) : (argF n v).key = some n := rfl

theorem goodF_argF (n : Name) (v : Int) : GoodF q [argF n v] :=
  ⟨by simp, fun x hx => by simp at hx; subst hx; exact textOK_argF n v, by simp⟩

/-! ### addFactors -/

theorem addFactor_key {l r s : Factor} (h : addFactor q l r = some s) :
    s.key = r.key ∧ l.key = r.key ∧ (TextOK q r → TextOK q s) := by
  unfold addFactor at h
  split at h
  · rename_i hn
    simp only [Bool.and_eq_true] at hn
    cases h
    exact ⟨by simp [Factor.key, hn, numF], by simp [Factor.key, hn], fun _ => textOK_numF _⟩
  · rename_i hn
    split at h
    · rename_i h2
      cases h
      refine ⟨rfl, by simp [Factor.key, h2.1, h2.2], fun hr hx => ?_⟩
      simp only at hx
      rw [h2.1, hx] at hn
      simp at hn
    · cases h

theorem addFactor_none {l r : Factor} (h : addFactor q l r = none) : l.key ≠ r.key := by
  unfold addFactor at h
  split at h
  · cases h
  · rename_i hn
    split at h
    · cases h
    · rename_i h2
      unfold Factor.key
      rcases hl : l.tok.isNum with _ | _ <;> rcases hr : r.tok.isNum with _ | _ <;> simp_all

theorem addInto_some {l : Factor} {r r' : Factors} (h : addInto q l r = some r') :
    r'.map Factor.key = r.map Factor.key ∧ ((∀ x ∈ r, TextOK q x) → ∀ x ∈ r', TextOK q x) := by
  induction r generalizing r' with
  | nil => simp [addInto] at h
  | cons x xs ih =>
    unfold addInto at h
    split at h
    · rename_i s hs
      cases h
      obtain ⟨h1, _, h3⟩ := addFactor_key hs
      refine ⟨by simp [h1], fun hx y hy => ?_⟩
      rcases List.mem_cons.mp hy with rfl | hy
      · exact h3 (hx x List.mem_cons_self)
      · exact hx y (List.mem_cons_of_mem _ hy)
    · cases hx : addInto q l xs with
      | none => simp [hx] at h
      | some y =>
        simp only [hx, Option.map_some, Option.some.injEq] at h
        subst h
        obtain ⟨h1, h2⟩ := ih hx
        refine ⟨by simp [h1], fun ht z hz => ?_⟩
        rcases List.mem_cons.mp hz with rfl | hz
        · exact ht _ List.mem_cons_self
        · exact h2 (fun w hw => ht w (List.mem_cons_of_mem _ hw)) z hz

theorem addInto_none {l : Factor} {r : Factors} (h : addInto q l r = none) : l.key ∉ r.map Factor.key := by
  induction r with
  | nil => simp
  | cons x xs ih =>
    unfold addInto at h
    split at h
    · cases h
    · rename_i hn
      have hx : addInto q l xs = none := by
        cases hx : addInto q l xs with
        | none => rfl
        | some y => simp [hx] at h
      rw [List.map_cons, List.mem_cons, not_or]
      exact ⟨addFactor_none hn, ih hx⟩

theorem addLoop_props (l : Factors) : ∀ r : Factors,
    (addLoop q l r).2.map Factor.key = r.map Factor.key ∧
    (addLoop q l r).1.Sublist l ∧
    (∀ x ∈ (addLoop q l r).1, x.key ∉ r.map Factor.key) ∧
    ((∀ x ∈ r, TextOK q x) → ∀ x ∈ (addLoop q l r).2, TextOK q x) := by
  induction l with
  | nil => intro r; simp [addLoop]
  | cons a as ih =>
    intro r
    unfold addLoop
    split
    · rename_i r' hr'
      obtain ⟨h1, h2⟩ := addInto_some hr'
      obtain ⟨i1, i2, i3, i4⟩ := ih r'
      rw [h1] at i1 i3
      exact ⟨i1, i2.trans (List.sublist_cons_self _ _), i3, fun ht => i4 (h2 ht)⟩
    · rename_i hn
      obtain ⟨i1, i2, i3, i4⟩ := ih r
      refine ⟨i1, i2.cons_cons _, ?_, i4⟩
      intro x hx
      rcases List.mem_cons.mp hx with rfl | hx
      · exact addInto_none hn
      · exact i3 x hx

theorem addFactors_keys (l r : Factors) : ∀ k ∈ (addFactors q l r).map Factor.key,
    k = none ∨ k ∈ l.map Factor.key ∨ k ∈ r.map Factor.key := by
  obtain ⟨h1, h2, _, _⟩ := addLoop_props (q := q) l r
  intro k hk
  unfold addFactors at hk
  simp only [] at hk
  split at hk
  · simp at hk; exact Or.inl hk
  · rw [List.map_append, List.mem_append] at hk
    rcases hk with hk | hk
    · exact Or.inr (Or.inl ((h2.map _).subset hk))
    · refine Or.inr (Or.inr ?_)
      rw [← h1]
      exact ((List.filter_sublist).map _).subset hk

theorem addFactors_good {l r : Factors} (hl : ∀ x ∈ l, TextOK q x) (hr : ∀ x ∈ r, TextOK q x)
    (nl : (l.map Factor.key).Nodup) (nr : (r.map Factor.key).Nodup) : GoodF q (addFactors q l r) := by
  obtain ⟨h1, h2, h3, h4⟩ := addLoop_props (q := q) l r
  unfold addFactors
  simp only []
  split
  · exact ⟨by simp, fun x hx => by simp at hx; subst hx; exact textOK_numF 0, by simp⟩
  · rename_i hne
    refine ⟨hne, ?_, ?_⟩
    · intro x hx
      rcases List.mem_append.mp hx with hx | hx
      · exact hl x (h2.subset hx)
      · exact h4 hr x (List.mem_of_mem_filter hx)
    · rw [List.map_append, List.nodup_append]
      refine ⟨nl.sublist (h2.map _), ?_, ?_⟩
      · refine List.Nodup.sublist ((List.filter_sublist).map _) ?_
        rw [h1]; exact nr
      · intro a ha b hb hab
        subst hab
        obtain ⟨x, hx, rfl⟩ := List.mem_map.mp ha
        refine h3 x hx ?_
        rw [← h1]
        exact ((List.filter_sublist).map _).subset hb

theorem negateFactors_good {l : Factors} (h : GoodF q l) : GoodF q (negateFactors l) := by
  have hk : (negateFactors l).map Factor.key = l.map Factor.key := by
    unfold negateFactors
    rw [List.map_map]
    refine List.map_congr_left fun x _ => ?_
    simp only [Function.comp]
    split
    · rename_i hx; simp [Factor.key, hx, numF]
    · rename_i hx; simp [Factor.key, hx]
  refine ⟨?_, ?_, by rw [hk]; exact h.nodup⟩
  · intro he; exact h.ne (by simpa [negateFactors] using he)
  · intro x hx
    obtain ⟨y, hy, rfl⟩ := List.mem_map.mp hx
    split
    · exact textOK_numF _
    · rename_i hn; intro hx; simp at hx; exact absurd hx hn

theorem negateFactors_keys (l : Factors) : (negateFactors l).map Factor.key = l.map Factor.key := by
  unfold negateFactors
  rw [List.map_map]
  refine List.map_congr_left fun x _ => ?_
  simp only [Function.comp]
  split
  · rename_i hx; simp [Factor.key, hx, numF]
  · rename_i hx; simp [Factor.key, hx]

/-! ### mulFactors by a number -/

theorem mulOne_num_right {l r s : Factor} (hr : r.tok.isNum = true) (h : mulOne q l r = some s) :
    s.key = l.key ∧ TextOK q s := by
  unfold mulOne at h
  rcases hl : l.tok.isNum with _ | _
  · simp only [hl, hr] at h; simp at h; subst h
    exact ⟨by simp [Factor.key, hl], fun hx => by simp [hl] at hx⟩
  · simp only [hl, hr] at h; simp at h; subst h
    exact ⟨by simp [Factor.key, hl, numF], textOK_numF _⟩

theorem mulOne_num_left {l r s : Factor} (hl : l.tok.isNum = true) (h : mulOne q l r = some s) :
    s.key = r.key ∧ TextOK q s := by
  unfold mulOne at h
  rcases hr : r.tok.isNum with _ | _
  · simp only [hl, hr] at h; simp at h; subst h
    exact ⟨by simp [Factor.key, hr], fun hx => by simp [hr] at hx⟩
  · simp only [hl, hr] at h; simp at h; subst h
    exact ⟨by simp [Factor.key, hr, numF], textOK_numF _⟩

theorem mapM_mulRow_keys {b : Factor} (hb : b.tok.isNum = true) : ∀ (l s : Factors),
    (l.mapM fun f => mulRow q f [b] f) = some s →
    s.map Factor.key = l.map Factor.key ∧ ∀ x ∈ s, TextOK q x := by
  intro l
  induction l with
  | nil => intro s h; simp at h; subst h; simp
  | cons x xs ih =>
    intro s h
    rw [List.mapM_cons] at h
    cases hy : mulOne q x b with
    | none => simp [mulRow, hy] at h
    | some y =>
      have hy' : mulRow q x [b] x = some y := by simp [mulRow, hy]
      rw [hy'] at h
      cases hs : xs.mapM fun f => mulRow q f [b] f with
      | none => rw [hs] at h; simp at h
      | some t =>
        rw [hs] at h
        simp at h
        subst h
        obtain ⟨h1, h2⟩ := ih t hs
        obtain ⟨g1, g2⟩ := mulOne_num_right hb hy
        exact ⟨by simp [h1, g1], fun z hz => by
          rcases List.mem_cons.mp hz with rfl | hz
          · exact g2
          · exact h2 z hz⟩

/-- the product with a constant is well-formed and mentions the names of the other operand only -/
theorem mulFactors_good {l r s : Factors} (hl : GoodF q l) (hr : GoodF q r)
    (h : isSingleNumber l = true ∨ isSingleNumber r = true) (hs : mulFactors q l r = some s) :
    (∀ x ∈ s, TextOK q x) ∧ (s.map Factor.key).Nodup ∧
    ∀ k ∈ s.map Factor.key, k = none ∨ k ∈ l.map Factor.key ∨ k ∈ r.map Factor.key := by
  unfold mulFactors at hs
  rcases h with h | h
  · obtain ⟨f, rfl, hf⟩ := isSingleNumber_iff.mp h
    by_cases hlt : [f].length < r.length
    · simp only [hlt, if_true] at hs
      obtain ⟨h1, h2⟩ := mapM_mulRow_keys hf r s hs
      exact ⟨h2, by rw [h1]; exact hr.nodup, fun k hk => by rw [h1] at hk; exact Or.inr (Or.inr hk)⟩
    · simp only [hlt, if_false] at hs
      obtain ⟨b, rfl⟩ : ∃ b, r = [b] := by
        match r, hr.ne, hlt with
        | [b], _, _ => exact ⟨b, rfl⟩
        | a :: b :: c, _, hlt => simp at hlt
      cases hy : mulOne q f b with
      | none => simp [mulRow, hy] at hs
      | some y =>
        simp [mulRow, hy] at hs
        subst hs
        obtain ⟨g1, g2⟩ := mulOne_num_left hf hy
        refine ⟨fun x hx => by simp at hx; subst hx; exact g2, by simp, fun k hk => ?_⟩
        simp at hk
        subst hk
        exact Or.inr (Or.inr (by simp [g1]))
  · obtain ⟨f, rfl, hf⟩ := isSingleNumber_iff.mp h
    have hlt : ¬ l.length < [f].length := by
      have := List.length_pos_iff.mpr hl.ne
      simp only [List.length_singleton]; omega
    simp only [hlt, if_false] at hs
    obtain ⟨h1, h2⟩ := mapM_mulRow_keys hf l s hs
    exact ⟨h2, by rw [h1]; exact hl.nodup, fun k hk => by rw [h1] at hk; exact Or.inr (Or.inl hk)⟩

/-- primitive part: same tokens up to order -/
theorem factorSignature_keys {l l' : Factors} {g : Int} (h : factorSignature l = some (g, l')) :
    (l'.map Factor.key).Perm (l.map Factor.key) ∧ l' ≠ [] ∧ g ≠ 0 := by
  unfold factorSignature at h
  split at h
  · cases h
  · rename_i f' g' hx
    simp only [Option.some.injEq, Prod.mk.injEq] at h
    obtain ⟨rfl, rfl⟩ := h
    cases l with
    | nil => simp [extractGCD] at hx
    | cons a as =>
      simp only [extractGCD] at hx
      split at hx
      · cases hx
      · rename_i hg
        simp only [Option.some.injEq, Prod.mk.injEq] at hx
        obtain ⟨rfl, rfl⟩ := hx
        refine ⟨?_, ?_, hg⟩
        · refine ((sortF_perm _).map _).trans (List.Perm.of_eq ?_)
          rw [List.map_map]
          rfl
        · intro he
          have := (sortF_perm ((a :: as).map fun x => { x with mul := x.mul / gcdLoop a.mul as })).length_eq
          rw [he] at this
          simp at this


/-! ### reading back a stored variable -/

theorem compileNum_spec (ν : Name → ZMod q) {t : Name} {f : Factors} (h : compileNum q t = some f) :
    GoodF q f ∧ (∀ k ∈ f.map Factor.key, k = none) ∧ isSingleNumber f = true ∧
    ∃ v : Int, parseInt t = some v ∧ formVal ν f = (v : ZMod q) := by
  unfold compileNum Fq.stringToField at h
  cases hp : parseInt t with
  | none => simp [hp] at h
  | some v =>
    simp [hp] at h
    subst h
    refine ⟨⟨by simp, fun x hx => ?_, by simp⟩, by simp [Factor.key], by simp [isSingleNumber], v, rfl, ?_⟩
    · simp at hx; subst hx
      intro _
      exact ⟨v, hp, by simp⟩
    · simp [factorVal]

theorem rereadOne_spec (ν : Name → ZMod q) {f : Factor} {s : Factors} (hf : TextOK q f) (h : rereadOne q f = some s) :
    GoodF q s ∧ (∀ k ∈ s.map Factor.key, k = none ∨ k = f.key) ∧ formVal ν s = factorVal ν f := by
  unfold rereadOne at h
  split at h
  · rename_i hn
    obtain ⟨h1, h2, _, v, h3, h4⟩ := compileNum_spec ν h
    obtain ⟨v', h5, h6⟩ := hf hn
    rw [h3] at h5
    cases h5
    exact ⟨h1, fun k hk => Or.inl (h2 k hk), by rw [h4, h6]; simp [factorVal, hn]⟩
  · rename_i hn
    split at h
    · rename_i h1
      cases h
      refine ⟨goodF_argF _ _, fun k hk => ?_, ?_⟩
      · simp at hk; subst hk; exact Or.inr (by simp [Factor.key, hn])
      · simp [factorVal, hn, h1, argF]
    · split at h
      · cases h
      · rename_i n hn'
        obtain ⟨h1, h2, h2', v, h3, h4⟩ := compileNum_spec ν hn'
        rw [parseInt_intStr] at h3
        cases h3
        have hg := goodF_argF (q := q) f.tok.ident 1
        obtain ⟨s', hs', hne, hv⟩ := mulFactors_val ν h1.ne hg.ne (Or.inl h2')
        rw [hs'] at h
        cases h
        obtain ⟨g1, g2, g3⟩ := mulFactors_good h1 hg (Or.inl h2') hs'
        refine ⟨⟨hne, g1, g2⟩, fun k hk => ?_, ?_⟩
        · rcases g3 k hk with h | h | h
          · exact Or.inl h
          · exact Or.inl (h2 k h)
          · simp at h; subst h; exact Or.inr (by simp [Factor.key, hn])
        · rw [hv, h4]; simp [factorVal, hn, argF]

theorem rereadSum_spec (ν : Name → ZMod q) : ∀ (f s : Factors), (∀ x ∈ f, TextOK q x) → rereadSum q f = some s →
    GoodF q s ∧ (∀ k ∈ s.map Factor.key, k = none ∨ k ∈ f.map Factor.key) ∧ formVal ν s = formVal ν f := by
  have comb : ∀ (x : Factor) (rest a b : Factors), TextOK q x → rereadOne q x = some a →
      (GoodF q b ∧ (∀ k ∈ b.map Factor.key, k = none ∨ k ∈ rest.map Factor.key) ∧ formVal ν b = formVal ν rest) →
      GoodF q (addFactors q a b) ∧ (∀ k ∈ (addFactors q a b).map Factor.key, k = none ∨ k ∈ (x :: rest).map Factor.key) ∧
        formVal ν (addFactors q a b) = formVal ν (x :: rest) := by
    intro x rest a b hx ha hb
    obtain ⟨a1, a2, a3⟩ := rereadOne_spec ν hx ha
    obtain ⟨b1, b2, b3⟩ := hb
    refine ⟨addFactors_good a1.text b1.text a1.nodup b1.nodup, fun k hk => ?_, ?_⟩
    · rcases addFactors_keys a b k hk with h | h | h
      · exact Or.inl h
      · rcases a2 k h with h | h
        · exact Or.inl h
        · exact Or.inr (by simp [h])
      · rcases b2 k h with h | h
        · exact Or.inl h
        · exact Or.inr (by rw [List.map_cons]; exact List.mem_cons_of_mem _ h)
    · rw [addFactors_val, a3, b3, formVal_cons]
  intro f
  induction f with
  | nil => intro s _ h; simp [rereadSum] at h
  | cons x xs ih =>
    intro s ht h
    match xs, ih, ht, h with
    | [], _, ht, h =>
      simp only [rereadSum] at h
      obtain ⟨h1, h2, h3⟩ := rereadOne_spec ν (ht x List.mem_cons_self) h
      exact ⟨h1, fun k hk => by rcases h2 k hk with h | h <;> simp [h], by simp [h3]⟩
    | [g], _, ht, h =>
      simp only [rereadSum] at h
      split at h
      · rename_i hn
        simp only [Bool.and_eq_true] at hn
        obtain ⟨h1, h2, _, v, h3, h4⟩ := compileNum_spec ν h
        rw [parseInt_intStr] at h3
        cases h3
        exact ⟨h1, fun k hk => Or.inl (h2 k hk), by rw [h4]; simp [factorVal, hn.1, hn.2]⟩
      · cases ha : rereadOne q x with
        | none => simp [ha] at h
        | some a =>
          cases hb : rereadOne q g with
          | none => simp [ha, hb] at h
          | some b =>
            simp [ha, hb] at h
            subst h
            obtain ⟨b1, b2, b3⟩ := rereadOne_spec ν (ht g (by simp)) hb
            exact comb x [g] a b (ht x List.mem_cons_self) ha
              ⟨b1, fun k hk => by rcases b2 k hk with h | h <;> simp [h], by simp [b3]⟩
    | g :: g' :: gs, ih, ht, h =>
      simp only [rereadSum] at h
      cases ha : rereadOne q x with
      | none => simp [ha] at h
      | some a =>
        cases hb : rereadSum q (g :: g' :: gs) with
        | none => simp [ha, hb] at h
        | some b =>
          simp [ha, hb] at h
          subst h
          exact comb x (g :: g' :: gs) a b (ht x List.mem_cons_self) ha
            (ih b (fun y hy => ht y (List.mem_cons_of_mem _ hy)) hb)

theorem readVar_spec (ν : Name → ZMod q) {f s : Factors} (hf : GoodF q f) (h : readVar q f = some s) :
    GoodF q s ∧ (∀ k ∈ s.map Factor.key, k = none ∨ k ∈ f.map Factor.key) ∧ formVal ν s = formVal ν f := by
  unfold readVar at h
  split at h
  · cases h; exact ⟨hf, fun k hk => Or.inr hk, rfl⟩
  · exact rereadSum_spec ν f s hf.text h

/-! ### the gate container -/

/-- `s'` extends `s` -/
structure Ext (s s' : St) : Prop where
  gates : s.c.gates <+: s'.c.gates
  dropped : s.dropped <+: s'.dropped

theorem Ext.refl (s : St) : Ext s s := ⟨List.prefix_refl _, List.prefix_refl _⟩
theorem Ext.trans {a b c : St} (h : Ext a b) (h' : Ext b c) : Ext a c :=
  ⟨h.gates.trans h'.gates, h.dropped.trans h'.dropped⟩

theorem St.add_spec {H : Name → Nat} {s s' : St} {g g' : Gate} {post : Gate → Gate}
    (h : s.add H g post = some (s', g')) (hp : ∀ x, (post x).ident = x.ident) :
    ∃ g0, withID H g = some g0 ∧ g' = post g0 ∧
      ((g0.ident ∈ s.c.computed ∧ s' = ⟨s.c, s.dropped ++ [g']⟩) ∨
       (g0.ident ∉ s.c.computed ∧ s' = ⟨⟨s.c.gates ++ [g'], s.c.computed ++ [g0.ident]⟩, s.dropped⟩)) := by
  unfold St.add Container.add at h
  cases hw : withID H g with
  | none => simp [hw] at h
  | some g0 =>
    refine ⟨g0, rfl, ?_⟩
    simp only [hw] at h
    by_cases hm : g0.ident ∈ s.c.computed
    · simp [hm, hp] at h
      exact ⟨h.2.symm, Or.inl ⟨hm, by rw [← h.1, h.2]⟩⟩
    · simp [hm, hp] at h
      exact ⟨h.2.symm, Or.inr ⟨hm, by rw [← h.1, h.2]⟩⟩

theorem St.add_ext {H : Name → Nat} {s s' : St} {g g' : Gate} {post : Gate → Gate}
    (h : s.add H g post = some (s', g')) (hp : ∀ x, (post x).ident = x.ident) : Ext s s' := by
  obtain ⟨g0, _, _, h | h⟩ := St.add_spec h hp
  · rw [h.2]; exact ⟨List.prefix_refl _, List.prefix_append _ _⟩
  · rw [h.2]; exact ⟨List.prefix_append _ _, List.prefix_refl _⟩

theorem St.add_mem {H : Name → Nat} {s s' : St} {g g' : Gate} {post : Gate → Gate}
    (h : s.add H g post = some (s', g')) (hp : ∀ x, (post x).ident = x.ident) :
    g' ∈ s'.c.gates ∨ g' ∈ s'.dropped := by
  obtain ⟨g0, _, _, h | h⟩ := St.add_spec h hp
  · rw [h.2]; right; simp
  · rw [h.2]; left; simp

theorem sameGate_holds {gx : ZMod q → ZMod q} {ν : Name → ZMod q} {g g' : Gate} (h : SameGate g' g)
    (hg : GateHolds gx ν g') : GateHolds gx ν g := by
  rcases h with rfl | ⟨ht, rfl⟩
  · exact hg
  · rcases ht with ht | ht
    · simp only [GateHolds, ht] at hg ⊢
      rw [mul_comm]; exact hg
    · simp only [GateHolds, ht] at hg ⊢
      exact hg.symm

/-- every gate ever handed to `Add` holds, if the kept ones do and nothing was confused -/
theorem holds_of_ext {gx : ZMod q → ZMod q} {ν : Name → ZMod q} {s sf : St} {g : Gate}
    (hm : g ∈ s.c.gates ∨ g ∈ s.dropped) (he : Ext s sf) (hn : NoConfusion sf)
    (hs : ∀ g ∈ sf.c.gates, GateHolds gx ν g) : GateHolds gx ν g := by
  rcases hm with hm | hm
  · exact hs g (he.gates.subset hm)
  · obtain ⟨g', hg', hsame⟩ := hn g (he.dropped.subset hm)
    exact sameGate_holds hsame (hs g' hg')

theorem withID_fields {H : Name → Nat} {g g0 : Gate} (h : withID H g = some g0) :
    g0.typ = g.typ ∧ g0.left.Perm g.left ∧ g0.right.Perm g.right ∧ g0.expo.Perm g.expo ∧ g0.out.Perm g.out ∧
    g0.noNew = g.noNew ∧ g0.arith = g.arith ∧ (g.ident ≠ [] → g0 = g) := by
  unfold withID at h
  split at h
  · rename_i hi
    unfold setAndGetID at h
    cases hx : sig16 (gateHash H g) with
    | none => simp [hx] at h
    | some t =>
      simp [hx] at h
      subst h
      exact ⟨rfl, sortF_perm _, sortF_perm _, sortF_perm _, sortF_perm _, rfl, rfl, fun h => absurd hi h⟩
  · cases h
    exact ⟨rfl, .refl _, .refl _, .refl _, .refl _, rfl, rfl, fun _ => rfl⟩


/-! ### names -/

/-- all names of the form are in `K` -/
def KnownF (K : List Name) (f : Factors) : Prop := ∀ n, some n ∈ f.map Factor.key → n ∈ K

theorem formVal_congr {ν ν' : Name → ZMod q} {f : Factors} (h : ∀ n, some n ∈ f.map Factor.key → ν n = ν' n) :
    formVal ν f = formVal ν' f := by
  induction f with
  | nil => rfl
  | cons x xs ih =>
    rw [formVal_cons, formVal_cons, ih (fun n hn => h n (by simp at hn ⊢; exact Or.inr hn))]
    congr 1
    unfold factorVal
    by_cases hx : x.tok.isNum = true
    · simp [hx]
    · rw [if_neg hx, if_neg hx, h x.tok.ident (by simp [Factor.key, hx])]

theorem KnownF.mono {K K' : List Name} {f : Factors} (h : KnownF K f) (hs : K ⊆ K') : KnownF K' f :=
  fun n hn => hs (h n hn)

/-- a gate only mentions names in `K` -/
structure GateKnown (K : List Name) (g : Gate) : Prop where
  left : KnownF K g.left
  right : KnownF K g.right
  expo : KnownF K g.expo
  out : KnownF K g.out
  ident : g.ident ∈ K
  arith : (g.typ = .sumCheck ∨ g.typ = .zeroOrOne) → g.arith.isNum = false → g.arith.ident ∈ K

/-- which sides a gate of each kind uses -/
def GateShape (g : Gate) : Prop := match g.typ with
  | .mult => g.expo = [] ∧ g.noNew = false
  | .scalarBase => g.left = [] ∧ g.right = [] ∧ g.out = [] ∧ g.noNew = false
  | .equality => g.expo = [] ∧ g.out = [] ∧ g.noNew = true
  | .zeroOrOne => g.left = [] ∧ g.right = [] ∧ g.expo = [] ∧ g.out = [] ∧ g.noNew = false
  | .addition => g.right = [] ∧ g.expo = [] ∧ g.noNew = false
  | .sumCheck => g.right = [] ∧ g.expo = [] ∧ g.out = [] ∧ g.noNew = true

/-- no name occurs twice in one form of the gate -/
structure GateNodup (g : Gate) : Prop where
  shape : GateShape g
  left : (g.left.map Factor.key).Nodup
  right : (g.right.map Factor.key).Nodup
  expo : (g.expo.map Factor.key).Nodup
  out : (g.out.map Factor.key).Nodup

/-- The order in which a gate can be computed: everything but the output of the gate is in `K`.  Products have their own
identifier as output, quotients as left factor. -/
def OrdGate (K : List Name) (g : Gate) : Prop := match g.typ with
  | .mult => (KnownF K g.left ∧ KnownF K g.right ∧ g.out = [argF g.ident 1]) ∨
      (g.left = [argF g.ident 1] ∧ KnownF K g.right ∧ KnownF K g.out)
  | .scalarBase => KnownF K g.expo
  | .equality => KnownF K g.left ∧ KnownF K g.right
  | .zeroOrOne => (g.arith.isNum = false → g.arith.ident ∈ K) ∧ g.ident ≠ g.arith.ident
  | .addition => KnownF K g.left ∧ g.out = [argF g.ident 1]
  | .sumCheck => KnownF K g.left ∧ (g.arith.isNum = false → g.arith.ident ∈ K)

/-- invariant of the container; `I` are the main inputs -/
structure WF (I : List Name) (s : St) : Prop where
  comp : s.c.computed = s.c.gates.map (·.ident)
  nodup : s.c.computed.Nodup
  drop : ∀ g ∈ s.dropped, g.ident ∈ s.c.computed
  known : ∀ g ∈ s.c.gates, GateKnown (I ++ s.c.computed) g
  forms : ∀ g ∈ s.c.gates, GateNodup g
  ord : ∀ pre g post, s.c.gates = pre ++ g :: post → OrdGate (I ++ pre.map (·.ident)) g

theorem GateKnown.mono {K K' : List Name} {g : Gate} (h : GateKnown K g) (hs : K ⊆ K') : GateKnown K' g :=
  ⟨h.left.mono hs, h.right.mono hs, h.expo.mono hs, h.out.mono hs, hs h.ident, fun a b => hs (h.arith a b)⟩

theorem wf_empty (I : List Name) : WF I {} := ⟨rfl, by simp, by simp, by simp, by simp, by simp⟩

theorem WF.computed_mono {I : List Name} {s s' : St} (h : WF I s) (h' : WF I s') (he : Ext s s') :
    s.c.computed ⊆ s'.c.computed := by
  rw [h.comp, h'.comp]
  exact (he.gates.map _).subset

theorem WF.add {H : Name → Nat} {I : List Name} {s s' : St} {g g' : Gate} {post : Gate → Gate} (hw : WF I s)
    (h : s.add H g post = some (s', g')) (hp : ∀ x, (post x).ident = x.ident)
    (hk : ∀ g0, withID H g = some g0 → GateKnown (I ++ s.c.computed ++ [g0.ident]) (post g0))
    (hn : ∀ g0, withID H g = some g0 → GateNodup (post g0))
    (ho : ∀ g0, withID H g = some g0 → OrdGate (I ++ s.c.computed) (post g0)) :
    WF I s' ∧ g'.ident ∈ s'.c.computed := by
  obtain ⟨g0, h0, rfl, hc | hc⟩ := St.add_spec h hp
  · rw [hc.2]
    refine ⟨⟨hw.comp, hw.nodup, ?_, hw.known, hw.forms, hw.ord⟩, by rw [hp]; exact hc.1⟩
    intro x hx
    rcases List.mem_append.mp hx with hx | hx
    · exact hw.drop x hx
    · simp at hx; subst hx; rw [hp]; exact hc.1
  · rw [hc.2]
    refine ⟨⟨?_, ?_, ?_, ?_, ?_, ?_⟩, by simp [hp]⟩
    · simp [hw.comp, hp]
    · rw [List.nodup_append]
      refine ⟨hw.nodup, by simp, ?_⟩
      intro a ha b hb hab
      simp at hb
      subst hab hb
      exact hc.1 ha
    · intro x hx
      exact List.mem_append_left _ (hw.drop x hx)
    · intro x hx
      rcases List.mem_append.mp hx with hx | hx
      · refine (hw.known x hx).mono ?_
        intro n hn
        simp only [List.mem_append] at hn ⊢
        tauto
      · simp at hx; subst hx
        have := hk g0 h0
        rwa [List.append_assoc] at this
    · intro x hx
      rcases List.mem_append.mp hx with hx | hx
      · exact hw.forms x hx
      · simp at hx; subst hx; exact hn g0 h0
    · intro pre x post' he
      rcases List.eq_nil_or_concat post' with rfl | ⟨post'', y, rfl⟩
      · obtain ⟨rfl, h2⟩ := List.append_inj' he rfl
        simp at h2; subst h2
        have := ho g0 h0
        rwa [hw.comp] at this
      · rw [List.concat_eq_append, ← List.cons_append, ← List.append_assoc] at he
        obtain ⟨h1, -⟩ := List.append_inj' he rfl
        exact hw.ord pre x post'' h1

/-- confusion can only be resolved among the gates present when the gate was dropped -/
theorem NoConfusion.of_ext {I : List Name} {s sf : St} (h : NoConfusion sf) (hw : WF I s) (hwf : WF I sf) (he : Ext s sf) :
    NoConfusion s := by
  intro g hg
  obtain ⟨g', hg', hsame⟩ := h g (he.dropped.subset hg)
  refine ⟨g', ?_, hsame⟩
  have hid : g'.ident = g.ident := by rcases hsame with rfl | ⟨_, rfl⟩ <;> rfl
  have h1 : g.ident ∈ s.c.computed := hw.drop g hg
  rw [hw.comp] at h1
  obtain ⟨g2, hg2, hid2⟩ := List.mem_map.mp h1
  have hnd : (sf.c.gates.map (·.ident)).Nodup := by rw [← hwf.comp]; exact hwf.nodup
  have : g2 = g' := List.inj_on_of_nodup_map hnd (he.gates.subset hg2) hg' (by rw [hid2, hid])
  rw [← this]; exact hg2

/-! ### gates emitted by the operators -/

theorem knownF_perm {K : List Name} {f f' : Factors} (h : (f'.map Factor.key).Perm (f.map Factor.key))
    (hk : KnownF K f) : KnownF K f' := fun n hn => hk n (h.subset hn)

theorem knownF_nil (K : List Name) : KnownF K [] := fun n hn => by simp at hn

theorem knownF_argF {K : List Name} {n : Name} {v : Int} (h : n ∈ K) : KnownF K [argF n v] := by
  intro m hm
  simp at hm
  subst hm; exact h

theorem extractConstant_keys {l r l' r' : Factors} {k : Int} (h : extractConstant q l r = some (k, l', r')) :
    (l'.map Factor.key).Perm (l.map Factor.key) ∧ (r'.map Factor.key).Perm (r.map Factor.key) := by
  unfold extractConstant at h
  cases h1 : factorSignature l with
  | none => simp [h1] at h
  | some p =>
    cases h2 : factorSignature r with
    | none => simp [h1, h2] at h
    | some p' =>
      obtain ⟨g, a⟩ := p
      obtain ⟨g', b⟩ := p'
      simp only [h1, h2, Option.bind_eq_bind, Option.bind_some, Option.pure_def, Option.some.injEq,
        Prod.mk.injEq] at h
      obtain ⟨rfl, rfl, rfl⟩ := h
      exact ⟨(factorSignature_keys h1).1, (factorSignature_keys h2).1⟩


/-- bit wires carry the bits of the value they were split from -/
def ZO (ν : Name → ZMod q) (g : Gate) : Prop :=
  ∃ i, g.ident = bitName i g.arith.ident ∧ ν g.ident = if (ν g.arith.ident).val.testBit i then 1 else 0

/-- a gate that is solved for a factor has a non-zero cofactor -/
def QuotOK (ν : Name → ZMod q) (g : Gate) : Prop := g.typ = .mult → g.out = [argF g.ident 1] ∨ formVal ν g.right ≠ 0

/-- `ν` satisfies all gates of `s`, the bit wires are the bits, and no quotient divides by zero -/
structure Models (gx : ZMod q → ZMod q) (ν : Name → ZMod q) (s : St) : Prop where
  holds : ∀ g ∈ s.c.gates, GateHolds gx ν g
  zo : ∀ g ∈ s.c.gates, g.typ = .zeroOrOne → ZO ν g
  quot : ∀ g ∈ s.c.gates, QuotOK ν g

theorem gateHolds_congr {gx : ZMod q → ZMod q} {ν ν' : Name → ZMod q} {K : List Name} {g : Gate} (hk : GateKnown K g)
    (ha : (g.typ = .sumCheck ∨ g.typ = .zeroOrOne) → g.arith.isNum = false)
    (h : ∀ n ∈ K, ν n = ν' n) (hg : GateHolds gx ν g) : GateHolds gx ν' g := by
  have e1 : formVal ν g.left = formVal ν' g.left := formVal_congr fun n hn => h n (hk.left n hn)
  have e2 : formVal ν g.right = formVal ν' g.right := formVal_congr fun n hn => h n (hk.right n hn)
  have e3 : formVal ν g.expo = formVal ν' g.expo := formVal_congr fun n hn => h n (hk.expo n hn)
  have e4 : formVal ν g.out = formVal ν' g.out := formVal_congr fun n hn => h n (hk.out n hn)
  have e5 : ν g.ident = ν' g.ident := h _ hk.ident
  have e6 : g.typ = .sumCheck → ν g.arith.ident = ν' g.arith.ident := fun ht =>
    h _ (hk.arith (Or.inl ht) (ha (Or.inl ht)))
  unfold GateHolds at hg ⊢
  cases ht : g.typ <;> simp only [ht] at hg ⊢
  · rwa [← e1, ← e2, ← e4]
  · rwa [← e3, ← e5]
  · rwa [← e1, ← e2]
  · rwa [← e1, ← e4]
  · rwa [← e1, ← e6 ht]
  · rwa [← e5]

theorem extend_add {H : Name → Nat} {I : List Name} {s s' : St} {g g' : Gate} {post : Gate → Gate}
    {gx : ZMod q → ZMod q} {ν : Name → ZMod q} (hw : WF I s)
    (h : s.add H g post = some (s', g')) (hp : ∀ x, (post x).ident = x.ident) (hm : Models gx ν s) (hd : ∀ n ∈ I, n ∉ s'.c.computed)
    (hns : NoConstSplit s')
    (hx : ∀ g0, withID H g = some g0 → g0.ident ∉ I ++ s.c.computed → ∃ x,
      GateHolds gx (Function.update ν g0.ident x) (post g0) ∧
      ((post g0).typ = .zeroOrOne → ZO (Function.update ν g0.ident x) (post g0)) ∧ QuotOK (Function.update ν g0.ident x) (post g0)) :
    ∃ ν', (∀ n ∈ I ++ s.c.computed, ν' n = ν n) ∧ Models gx ν' s' := by
  obtain ⟨g0, h0, rfl, hc | hc⟩ := St.add_spec h hp
  · rw [hc.2] at hns ⊢
    exact ⟨ν, fun _ _ => rfl, ⟨hm.holds, hm.zo, hm.quot⟩⟩
  · rw [hc.2] at hd hns ⊢
    have hfresh : g0.ident ∉ I ++ s.c.computed := by
      rw [List.mem_append, not_or]
      exact ⟨fun hi => hd _ hi (by simp), hc.1⟩
    obtain ⟨x, hx1, hx2, hx3⟩ := hx g0 h0 hfresh
    have hag : ∀ n ∈ I ++ s.c.computed, Function.update ν g0.ident x n = ν n := by
      intro n hn
      rw [Function.update_of_ne]
      rintro rfl
      exact hfresh hn
    refine ⟨_, hag, ⟨?_, ?_, ?_⟩⟩
    · intro y hy
      rcases List.mem_append.mp hy with hy' | hy'
      · exact gateHolds_congr (hw.known y hy') (hns y hy) (fun n hn => (hag n hn).symm) (hm.holds y hy')
      · simp at hy'; subst hy'; exact hx1
    · intro y hy ht
      rcases List.mem_append.mp hy with hy' | hy'
      · obtain ⟨i, hi1, hi2⟩ := hm.zo y hy' ht
        refine ⟨i, hi1, ?_⟩
        rw [hag _ (hw.known y hy').ident, hag _ ((hw.known y hy').arith (Or.inr ht) (hns y hy (Or.inr ht))), hi2]
      · simp at hy'; subst hy'; exact hx2 ht
    · intro y hy
      rcases List.mem_append.mp hy with hy' | hy'
      · intro ht
        refine (hm.quot y hy' ht).imp id fun h' => ?_
        rwa [formVal_congr fun n hn => hag n ((hw.known y hy').right n hn)]
      · simp at hy'; subst hy'; exact hx3

/-- result of compiling something: the container grew, the form is well-formed and uses known names -/
structure Res (I : List Name) (q : Nat) (s : St) (f : Factors) (s' : St) : Prop where
  ext : Ext s s'
  wf : WF I s'
  good : GoodF q f
  known : KnownF (I ++ s'.c.computed) f

theorem mem_known_left {I c : List Name} {x : Name} : I ++ c ⊆ I ++ c ++ [x] := by
  intro n hn; exact List.mem_append_left _ hn

theorem mulGate_eq {H : Name → Nat} {l r f : Factors} {s s' : St} (h : mulGate H q l r s = some (f, s')) :
    ((isSingleNumber l = true ∨ isSingleNumber r = true) ∧ mulFactors q l r = some f ∧ s' = s) ∨
    ∃ k l' r' g, extractConstant q l r = some (k, l', r') ∧
      s.add H { typ := .mult, left := l', right := r' } (fun g => { g with out := [argF g.ident 1] }) = some (s', g) ∧
      f = [argF g.ident k] := by
  unfold mulGate at h
  by_cases hs : (isSingleNumber l || isSingleNumber r) = true
  · rw [if_pos hs] at h
    left
    cases hm : mulFactors q l r with
    | none => simp [hm] at h
    | some x =>
      simp [hm] at h
      exact ⟨by simpa using hs, by rw [h.1], h.2.symm⟩
  · rw [if_neg hs] at h
    right
    cases he : extractConstant q l r with
    | none => simp [he] at h
    | some p =>
      obtain ⟨k, l', r'⟩ := p
      cases ha : s.add H { typ := .mult, left := l', right := r' } (fun g => { g with out := [argF g.ident 1] }) with
      | none => simp [he, ha] at h
      | some p =>
        obtain ⟨s2, g⟩ := p
        simp [he, ha] at h
        obtain ⟨rfl, rfl⟩ := h
        exact ⟨k, l', r', g, rfl, ha, rfl⟩

theorem mulGate_wf {H : Name → Nat} {I : List Name} {l r f : Factors} {s s' : St} (hw : WF I s)
    (hl : GoodF q l) (hr : GoodF q r) (kl : KnownF (I ++ s.c.computed) l) (kr : KnownF (I ++ s.c.computed) r)
    (h : mulGate H q l r s = some (f, s')) : Res I q s f s' := by
  rcases mulGate_eq h with ⟨hs, hm, rfl⟩ | ⟨k, l', r', g, he, ha, rfl⟩
  · obtain ⟨f', hf', hne, _⟩ := mulFactors_val (q := q) (fun _ => 0) hl.ne hr.ne hs
    rw [hm] at hf'; cases hf'
    obtain ⟨g1, g2, g3⟩ := mulFactors_good hl hr hs hm
    refine ⟨Ext.refl _, hw, ⟨hne, g1, g2⟩, fun n hn => ?_⟩
    rcases g3 _ hn with h | h | h
    · cases h
    · exact kl n h
    · exact kr n h
  · obtain ⟨pl, pr⟩ := extractConstant_keys he
    obtain ⟨hw', hid⟩ := hw.add ha (fun _ => rfl) (fun g0 h0 => by
        obtain ⟨-, f2, f3, f4, f5, -, -, -⟩ := withID_fields h0
        refine ⟨?_, ?_, ?_, ?_, ?_, ?_⟩
        · exact (knownF_perm ((f2.map _).trans pl) kl).mono mem_known_left
        · exact (knownF_perm ((f3.map _).trans pr) kr).mono mem_known_left
        · exact knownF_perm (f4.map _) (knownF_nil _)
        · exact knownF_argF (by simp)
        · simp
        · obtain ⟨f1, -⟩ := withID_fields h0
          intro ht; simp [f1] at ht)
      (fun g0 h0 => by
        obtain ⟨f1, f2, f3, f4, f5, f6, -, -⟩ := withID_fields h0
        exact ⟨by simp [GateShape, f1, f6, f4.eq_nil], ((f2.map _).trans pl).nodup_iff.mpr hl.nodup, ((f3.map _).trans pr).nodup_iff.mpr hr.nodup,
          (f4.map _).nodup_iff.mpr (by simp), by simp⟩)
      (fun g0 h0 => by
        obtain ⟨f1, f2, f3, -⟩ := withID_fields h0
        simp only [OrdGate, f1]
        exact Or.inl ⟨knownF_perm ((f2.map _).trans pl) kl, knownF_perm ((f3.map _).trans pr) kr, trivial⟩)
    exact ⟨St.add_ext ha (fun _ => rfl), hw', goodF_argF _ _, knownF_argF (List.mem_append_right _ hid)⟩

theorem mulGate_sound {H : Name → Nat} {l r f : Factors} {s s' sf : St} {gx : ZMod q → ZMod q} {ν : Name → ZMod q}
    (hl : GoodF q l) (hr : GoodF q r) (h : mulGate H q l r s = some (f, s')) (he : Ext s' sf) (hn : NoConfusion sf)
    (hh : ∀ g ∈ sf.c.gates, GateHolds gx ν g) : formVal ν f = formVal ν l * formVal ν r := by
  rcases mulGate_eq h with ⟨hs, hm, rfl⟩ | ⟨k, l', r', g, hx, ha, rfl⟩
  · obtain ⟨f', hf', hne, hv⟩ := mulFactors_val (q := q) ν hl.ne hr.ne hs
    rw [hm] at hf'; cases hf'
    exact hv
  · have hg := holds_of_ext (St.add_mem ha (fun _ => rfl)) he hn hh
    obtain ⟨g0, h0, rfl, _⟩ := St.add_spec ha (fun _ => rfl)
    obtain ⟨f1, f2, f3, f4, f5, -, -, -⟩ := withID_fields h0
    simp only [GateHolds, f1] at hg
    rw [formVal_perm ν f2, formVal_perm ν f3] at hg
    rw [extractConstant_val ν hx, hg]
    simp

theorem mulGate_complete {H : Name → Nat} {I : List Name} {l r f : Factors} {s s' : St} {gx : ZMod q → ZMod q}
    {ν : Name → ZMod q} (hw : WF I s) (kl : KnownF (I ++ s.c.computed) l) (kr : KnownF (I ++ s.c.computed) r)
    (h : mulGate H q l r s = some (f, s')) (hm : Models gx ν s) (hd : ∀ n ∈ I, n ∉ s'.c.computed)
    (hns : NoConstSplit s') : ∃ ν', (∀ n ∈ I ++ s.c.computed, ν' n = ν n) ∧ Models gx ν' s' := by
  rcases mulGate_eq h with ⟨hs, _, rfl⟩ | ⟨k, l', r', g, he, ha, rfl⟩
  · exact ⟨ν, fun _ _ => rfl, hm⟩
  · obtain ⟨pl, pr⟩ := extractConstant_keys he
    refine extend_add hw ha (fun _ => rfl) hm hd hns fun g0 h0 hfresh => ?_
    obtain ⟨f1, f2, f3, f4, f5, -, -, -⟩ := withID_fields h0
    refine ⟨formVal ν l' * formVal ν r', ?_, by simp [f1], fun _ => Or.inl rfl⟩
    have el : formVal (Function.update ν g0.ident (formVal ν l' * formVal ν r')) l' = formVal ν l' :=
      formVal_congr fun n hn => Function.update_of_ne (by rintro rfl; exact hfresh (kl _ (pl.subset hn))) _ _
    have er : formVal (Function.update ν g0.ident (formVal ν l' * formVal ν r')) r' = formVal ν r' :=
      formVal_congr fun n hn => Function.update_of_ne (by rintro rfl; exact hfresh (kr _ (pr.subset hn))) _ _
    simp only [GateHolds, f1]
    rw [formVal_perm _ f2, formVal_perm _ f3, el, er]
    simp

/-! ### division -/

theorem divGate_eq {H : Name → Nat} {l r f : Factors} {s s' : St} (h : divGate H q l r s = some (f, s')) :
    (isSingleNumber r = true ∧ (∃ i, invertFactors q r = some i ∧ mulFactors q l i = some f) ∧ s' = s) ∨
    ∃ gl l' gr r' k g, factorSignature l = some (gl, l') ∧ factorSignature r = some (gr, r') ∧ Fq.div q gl gr = some k ∧
      s.add H { typ := .mult, right := r', out := l' } (fun g => { g with left := [argF g.ident 1] }) = some (s', g) ∧
      f = [argF g.ident k] := by
  unfold divGate at h
  by_cases hs : isSingleNumber r = true
  · rw [if_pos hs] at h
    left
    cases hi : invertFactors q r with
    | none => simp [hi] at h
    | some i =>
      cases hm : mulFactors q l i with
      | none => simp [hi, hm] at h
      | some x =>
        simp [hi, hm] at h
        exact ⟨hs, ⟨i, rfl, by rw [hm, h.1]⟩, h.2.symm⟩
  · rw [if_neg hs] at h
    right
    cases h1 : factorSignature l with
    | none => simp [h1] at h
    | some p =>
      obtain ⟨gl, l'⟩ := p
      cases h2 : factorSignature r with
      | none => simp [h1, h2] at h
      | some p =>
        obtain ⟨gr, r'⟩ := p
        cases h3 : Fq.div q gl gr with
        | none => simp [h1, h2, h3] at h
        | some k =>
          cases ha : s.add H { typ := .mult, right := r', out := l' } (fun g => { g with left := [argF g.ident 1] }) with
          | none => simp [h1, h2, h3, ha] at h
          | some p =>
            obtain ⟨s2, g⟩ := p
            simp [h1, h2, h3, ha] at h
            obtain ⟨rfl, rfl⟩ := h
            exact ⟨gl, l', gr, r', k, g, rfl, rfl, h3, ha, rfl⟩

theorem invertFactors_single [Fact q.Prime] (ν : Name → ZMod q) {r i : Factors} (hs : isSingleNumber r = true)
    (h : invertFactors q r = some i) :
    GoodF q i ∧ isSingleNumber i = true ∧ (∀ k ∈ i.map Factor.key, k = none) ∧ formVal ν i = (formVal ν r)⁻¹ := by
  obtain ⟨f, rfl, hf⟩ := isSingleNumber_iff.mp hs
  unfold invertFactors at h
  cases hv : Fq.inverse q f.mul with
  | none => simp [hv] at h
  | some v =>
    simp [hv, hf] at h
    subst h
    refine ⟨⟨by simp, fun x hx => by simp at hx; subst hx; exact textOK_numF _, by simp⟩, by simp [isSingleNumber, numF],
      by simp, ?_⟩
    rw [formVal_cons, formVal_nil, factorVal_numF, inverse_cast hv]
    simp [factorVal, hf]

theorem divGate_wf [Fact q.Prime] {H : Name → Nat} {I : List Name} {l r f : Factors} {s s' : St} (hw : WF I s)
    (hl : GoodF q l) (hr : GoodF q r) (kl : KnownF (I ++ s.c.computed) l) (kr : KnownF (I ++ s.c.computed) r)
    (h : divGate H q l r s = some (f, s')) : Res I q s f s' := by
  rcases divGate_eq h with ⟨hs, ⟨i, hi, hm⟩, rfl⟩ | ⟨gl, l', gr, r', k, g, h1, h2, h3, ha, rfl⟩
  · obtain ⟨i1, i2, i3, _⟩ := invertFactors_single (fun _ => 0) hs hi
    obtain ⟨f', hf', hne, _⟩ := mulFactors_val (q := q) (fun _ => 0) hl.ne i1.ne (Or.inr i2)
    rw [hm] at hf'; cases hf'
    obtain ⟨g1, g2, g3⟩ := mulFactors_good hl i1 (Or.inr i2) hm
    refine ⟨Ext.refl _, hw, ⟨hne, g1, g2⟩, fun n hn => ?_⟩
    rcases g3 _ hn with h | h | h
    · cases h
    · exact kl n h
    · cases i3 _ h
  · obtain ⟨pl, -, -⟩ := factorSignature_keys h1
    obtain ⟨pr, -, -⟩ := factorSignature_keys h2
    obtain ⟨hw', hid⟩ := hw.add ha (fun _ => rfl) (fun g0 h0 => by
        obtain ⟨f1, f2, f3, f4, f5, -, -, -⟩ := withID_fields h0
        refine ⟨?_, ?_, ?_, ?_, ?_, ?_⟩
        · exact knownF_argF (by simp)
        · exact (knownF_perm ((f3.map _).trans pr) kr).mono mem_known_left
        · exact knownF_perm (f4.map _) (knownF_nil _)
        · exact (knownF_perm ((f5.map _).trans pl) kl).mono mem_known_left
        · simp
        · intro ht; simp [f1] at ht)
      (fun g0 h0 => by
        obtain ⟨f1, f2, f3, f4, f5, f6, -, -⟩ := withID_fields h0
        exact ⟨by simp [GateShape, f1, f6, f4.eq_nil], by simp, ((f3.map _).trans pr).nodup_iff.mpr hr.nodup,
          (f4.map _).nodup_iff.mpr (by simp), ((f5.map _).trans pl).nodup_iff.mpr hl.nodup⟩)
      (fun g0 h0 => by
        obtain ⟨f1, f2, f3, f4, f5, -⟩ := withID_fields h0
        simp only [OrdGate, f1]
        exact Or.inr ⟨trivial, knownF_perm ((f3.map _).trans pr) kr, knownF_perm ((f5.map _).trans pl) kl⟩)
    exact ⟨St.add_ext ha (fun _ => rfl), hw', goodF_argF _ _, knownF_argF (List.mem_append_right _ hid)⟩

theorem divGate_sound [Fact q.Prime] {H : Name → Nat} {l r f : Factors} {s s' sf : St} {gx : ZMod q → ZMod q}
    {ν : Name → ZMod q} (hl : GoodF q l) (h : divGate H q l r s = some (f, s')) (he : Ext s' sf)
    (hn : NoConfusion sf) (hh : ∀ g ∈ sf.c.gates, GateHolds gx ν g) (h0 : formVal ν r ≠ 0) :
    formVal ν f = formVal ν l / formVal ν r := by
  rcases divGate_eq h with ⟨hs, ⟨i, hi, hm⟩, rfl⟩ | ⟨gl, l', gr, r', k, g, h1, h2, h3, ha, rfl⟩
  · obtain ⟨i1, i2, i3, i4⟩ := invertFactors_single ν hs hi
    obtain ⟨f', hf', hne, hv⟩ := mulFactors_val (q := q) ν hl.ne i1.ne (Or.inr i2)
    rw [hm] at hf'; cases hf'
    rw [hv, i4, div_eq_mul_inv]
  · have hg := holds_of_ext (St.add_mem ha (fun _ => rfl)) he hn hh
    obtain ⟨g0, hg0, rfl, _⟩ := St.add_spec ha (fun _ => rfl)
    obtain ⟨f1, f2, f3, f4, f5, -, -, -⟩ := withID_fields hg0
    simp only [GateHolds, f1] at hg
    rw [formVal_perm ν f3, formVal_perm ν f5] at hg
    have er := factorSignature_val ν h2
    have el := factorSignature_val ν h1
    have hk := div_cast h3
    have hgr : (gr : ZMod q) ≠ 0 := by intro hz; rw [hz, zero_mul] at er; exact h0 er
    have hr' : formVal ν r' ≠ 0 := by intro hz; rw [hz, mul_zero] at er; exact h0 er
    have hv : ν g0.ident = formVal ν l' / formVal ν r' := by
      rw [eq_div_iff hr']
      simpa using hg
    simp only [formVal_cons, factorVal_argF, formVal_nil, add_zero]
    rw [hk, hv, el, er]
    field_simp

theorem divGate_complete [Fact q.Prime] {H : Name → Nat} {I : List Name} {l r f : Factors} {s s' : St}
    {gx : ZMod q → ZMod q}
    {ν : Name → ZMod q} (hw : WF I s) (kl : KnownF (I ++ s.c.computed) l) (kr : KnownF (I ++ s.c.computed) r)
    (h : divGate H q l r s = some (f, s')) (hm : Models gx ν s) (hd : ∀ n ∈ I, n ∉ s'.c.computed)
    (hns : NoConstSplit s') (h0 : formVal ν r ≠ 0) :
    ∃ ν', (∀ n ∈ I ++ s.c.computed, ν' n = ν n) ∧ Models gx ν' s' := by
  rcases divGate_eq h with ⟨hs, ⟨i, hi, _⟩, rfl⟩ | ⟨gl, l', gr, r', k, g, h1, h2, h3, ha, rfl⟩
  · exact ⟨ν, fun _ _ => rfl, hm⟩
  · obtain ⟨pl, -, -⟩ := factorSignature_keys h1
    obtain ⟨pr, -, -⟩ := factorSignature_keys h2
    refine extend_add hw ha (fun _ => rfl) hm hd hns fun g0 hg0 hfresh => ?_
    obtain ⟨f1, f2, f3, f4, f5, -, -, -⟩ := withID_fields hg0
    have el : formVal (Function.update ν g0.ident (formVal ν l' / formVal ν r')) l' = formVal ν l' :=
      formVal_congr fun n hn => Function.update_of_ne (by rintro rfl; exact hfresh (kl _ (pl.subset hn))) _ _
    have er : formVal (Function.update ν g0.ident (formVal ν l' / formVal ν r')) r' = formVal ν r' :=
      formVal_congr fun n hn => Function.update_of_ne (by rintro rfl; exact hfresh (kr _ (pr.subset hn))) _ _
    have er' := factorSignature_val ν h2
    have hr' : formVal ν r' ≠ 0 := by intro hz; rw [hz, mul_zero] at er'; exact h0 er'
    refine ⟨formVal ν l' / formVal ν r', ?_, by simp [f1], fun _ => Or.inr (by
      show formVal _ g0.right ≠ 0
      rw [formVal_perm _ f3, er]; exact hr')⟩
    simp only [GateHolds, f1]
    rw [formVal_perm _ f3, formVal_perm _ f5, el, er]
    simp [div_mul_cancel₀ _ hr']

/-! ### base multiplication -/

theorem baseGate_eq {H : Name → Nat} {e f : Factors} {s s' : St} (h : baseGate H e s = some (f, s')) :
    ∃ g, s.add H { typ := .scalarBase, expo := e } = some (s', g) ∧ f = [argF g.ident 1] := by
  unfold baseGate at h
  cases ha : s.add H { typ := .scalarBase, expo := e } with
  | none => simp [ha] at h
  | some p =>
    obtain ⟨s2, g⟩ := p
    simp [ha] at h
    obtain ⟨rfl, rfl⟩ := h
    exact ⟨g, rfl, rfl⟩

theorem baseGate_wf {H : Name → Nat} {I : List Name} {e f : Factors} {s s' : St} (hw : WF I s)
    (he : GoodF q e) (ke : KnownF (I ++ s.c.computed) e) (h : baseGate H e s = some (f, s')) : Res I q s f s' := by
  obtain ⟨g, ha, rfl⟩ := baseGate_eq h
  obtain ⟨hw', hid⟩ := hw.add ha (fun _ => rfl) (fun g0 h0 => by
      obtain ⟨f1, f2, f3, f4, f5, -, -, -⟩ := withID_fields h0
      refine ⟨knownF_perm (f2.map _) (knownF_nil _), knownF_perm (f3.map _) (knownF_nil _),
        (knownF_perm (f4.map _) ke).mono mem_known_left, knownF_perm (f5.map _) (knownF_nil _), by simp, ?_⟩
      intro ht; simp [f1] at ht)
    (fun g0 h0 => by
      obtain ⟨f1, f2, f3, f4, f5, f6, -, -⟩ := withID_fields h0
      exact ⟨by simp [GateShape, f1, f6, f2.eq_nil, f3.eq_nil, f5.eq_nil], (f2.map _).nodup_iff.mpr (by simp), (f3.map _).nodup_iff.mpr (by simp), (f4.map _).nodup_iff.mpr he.nodup,
        (f5.map _).nodup_iff.mpr (by simp)⟩)
    (fun g0 h0 => by
      obtain ⟨f1, f2, f3, f4, -⟩ := withID_fields h0
      simp only [OrdGate, id_eq, f1]
      exact knownF_perm (f4.map _) ke)
  exact ⟨St.add_ext ha (fun _ => rfl), hw', goodF_argF _ _, knownF_argF (List.mem_append_right _ hid)⟩

theorem baseGate_sound {H : Name → Nat} {e f : Factors} {s s' sf : St} {gx : ZMod q → ZMod q}
    {ν : Name → ZMod q} (h : baseGate H e s = some (f, s')) (he : Ext s' sf)
    (hn : NoConfusion sf) (hh : ∀ g ∈ sf.c.gates, GateHolds gx ν g) : formVal ν f = gx (formVal ν e) := by
  obtain ⟨g, ha, rfl⟩ := baseGate_eq h
  have hg := holds_of_ext (St.add_mem ha (fun _ => rfl)) he hn hh
  obtain ⟨g0, hg0, rfl, _⟩ := St.add_spec ha (fun _ => rfl)
  obtain ⟨f1, f2, f3, f4, f5, -, -, -⟩ := withID_fields hg0
  simp only [GateHolds, id_eq, f1] at hg
  rw [formVal_perm ν f4] at hg
  simp [hg]

theorem baseGate_complete {H : Name → Nat} {I : List Name} {e f : Factors} {s s' : St}
    {gx : ZMod q → ZMod q} {ν : Name → ZMod q} (hw : WF I s) (ke : KnownF (I ++ s.c.computed) e)
    (h : baseGate H e s = some (f, s')) (hm : Models gx ν s) (hd : ∀ n ∈ I, n ∉ s'.c.computed)
    (hns : NoConstSplit s') : ∃ ν', (∀ n ∈ I ++ s.c.computed, ν' n = ν n) ∧ Models gx ν' s' := by
  obtain ⟨g, ha, rfl⟩ := baseGate_eq h
  refine extend_add hw ha (fun _ => rfl) hm hd hns fun g0 hg0 hfresh => ?_
  obtain ⟨f1, f2, f3, f4, f5, -, -, -⟩ := withID_fields hg0
  refine ⟨gx (formVal ν e), ?_, by simp [f1], by simp [QuotOK, f1]⟩
  have ee : formVal (Function.update ν g0.ident (gx (formVal ν e))) e = formVal ν e :=
    formVal_congr fun n hn => Function.update_of_ne (by rintro rfl; exact hfresh (ke _ hn)) _ _
  simp only [GateHolds, id_eq, f1]
  rw [formVal_perm _ f4, ee]
  simp

end APS.Circuit
