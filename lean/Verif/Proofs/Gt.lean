import Verif.Proofs.FinalExp
import Verif.Proofs.Marshal

/-! GT: equality of values, `IsOne`, `PairingCheck`, encodings -/
namespace APS
open APS.Spec APS.Pairing

theorem val6_eq_iff (a b : Gfp6) : val6 P a = val6 P b ↔ val2 P a.x = val2 P b.x ∧ val2 P a.y = val2 P b.y ∧ val2 P a.z = val2 P b.z := by
  constructor
  · intro h
    have h0 : val6 P a - val6 P b = 0 := sub_eq_zero.2 h
    rw [← val6_sub] at h0
    have := basis_zero (p := P) h0
    simp only [Gfp6.sub, val2_sub, sub_eq_zero] at this
    exact this
  · rintro ⟨h1, h2, h3⟩
    simp only [val6, h1, h2, h3]

theorem val12_eq_iff (a b : Gfp12) : val12 P a = val12 P b ↔ val6 P a.x = val6 P b.x ∧ val6 P a.y = val6 P b.y := by
  constructor
  · intro h
    exact ⟨congrArg QuadraticAlgebra.im h, congrArg QuadraticAlgebra.re h⟩
  · rintro ⟨h1, h2⟩
    simp only [val12, h1, h2]

def canon2 (a : Gfp2) : Prop := 0 ≤ a.x ∧ a.x < P ∧ 0 ≤ a.y ∧ a.y < P

theorem min_eq (n : Int) : (if n < 0 ∨ (P : Int) ≤ n then n % P else n) = n % P := by
  split
  · rfl
  · rw [Int.emod_eq_of_lt] <;> omega

theorem minimal2 (a : Gfp2) : a.minimal P = ⟨a.x % P, a.y % P⟩ := by simp only [Gfp2.minimal, min_eq]

theorem minimal2_eq_iff (a b : Gfp2) : a.minimal P = b.minimal P ↔ val2 P a = val2 P b := by
  rw [minimal2, minimal2, val2_eq_iff]
  simp

theorem minimal12_eq_iff (a b : Gfp12) : a.minimal P = b.minimal P ↔ val12 P a = val12 P b := by
  rw [val12_eq_iff, val6_eq_iff, val6_eq_iff]
  simp only [Gfp12.minimal, Gfp6.minimal, Gfp12.mk.injEq, Gfp6.mk.injEq, minimal2_eq_iff]

theorem minimal_idem (a : Gfp12) : (a.minimal P).minimal P = a.minimal P :=
  (minimal12_eq_iff _ _).2 (val12_minimal P a)

theorem minimal_one : Gfp12.one.minimal P = Gfp12.one := by decide +kernel

theorem minimal_zero : Gfp12.zero.minimal P = Gfp12.zero := by decide +kernel

/-- `IsOne` decides equality with 1 in the field -/
theorem isOne_iff (a : Gfp12) : a.isOne P = true ↔ val12 P a = 1 := by
  rw [← val12_one, ← minimal12_eq_iff, minimal_one]
  unfold Gfp12.isOne
  have hy : 0 ≤ (a.minimal P).y.z.y := by
    simp only [Gfp12.minimal, Gfp6.minimal, minimal2]
    exact (mod_lt_P _).1
  generalize a.minimal P = b at hy
  obtain ⟨⟨⟨_, _⟩, ⟨_, _⟩, ⟨_, _⟩⟩, ⟨⟨_, _⟩, ⟨_, _⟩, ⟨_, _⟩⟩⟩ := b
  simp only [Gfp6.isZero, Gfp6.isOne, Gfp2.isZero, Gfp2.isOne, Gfp12.one, Gfp6.one, Gfp6.zero, Gfp2.zero, Gfp2.one,
    Bool.and_eq_true, beq_iff_eq, Gfp12.mk.injEq, Gfp6.mk.injEq, Gfp2.mk.injEq] at hy ⊢
  constructor
  · intro h; omega
  · intro h; omega

theorem isZero12_iff (a : Gfp12) : a.isZero P = true ↔ val12 P a = 0 := by
  rw [← val12_zero, ← minimal12_eq_iff, minimal_zero]
  unfold Gfp12.isZero
  generalize a.minimal P = b
  obtain ⟨⟨⟨_, _⟩, ⟨_, _⟩, ⟨_, _⟩⟩, ⟨⟨_, _⟩, ⟨_, _⟩, ⟨_, _⟩⟩⟩ := b
  simp only [Gfp6.isZero, Gfp2.isZero, Gfp12.zero, Gfp6.zero, Gfp2.zero,
    Bool.and_eq_true, beq_iff_eq, Gfp12.mk.injEq, Gfp6.mk.injEq, Gfp2.mk.injEq, and_assoc]

/-! ### PairingCheck -/

theorem pair_inf {a : Pt Int} {b : Pt Gfp2} (h0 : (curveIsInf a || twistIsInf b) = true) : pair a b = Gfp12.one := by
  unfold pair optimalAte
  rw [if_pos (by rw [Bool.or_comm]; exact h0)]

theorem pair_fin {a : Pt Int} {b : Pt Gfp2} (h0 : ¬ (curveIsInf a || twistIsInf b) = true) :
    pair a b = finalExponentiation (miller b a) := by
  unfold pair optimalAte
  rw [if_neg (by rw [Bool.or_comm]; exact h0)]

theorem pairingCheckLoop_eq (a : List (Pt Int)) : ∀ (b : List (Pt Gfp2)) (acc : Gfp12), a.length ≤ b.length →
    ∃ r, pairingCheckLoop a b acc = some r ∧ val12 P (finalExponentiation r) =
      val12 P (finalExponentiation acc) * ((List.zipWith pair a b).map (val12 P)).prod := by
  induction a with
  | nil => exact fun _ acc _ => ⟨acc, by rw [pairingCheckLoop], by rw [List.zipWith_nil_left, List.map_nil, List.prod_nil, mul_one]⟩
  | cons a as ih =>
    intro b acc h
    cases b with
    | nil => simp at h
    | cons b bs =>
    have hl : as.length ≤ bs.length := by simpa using h
    rw [pairingCheckLoop]
    by_cases h0 : (curveIsInf a || twistIsInf b) = true
    · rw [if_pos h0]
      obtain ⟨r, h1, h2⟩ := ih bs acc hl
      refine ⟨r, h1, ?_⟩
      rw [h2, List.zipWith_cons_cons, List.map_cons, List.prod_cons, pair_inf h0, val12_one, one_mul]
    · rw [if_neg h0]
      obtain ⟨r, h1, h2⟩ := ih bs (acc.mul P (miller b a)) hl
      refine ⟨r, h1, ?_⟩
      rw [h2, List.zipWith_cons_cons, List.map_cons, List.prod_cons, pair_fin h0, finalExp_eq, val12_mul, finalExp_eq, finalExp_eq, mul_pow,
        mul_assoc]

theorem pairingCheck_eq (a : List (Pt Int)) (b : List (Pt Gfp2)) (h : a.length ≤ b.length) :
    ∃ r, pairingCheck a b = some r ∧ (r = true ↔ ((List.zipWith pair a b).map (val12 P)).prod = 1) := by
  obtain ⟨r, h1, h2⟩ := pairingCheckLoop_eq a b Gfp12.one h
  refine ⟨(finalExponentiation r).isOne P, by rw [pairingCheck, h1]; rfl, ?_⟩
  rw [isOne_iff, h2, finalExp_eq, val12_one, one_pow, one_mul]

/-! ### encodings -/

def flat (l : List Int) : List UInt8 := l.flatMap slot

theorem flat_length : ∀ l : List Int, (∀ n ∈ l, 0 ≤ n ∧ n < P) → (flat l).length = 32 * l.length
  | [], _ => rfl
  | a :: l, h => by
    have := flat_length l fun n hn => h n (List.mem_cons_of_mem _ hn)
    have h1 := slot_length (h a List.mem_cons_self).1 (h a List.mem_cons_self).2
    have e : flat (a :: l) = slot a ++ flat l := List.flatMap_cons
    rw [e, List.length_append, h1, this, List.length_cons]; omega

theorem word_flat : ∀ (l : List Int) (_ : ∀ n ∈ l, 0 ≤ n ∧ n < P) (i : Nat) (hi : i < l.length), word (flat l) i = l[i]
  | [], _, i, hi => absurd hi (by simp)
  | a :: l, h, i, hi => by
    have h1 := slot_length (h a List.mem_cons_self).1 (h a List.mem_cons_self).2
    have e : flat (a :: l) = slot a ++ flat l := List.flatMap_cons
    rw [e]
    match i with
    | 0 =>
      unfold word
      rw [Nat.mul_zero, List.drop_zero, List.take_append_of_le_length (by omega), List.take_of_length_le (by omega),
        slot_val (h a List.mem_cons_self).1]
      rfl
    | i + 1 =>
      have := word_flat l (fun n hn => h n (List.mem_cons_of_mem _ hn)) i (by simpa using hi)
      unfold word at this ⊢
      rw [show 32 * (i + 1) = (slot a).length + 32 * i by omega, ← List.drop_drop, List.drop_left, this]
      rfl

/-- the numbers in the order in which they are written -/
def coords (n : Gfp12) : List Int :=
  [n.x.x.x, n.x.x.y, n.x.y.x, n.x.y.y, n.x.z.x, n.x.z.y, n.y.x.x, n.y.x.y, n.y.y.x, n.y.y.y, n.y.z.x, n.y.z.y]

theorem gtMarshal_flat (n : Gfp12) : gtMarshal n = flat (coords (n.minimal P)) := by
  simp [gtMarshal, flat, coords, List.append_assoc]

theorem coords_bounds (n : Gfp12) : ∀ c ∈ coords (n.minimal P), 0 ≤ c ∧ c < P := by
  intro c hc
  simp only [coords, Gfp12.minimal, Gfp6.minimal, minimal2, List.mem_cons, List.not_mem_nil, or_false] at hc
  rcases hc with rfl | rfl | rfl | rfl | rfl | rfl | rfl | rfl | rfl | rfl | rfl | rfl <;> exact mod_lt_P _

theorem gtUnmarshal_marshal (n : Gfp12) : (gtMarshal n).length = 384 ∧ gtUnmarshal (gtMarshal n) = some (n.minimal P) := by
  have hb := coords_bounds n
  have hl : (gtMarshal n).length = 384 := by rw [gtMarshal_flat, flat_length _ hb]; rfl
  refine ⟨hl, ?_⟩
  unfold gtUnmarshal
  rw [if_neg (by omega)]
  have hw := word_flat _ hb
  have hlen : (coords (n.minimal P)).length = 12 := rfl
  rw [gtMarshal_flat, hw 0 (by rw [hlen]; norm_num), hw 1 (by rw [hlen]; norm_num), hw 2 (by rw [hlen]; norm_num), hw 3 (by rw [hlen]; norm_num), hw 4 (by rw [hlen]; norm_num), hw 5 (by rw [hlen]; norm_num),
    hw 6 (by rw [hlen]; norm_num), hw 7 (by rw [hlen]; norm_num), hw 8 (by rw [hlen]; norm_num), hw 9 (by rw [hlen]; norm_num), hw 10 (by rw [hlen]; norm_num), hw 11 (by rw [hlen]; norm_num)]
  rfl

theorem gtMarshal_inj (a b : Gfp12) : gtMarshal a = gtMarshal b ↔ val12 P a = val12 P b := by
  rw [← minimal12_eq_iff]
  constructor
  · intro h
    have := (gtUnmarshal_marshal a).2
    rw [h, (gtUnmarshal_marshal b).2] at this
    exact (Option.some.inj this).symm
  · intro h
    rw [gtMarshal_flat, gtMarshal_flat, h]

end APS
