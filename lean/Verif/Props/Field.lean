import Verif.Model.Field
import Verif.Spec.Basic
import Mathlib.Tactic.Ring
import Mathlib.Tactic.NormNum
import Mathlib.Tactic.NormNum.Prime
import Mathlib.FieldTheory.Finite.Basic

/-! Properties C01 - C06: the finite field layer. -/
namespace APS
open APS.Spec

theorem isRep_emod {q : Nat} (hq : 0 < q) (a : Int) : IsRep q (a % q) a :=
  ⟨Int.emod_nonneg _ (by omega), Int.emod_lt_of_pos _ (by omega), Int.mod_modEq _ _⟩

/-- a canonical representative is unique -/
theorem IsRep.unique {q : Nat} {r s a : Int} (h : IsRep q r a) (h' : IsRep q s a) : r = s := by
  obtain ⟨h1, h2, h3⟩ := h
  obtain ⟨k1, k2, k3⟩ := h'
  have : r ≡ s [ZMOD q] := h3.trans k3.symm
  unfold Int.ModEq at this
  rwa [Int.emod_eq_of_lt h1 h2, Int.emod_eq_of_lt k1 k2] at this

/-- C01: the ring operations return the canonical representative of the integer result, for arbitrary
(also negative or unreduced) operands. -/
theorem C01_field_ring_ops (q : Nat) (hq : 0 < q) (a b : Int) :
    IsRep q (Fq.add q a b) (a + b) ∧ IsRep q (Fq.sub q a b) (a - b) ∧ IsRep q (Fq.neg q a) (-a) ∧
    IsRep q (Fq.double q a) (2 * a) ∧ IsRep q (Fq.mul q a b) (a * b) ∧ IsRep q (Fq.mulScalar q a b) (a * b) ∧
    IsRep q (Fq.square q a) (a * a) ∧ IsRep q (Fq.copy q a) a := by
  refine ⟨isRep_emod hq _, isRep_emod hq _, isRep_emod hq _, ?_, isRep_emod hq _, isRep_emod hq _,
    isRep_emod hq _, isRep_emod hq _⟩
  rw [two_mul]; exact isRep_emod hq _

example : (0 : Nat) < 7 ∧ Fq.sub 7 3 (-20) = 2 ∧ Fq.neg 7 9 = 5 := by decide

section inv
variable (q : Nat)

theorem modInverse_some {a r : Int} (hq : 0 < q) (h : Fq.modInverse a q = some r) :
    0 ≤ r ∧ r < q ∧ r * a ≡ 1 [ZMOD q] := by
  unfold Fq.modInverse at h
  split at h
  · rename_i hg
    obtain rfl := Option.some.inj h
    refine ⟨Int.emod_nonneg _ (by omega), Int.emod_lt_of_pos _ (by omega), ?_⟩
    have hb := Int.gcd_eq_gcd_ab a q
    rw [hg] at hb
    have h1 : Int.gcdA a q % q * a ≡ Int.gcdA a q * a [ZMOD q] := (Int.mod_modEq _ _).mul_right _
    refine h1.trans ?_
    rw [Int.modEq_iff_dvd]
    exact ⟨Int.gcdB a q, by push_cast at hb; linarith⟩
  · exact absurd h (by simp)

theorem gcd_prime_iff (hp : q.Prime) (a : Int) : Int.gcd a q = 1 ↔ ¬ (q : Int) ∣ a := by
  rw [Int.gcd_comm, ← Int.isCoprime_iff_gcd_eq_one, (Nat.prime_iff_prime_int.mp hp).coprime_iff_not_dvd]

theorem modInverse_isSome (hp : q.Prime) {a : Int} (h : ¬ (q : Int) ∣ a) : (Fq.modInverse a q).isSome := by
  unfold Fq.modInverse; rw [if_pos ((gcd_prime_iff q hp a).2 h)]; rfl

end inv

/-- C02a: `Inverse` of an element not divisible by the prime `q` returns the canonical inverse. -/
theorem C02_inverse (q : Nat) (hp : q.Prime) (a : Int) (ha : ¬ (q : Int) ∣ a) :
    ∃ r, Fq.inverse q a = some r ∧ 0 ≤ r ∧ r < q ∧ r * a ≡ 1 [ZMOD q] := by
  have h0 : a ≠ 0 := by rintro rfl; exact ha (dvd_zero _)
  obtain ⟨r, hr⟩ := Option.isSome_iff_exists.1 (modInverse_isSome q hp ha)
  exact ⟨r, by simp [Fq.inverse, h0, hr], modInverse_some q hp.pos hr⟩

example : Nat.Prime 7 ∧ ¬ ((7 : Nat) : Int) ∣ -4 ∧ Fq.inverse 7 (-4) = some 5 := by
  refine ⟨by norm_num, by decide, by decide +kernel⟩

/-- C02b: the degenerate arguments. `Inverse 0` silently returns 0; a non-zero multiple of `q` returns nil. -/
theorem C02_inverse_degenerate (q : Nat) (hp : q.Prime) :
    Fq.inverse q 0 = some 0 ∧ ∀ a : Int, a ≠ 0 → (q : Int) ∣ a → Fq.inverse q a = none := by
  refine ⟨by simp [Fq.inverse], fun a h0 hd => ?_⟩
  have : ¬ Int.gcd a q = 1 := by rw [gcd_prime_iff q hp]; exact not_not.2 hd
  simp [Fq.inverse, h0, Fq.modInverse, this]

example : (14 : Int) ≠ 0 ∧ ((7 : Nat) : Int) ∣ 14 := by decide

/-- C02c: `Div a b` is the unique canonical `r` with `r * b ≡ a`, for every `b` not divisible by `q`;
it crashes for non-zero multiples of `q` and is 0 for `b = 0`. -/
theorem C02_div (q : Nat) (hp : q.Prime) (a b : Int) :
    (¬ (q : Int) ∣ b → ∃ r, Fq.div q a b = some r ∧ 0 ≤ r ∧ r < q ∧ r * b ≡ a [ZMOD q] ∧
        ∀ s : Int, 0 ≤ s → s < q → s * b ≡ a [ZMOD q] → s = r) ∧
    (b ≠ 0 → (q : Int) ∣ b → Fq.div q a b = none) ∧ Fq.div q a 0 = some 0 := by
  refine ⟨fun hb => ?_, fun h0 hd => ?_, ?_⟩
  · obtain ⟨i, hi, hi0, hi1, hi2⟩ := C02_inverse q hp b hb
    have hm : Fq.mul q a i % q % q = Fq.mul q a i % q := Int.emod_emod_of_dvd _ dvd_rfl
    have hrep : Fq.mul q a i % q ≡ a * i [ZMOD q] :=
      (Int.mod_modEq _ _).trans (Int.mod_modEq _ _)
    have hmul : (Fq.mul q a i % q) * b ≡ a [ZMOD q] := by
      have := hrep.mul_right b
      refine this.trans ?_
      have h2 := hi2.mul_left a
      rw [mul_one] at h2
      rwa [mul_assoc]
    refine ⟨Fq.mul q a i % q, by simp [Fq.div, hi], Int.emod_nonneg _ (by have := hp.pos; omega),
      Int.emod_lt_of_pos _ (by have := hp.pos; omega), hmul, ?_⟩
    intro s hs0 hs1 hs
    have e : s ≡ a * i [ZMOD q] := by
      have h1 := hs.mul_right i
      have h2 := hi2.mul_left s
      rw [mul_one] at h2
      have h3 : s * b * i = s * (i * b) := by ring
      rw [h3] at h1
      exact h2.symm.trans h1
    exact IsRep.unique ⟨hs0, hs1, e⟩
      ⟨Int.emod_nonneg _ (by have := hp.pos; omega), Int.emod_lt_of_pos _ (by have := hp.pos; omega), hrep⟩
  · simp [Fq.div, (C02_inverse_degenerate q hp).2 b h0 hd]
  · simp [Fq.div, Fq.inverse, Fq.mul]

example : Fq.div 7 3 5 = some 2 ∧ Fq.div 7 3 0 = some 0 ∧ Fq.div 7 3 21 = none := by decide +kernel

/-! ### C03 exponentiation -/

theorem expLoop_modEq (q : Nat) (e : Nat) : ∀ (res x : Int),
    Fq.expLoop q res x e ≡ res * x ^ e [ZMOD q] := by
  induction e using Nat.strongRecOn with
  | _ e ih =>
    intro res x
    rw [Fq.expLoop]
    split
    · rename_i h; subst h; simp [Int.ModEq.refl]
    · rename_i h
      refine (ih (e / 2) (by omega) _ _).trans ?_
      have hsq : (Fq.square q x) ^ (e / 2) ≡ (x * x) ^ (e / 2) [ZMOD q] := (Int.mod_modEq _ _).pow _
      have he : e = 2 * (e / 2) + e % 2 := by omega
      split
      · rename_i h1
        have := (Int.mod_modEq (res * x) q).mul hsq
        refine this.trans ?_
        have : res * x * (x * x) ^ (e / 2) = res * x ^ e := by
          conv_rhs => rw [he, h1, pow_add, pow_mul]
          ring
        rw [this]
      · rename_i h1
        have h0 : e % 2 = 0 := by omega
        have := hsq.mul_left res
        refine this.trans ?_
        have : res * (x * x) ^ (e / 2) = res * x ^ e := by
          conv_rhs => rw [he, h0, pow_add, pow_mul]
          ring
        rw [this]

theorem expLoop_range (q : Nat) (hq : 1 < q) (e : Nat) : ∀ (res x : Int), 0 ≤ res → res < q →
    0 ≤ Fq.expLoop q res x e ∧ Fq.expLoop q res x e < q := by
  induction e using Nat.strongRecOn with
  | _ e ih =>
    intro res x h0 h1
    rw [Fq.expLoop]
    split
    · exact ⟨h0, h1⟩
    · apply ih _ (by omega)
      · split
        · exact Int.emod_nonneg _ (by omega)
        · exact h0
      · split
        · exact Int.emod_lt_of_pos _ (by omega)
        · exact h1

/-- C03a: `ExpInt` is modular exponentiation for every base and every exponent. -/
theorem C03_expInt (q : Nat) (hq : 1 < q) (base : Int) (e : Nat) : IsRep q (Fq.expInt q base e) (base ^ e) := by
  have h := expLoop_modEq q e 1 base
  rw [one_mul] at h
  obtain ⟨h0, h1⟩ := expLoop_range q hq e 1 base (by omega) (by exact_mod_cast hq)
  exact ⟨h0, h1, h⟩

example : Fq.expInt 13 (-2) 5 = 7 := by decide +kernel

/-- C03b (partial): `Exp` is modular exponentiation for exponents below the modulus.  Missing: exponents
`e ≥ q`, for which the claim is false, see `C03_exp_refuted`. -/
theorem C03_exp_partial (q : Nat) (hq : 1 < q) (base : Int) (e : Nat) (he : e < q) :
    IsRep q (Fq.exp q base e) (base ^ e) := by
  have : (Fq.copy q (e : Int)).toNat = e := by
    unfold Fq.copy; rw [Int.emod_eq_of_lt (by omega) (by exact_mod_cast he)]; simp
  unfold Fq.exp; rw [this]
  exact C03_expInt q hq base e

example : (1 < 13) ∧ 12 < 13 ∧ Fq.exp 13 2 12 = 1 := by decide +kernel

/-- C03c: what `Exp` computes for an arbitrary integer exponent: base to the power `e mod q`. -/
theorem C03_exp_actual (q : Nat) (hq : 1 < q) (base e : Int) :
    IsRep q (Fq.exp q base e) (base ^ (e % q).toNat) := C03_expInt q hq base _

/-- C03d: the full claim "Exp is base^e for every e ≥ 0" fails for EVERY prime field with q ≥ 3:
the exponent `q` yields 1 instead of `base^q = base`. -/
theorem C03_exp_refuted (q : Nat) (hp : q.Prime) (h3 : 2 < q) :
    ¬ ∀ (base : Int) (e : Nat), IsRep q (Fq.exp q base e) (base ^ e) := by
  intro h
  have h1 := (h 2 q).2.2
  have h2 := (C03_exp_actual q hp.one_lt 2 q).2.2
  rw [Int.emod_self] at h2
  have h4 : (2 : Int) ^ q ≡ 1 [ZMOD q] := h1.symm.trans (by simpa using h2)
  have := Fact.mk hp
  have h5 : ((2 : Int) ^ q : Int) ≡ 2 [ZMOD q] := by
    rw [← ZMod.intCast_eq_intCast_iff]; push_cast; exact ZMod.pow_card 2
  have h6 : (2 : Int) ≡ 1 [ZMOD q] := h5.symm.trans h4
  have := (Int.modEq_iff_dvd.1 h6)
  have h7 := Int.le_of_dvd (a := q) (b := 1) (by norm_num) (by simpa using (dvd_neg.2 this))
  omega

/-! ### C04 equality and canonicalisation -/

theorem affine_eq (q : Nat) (hq : 0 < q) (a : Int) : Fq.affine q a = a % q := by
  have hn : Fq.neg q q = 0 := by simp [Fq.neg]
  have hnn := Int.emod_nonneg a (b := (q : Int)) (by omega)
  unfold Fq.affine
  simp only [hn]
  split
  · rename_i h
    rw [if_pos (by omega : a ≤ 0), if_neg (by omega)]
  · split
    · rfl
    · rw [Int.emod_eq_of_lt (by omega) (by omega)]

/-- C04: `Affine` canonicalises, `Equal` is congruence (for every integer, also negative), `IsZero` is integer zero. -/
theorem C04_affine_equal (q : Nat) (hq : 0 < q) (a b : Int) :
    IsRep q (Fq.affine q a) a ∧ (Fq.equal q a b = true ↔ a ≡ b [ZMOD q]) ∧ (Fq.isZero a = true ↔ a = 0) := by
  refine ⟨by rw [affine_eq q hq]; exact isRep_emod hq a, ?_, by simp [Fq.isZero]⟩
  unfold Fq.equal
  rw [affine_eq q hq, affine_eq q hq, beq_iff_eq, Int.ModEq]
  have h1 := Int.emod_nonneg a (b := (q : Int)) (by omega)
  have h2 := Int.emod_nonneg b (b := (q : Int)) (by omega)
  omega

example : Fq.equal 7 (-5) 9 = true ∧ Fq.equal 7 (-5) 5 = false := by decide

/-! ### C05 evaluation and scalar product -/

/-- plain mathematical value of a polynomial given by coefficients -/
def Spec.evalInt (x : Int) (v : List Int) : Int := (v.zipIdx.map fun p => p.1 * x ^ p.2).sum

theorem evalInt_cons (x a : Int) (v : List Int) : Spec.evalInt x (a :: v) = a + x * Spec.evalInt x v := by
  unfold Spec.evalInt
  have h : ∀ (v : List Int) (k : Nat), ((v.zipIdx (k+1)).map fun p => p.1 * x ^ p.2).sum
      = x * ((v.zipIdx k).map fun p => p.1 * x ^ p.2).sum := by
    intro v
    induction v with
    | nil => simp
    | cons b v ih =>
      intro k
      simp only [List.zipIdx_cons, List.map_cons, List.sum_cons, ih (k+1)]
      ring
  simp [List.zipIdx_cons, h]

/-- C05a: `EvalPoly` returns a value congruent to `Σ v_i x^i`, canonical as soon as there are two coefficients;
it crashes exactly on the empty slice. -/
theorem C05_evalPoly (q : Nat) (hq : 0 < q) (v : List Int) (x : Int) :
    (v = [] → Fq.evalPoly q v x = none) ∧
    (v ≠ [] → ∃ r, Fq.evalPoly q v x = some r ∧ r ≡ Spec.evalInt x v [ZMOD q] ∧
      (2 ≤ v.length → 0 ≤ r ∧ r < q)) := by
  refine ⟨by rintro rfl; rfl, fun hv => ?_⟩
  induction v with
  | nil => exact absurd rfl hv
  | cons a v ih =>
    cases v with
    | nil => exact ⟨a, rfl, by simp [Spec.evalInt, Int.ModEq.refl], by simp⟩
    | cons b l =>
      obtain ⟨r, hr, hm, -⟩ := ih (by simp)
      refine ⟨Fq.add q (Fq.mul q r x) a, by simp [Fq.evalPoly, hr], ?_, fun _ =>
        ⟨Int.emod_nonneg _ (by omega), Int.emod_lt_of_pos _ (by omega)⟩⟩
      rw [evalInt_cons]
      refine (Int.mod_modEq _ _).trans ?_
      refine Int.ModEq.trans ((Int.mod_modEq _ _).add_right a) ?_
      have := (hm.mul_right x).add_right a
      refine this.trans ?_
      rw [mul_comm, add_comm]

example : Fq.evalPoly 7 [3, 0, -2] 2 = some 2 := by decide

theorem scalarLoop_modEq (q : Nat) : ∀ (l r : List Int) (s : Int),
    Fq.scalarLoop q s l r ≡ s + ((l.zip r).map fun p => p.1 * p.2).sum [ZMOD q]
  | [], r, s => by simp [Fq.scalarLoop, Int.ModEq.refl]
  | a :: l, [], s => by simp [Fq.scalarLoop, Int.ModEq.refl]
  | a :: l, b :: r, s => by
    simp only [Fq.scalarLoop, List.zip_cons_cons, List.map_cons, List.sum_cons]
    refine (scalarLoop_modEq q l r _).trans ?_
    rw [← add_assoc]
    exact (Int.mod_modEq _ _).add_right _

theorem scalarLoop_range (q : Nat) (hq : 0 < q) : ∀ (l r : List Int) (s : Int), 0 ≤ s → s < q →
    0 ≤ Fq.scalarLoop q s l r ∧ Fq.scalarLoop q s l r < q
  | [], r, s => fun h h' => by simpa [Fq.scalarLoop] using ⟨h, h'⟩
  | a :: l, [], s => fun h h' => by simpa [Fq.scalarLoop] using ⟨h, h'⟩
  | a :: l, b :: r, s => fun _ _ =>
    scalarLoop_range q hq l r _ (Int.emod_nonneg _ (by omega)) (Int.emod_lt_of_pos _ (by omega))

/-- C05b: `ScalarProduct` is the canonical inner product for equal lengths and crashes otherwise. -/
theorem C05_scalarProduct (q : Nat) (hq : 0 < q) (l r : List Int) :
    (l.length ≠ r.length → Fq.scalarProduct q l r = none) ∧
    (l.length = r.length → ∃ s, Fq.scalarProduct q l r = some s ∧
      IsRep q s ((l.zip r).map fun p => p.1 * p.2).sum) := by
  refine ⟨fun h => by simp [Fq.scalarProduct, h], fun h => ⟨Fq.scalarLoop q 0 l r, by simp [Fq.scalarProduct, h], ?_⟩⟩
  obtain ⟨h0, h1⟩ := scalarLoop_range q hq l r 0 (by omega) (by omega)
  exact ⟨h0, h1, by simpa using scalarLoop_modEq q l r 0⟩

example : Fq.scalarProduct 7 [1, -2, 3] [4, 5, 6] = some 5 := by decide

/-! ### C06 randomness range -/

theorem setBytes_lt (b : List (Fin 256)) : Fq.setBytes b < 256 ^ b.length := by
  unfold Fq.setBytes
  have : ∀ (b : List (Fin 256)) (acc : Nat),
      b.foldl (fun acc x => 256 * acc + x.val) acc < (acc + 1) * 256 ^ b.length := by
    intro b
    induction b with
    | nil => simp
    | cons x b ih =>
      intro acc
      simp only [List.foldl_cons, List.length_cons]
      refine lt_of_lt_of_le (ih _) ?_
      rw [pow_succ, mul_comm (256 ^ b.length) 256, ← mul_assoc]
      have := x.isLt
      exact Nat.mul_le_mul_right _ (by omega)
  simpa using this b 0

/-- C06: whatever bytes the entropy source delivers, `Rand` returns the value of these bytes, which lies in
`[0, 2^(8*(bitlen/8-1)))`, a range strictly below the modulus; the all-zero bytes yield 0. -/
theorem C06_rand_range (q : Nat) (hq : 16 ≤ Fq.bitLen q) (b : List (Fin 256)) (hb : b.length = Fq.randBytes q) :
    0 ≤ Fq.rand q b ∧ Fq.rand q b < 2 ^ (8 * Fq.randBytes q) ∧ Fq.rand q b < q ∧
    Fq.rand q b = Fq.setBytes b ∧ (∀ x ∈ b, x = 0) = (Fq.rand q b = 0) := by
  have h1 := setBytes_lt b
  have hq0 : q ≠ 0 := by rintro rfl; simp [Fq.bitLen] at hq
  have h2 : 256 ^ b.length < q := by
    have hl : 8 * b.length < q.log2 := by
      rw [hb]; unfold Fq.randBytes; unfold Fq.bitLen at hq ⊢; rw [if_neg hq0] at hq ⊢; omega
    calc 256 ^ b.length = 2 ^ (8 * b.length) := by rw [pow_mul]; norm_num
      _ < 2 ^ q.log2 := Nat.pow_lt_pow_right (by norm_num) hl
      _ ≤ q := Nat.log2_self_le hq0
  have h3 : Fq.rand q b = Fq.setBytes b := Int.emod_eq_of_lt (by omega) (by omega)
  have h256 : (256 : Nat) ^ b.length = 2 ^ (8 * Fq.randBytes q) := by rw [← hb, pow_mul]; norm_num
  refine ⟨by omega, ?_, by omega, h3, ?_⟩
  · rw [h3]; rw [h256] at h1; exact_mod_cast h1
  · rw [h3]
    have : ∀ (b : List (Fin 256)) (acc : Nat),
        (b.foldl (fun acc x => 256 * acc + x.val) acc = 0 ↔ acc = 0 ∧ ∀ x ∈ b, x = 0) := by
      intro b
      induction b with
      | nil => simp
      | cons x b ih =>
        intro acc
        simp only [List.foldl_cons, ih, List.mem_cons, forall_eq_or_imp]
        constructor
        · rintro ⟨h, h'⟩; exact ⟨by omega, Fin.ext (by simp; omega), h'⟩
        · rintro ⟨h, rfl, h''⟩; exact ⟨by simp; omega, h''⟩
    have := this b 0
    simp only [true_and] at this
    rw [eq_iff_iff, ← this]
    unfold Fq.setBytes; omega

/-- for the bn256 group order, `Rand` only reaches residues below 2^240 -/
theorem C06_rand_bn256 : Fq.randBytes
    21888242871839275222246405745257275088548364400416034343698204186575808495617 = 30 := by decide +kernel

example : (16 ≤ Fq.bitLen 65537) ∧ ([7] : List (Fin 256)).length = Fq.randBytes 65537 := by decide +kernel

end APS
