import Verif.Proofs.StaleT
import Verif.Props.Curve

/-! C65, C66, C72-C77: the pairing of package bn256.

`val12 P : Gfp12 → Fp12 P` reads an object of GT as an element of the field `F_{p¹²}` (Spec/Pairing.lean); `ate` is the optimal ate
pairing of the literature over Mathlib's curves (Spec/Ate.lean). -/
namespace APS
open APS.Spec APS.Pairing

/-! ### C65: the digits -/

/-- C65: the table is a signed binary expansion of `6u + 2`, least significant digit first, with highest digit 1 (which the loop
skips). -/
theorem C65_digits : (sixuPlus2NAF.zipIdx.map fun d => d.1 * 2 ^ d.2).sum = 6 * (u : Int) + 2 ∧
    (∀ d ∈ sixuPlus2NAF, d = -1 ∨ d = 0 ∨ d = 1) ∧ sixuPlus2NAF.getLast? = some 1 := by decide +kernel

/-- the table is not a non-adjacent form, although it is called so: the digits 17 and 18 are both 1 -/
example : sixuPlus2NAF.getD 17 0 = 1 ∧ sixuPlus2NAF.getD 18 0 = 1 := by decide

/-! ### C72: the final exponentiation -/

/-- C72: the final step raises to the power `(p¹² - 1) / Order`, exactly, for every argument. -/
theorem C72_power (f : Gfp12) : val12 P (finalExponentiation f) = val12 P f ^ ((P ^ 12 - 1) / Order) := finalExp_eq f

/-- C72: so its value at a non-zero argument lies in the group of order `Order`. -/
theorem C72_order (f : Gfp12) (h : val12 P f ≠ 0) : val12 P (finalExponentiation f) ^ Order = 1 := finalExp_order h

/-- C72: every value of `Pair` on points of the two groups, in whatever representation, has order dividing `Order` and is not 0. -/
theorem C72_pair_order (a : Pt Int) (b : Pt Gfp2) {A : (E1 P).Point} {B : (E2 P).Point} (ha : Rep1 P a A) (hb : Rep2 P b B)
    (hB : B ∈ GG2) (ht : b.z = Gfp2.one → val2 P b.t = 1) : val12 P (pair a b) ^ Order = 1 ∧ val12 P (pair a b) ≠ 0 := by
  rw [pair_eq_ate a b ha hb hB ht]
  exact ⟨ate_order A hB, ate_ne A hB⟩

example : val12 P (finalExponentiation Gfp12.one) ^ Order = 1 := C72_order _ (by rw [val12_one]; exact one_ne_zero)

/-! ### C74: Pair is the optimal ate pairing -/

/-- C74: `Pair` computes the optimal ate pairing, for every point of `E(F_p)`, every multiple of the generator of G2, and every
representation of them by Jacobian coordinates.  The last hypothesis excludes objects with `z = 1` whose cached `t = z²` is not
up to date. -/
theorem C74_pair (a : Pt Int) (b : Pt Gfp2) {A : (E1 P).Point} {B : (E2 P).Point} (ha : Rep1 P a A) (hb : Rep2 P b B)
    (hB : B ∈ AddSubgroup.zmultiples G2gen) (ht : b.z = Gfp2.one → val2 P b.t = 1) : val12 P (pair a b) = ate A B :=
  pair_eq_ate a b ha hb hB ht

/-- the generators meet the hypotheses -/
example : val12 P (pair curveGen twistGen) = ate G1gen G2gen :=
  C74_pair curveGen twistGen rep_gen1 rep_gen2 (AddSubgroup.mem_zmultiples _) (fun _ => val2_one P)

/-- so does an object computed by `ScalarMult`, with `z ≠ 1` -/
example : val12 P (pair curveGen (g2ScalarMult genMem2 (.obj 0) .gen (3 : Nat) (.obj 0))) = ate G1gen (3 • G2gen) :=
  C74_pair curveGen _ rep_gen1 (C61_g2_scalarMult genMem2 (.obj 0) .gen ⟨by decide, by decide⟩ 3 rep_gen2).1
    (AddSubgroup.nsmul_mem _ (AddSubgroup.mem_zmultiples _) _) (fun hz => absurd hz (by decide +kernel))

/-- C74: the result does not depend on the representation: its encoding is the same. -/
theorem C74_representation (a a' : Pt Int) (b b' : Pt Gfp2) {A : (E1 P).Point} {B : (E2 P).Point} (ha : Rep1 P a A) (hb : Rep2 P b B)
    (ha' : Rep1 P a' A) (hb' : Rep2 P b' B) (hB : B ∈ AddSubgroup.zmultiples G2gen)
    (ht : b.z = Gfp2.one → val2 P b.t = 1) (ht' : b'.z = Gfp2.one → val2 P b'.t = 1) :
    gtMarshal (pair a b) = gtMarshal (pair a' b') := by
  rw [gtMarshal_inj, pair_eq_ate a b ha hb hB ht, pair_eq_ate a' b' ha' hb' hB ht']

/-- C74: objects filled by `Unmarshal` meet the condition on `t`. -/
theorem C74_unmarshal (m : Mem Gfp2) (e : Ref) (b : List UInt8) (h : (g2Unmarshal m e b).1 = true)
    (hz : ((g2Unmarshal m e b).2 e).z = Gfp2.one) : val2 P ((g2Unmarshal m e b).2 e).t = 1 := by
  revert h hz
  unfold g2Unmarshal
  dsimp only
  split_ifs <;> intro h hz
  all_goals first
    | exact h.elim
    | (simp [Mem.setX, Mem.setY, Mem.setZ, Mem.setT, Mem.set, Gfp2.zero, Gfp2.one] at hz; done)
    | (simp only [Mem.setT, Mem.set_same]; exact val2_one P)

/-- C74, independence of the representation, fails without that condition: an object that holds the generator of G2 with `z = 1` and
`t = 0` is paired differently from the generator.  (`twistPoint.Negative` and `Add` into a new object leave such a `t`; no exported
function makes `z = 1` at the same time, except by the coincidence that a computed `z` happens to be 1.) -/
theorem C74_stale_t_refuted : ∃ b b' : Pt Gfp2, Rep2 P b G2gen ∧ Rep2 P b' G2gen ∧
    gtMarshal (pair curveGen b) ≠ gtMarshal (pair curveGen b') :=
  ⟨staleGen, twistGen, rep_stale, rep_gen2, fun h => pair_stale_ne ((gtMarshal_inj _ _).1 h)⟩

/-! ### C66 and C73: infinity and PairingCheck -/

/-- C66: the pairing with infinity is one, and `PairingCheck` of lists of such pairs, also of empty lists, is true. -/
theorem C66_infinity : (∀ (a : Pt Int) (b : Pt Gfp2), curveIsInf a = true ∨ twistIsInf b = true → pair a b = oneGT) ∧
    ∀ (a : List (Pt Int)) (b : List (Pt Gfp2)), a.length ≤ b.length →
      (∀ x ∈ a.zip b, curveIsInf x.1 = true ∨ twistIsInf x.2 = true) → pairingCheck a b = some true := by
  have h0 : ∀ (a : Pt Int) (b : Pt Gfp2), curveIsInf a = true ∨ twistIsInf b = true → pair a b = oneGT := by
    intro a b h
    exact pair_inf (by rw [Bool.or_eq_true]; exact h)
  refine ⟨h0, fun a b hl h => ?_⟩
  obtain ⟨r, h1, h2⟩ := pairingCheck_eq a b hl
  rw [h1, h2.2]
  apply List.prod_eq_one
  intro v hv
  rw [List.mem_map] at hv
  obtain ⟨w, hw, rfl⟩ := hv
  rw [← List.map_uncurry_zip_eq_zipWith, List.mem_map] at hw
  obtain ⟨x, hx, rfl⟩ := hw
  rw [Function.uncurry, h0 _ _ (h x hx)]
  exact val12_one P

/-- infinity of G1, with the generator of G2 -/
example : pair ⟨0, 1, 0, 0⟩ twistGen = oneGT ∧ pairingCheck [⟨0, 1, 0, 0⟩, ⟨0, 1, 0, 0⟩] [twistGen, twistGen] = some true :=
  ⟨C66_infinity.1 _ _ (Or.inl (by decide)), C66_infinity.2 _ _ (by decide) (by
    intro x hx
    simp only [List.zip_cons_cons, List.zip_nil_right, List.mem_cons, List.not_mem_nil, or_false, or_self] at hx
    rw [hx]; exact Or.inl (by decide))⟩

theorem pairingCheckLoop_short : ∀ (a : List (Pt Int)) (b : List (Pt Gfp2)) (acc : Gfp12), b.length ≤ a.length →
    pairingCheckLoop a b acc = if ∀ x ∈ a.drop b.length, curveIsInf x = true then pairingCheckLoop (a.take b.length) b acc else none
  | [], [], acc, _ => by simp [pairingCheckLoop]
  | [], _ :: _, acc, h => by simp at h
  | a :: as, [], acc, _ => by
    rw [pairingCheckLoop]
    have ih := pairingCheckLoop_short as [] acc (Nat.zero_le _)
    simp only [List.length_nil, List.drop_zero, List.take_zero] at ih ⊢
    by_cases ha : curveIsInf a = true
    · rw [if_pos ha, ih]
      have : (∀ x ∈ a :: as, curveIsInf x = true) ↔ ∀ x ∈ as, curveIsInf x = true := by simp [ha]
      simp only [this]
    · rw [if_neg ha, if_neg (fun h => ha (h a List.mem_cons_self))]
  | a :: as, b :: bs, acc, h => by
    have h' : bs.length ≤ as.length := by simpa using h
    rw [pairingCheckLoop]
    simp only [List.length_cons, List.drop_succ_cons, List.take_succ_cons]
    rw [pairingCheckLoop]
    split
    · exact pairingCheckLoop_short as bs acc h'
    · exact pairingCheckLoop_short as bs _ h'

/-- C73: `PairingCheck` decides whether the product of the pairings is 1, whatever the arguments are. -/
theorem C73_pairingCheck (a : List (Pt Int)) (b : List (Pt Gfp2)) (h : a.length ≤ b.length) :
    ∃ r, pairingCheck a b = some r ∧ (r = true ↔ ((List.zipWith pair a b).map (val12 P)).prod = 1) := pairingCheck_eq a b h

/-- C73: it crashes exactly when `b` is too short and one of the points of `a` without partner is finite. -/
theorem C73_crash (a : List (Pt Int)) (b : List (Pt Gfp2)) :
    pairingCheck a b = none ↔ ∃ x ∈ a.drop b.length, curveIsInf x = false := by
  by_cases h : a.length ≤ b.length
  · obtain ⟨r, h1, _⟩ := pairingCheck_eq a b h
    rw [h1, List.drop_eq_nil_of_le h]; simp
  · have h' : b.length ≤ a.length := by omega
    rw [pairingCheck, pairingCheckLoop_short a b _ h', Option.map_eq_none_iff]
    split
    · rename_i hx
      obtain ⟨r, h1, _⟩ := pairingCheckLoop_eq (a.take b.length) b Gfp12.one (by simp)
      rw [h1]
      simp only [reduceCtorEq, false_iff, not_exists, not_and]
      intro x hx'; rw [hx x hx']; simp
    · rename_i hx
      simp only [true_iff]
      push Not at hx
      obtain ⟨x, h1, h2⟩ := hx
      exact ⟨x, h1, by simpa using h2⟩

example : pairingCheck [curveGen] [] = none := (C73_crash _ _).2 ⟨curveGen, by simp, by decide⟩

/-! ### C75: non-degeneracy -/

/-- C75: the pairing of the generators is not 1; it is an element of order exactly `Order`. -/
theorem C75_nondegenerate : val12 P (pair curveGen twistGen) ≠ 1 ∧ orderOf (val12 P (pair curveGen twistGen)) = Order := by
  rw [pair_eq_ate curveGen twistGen rep_gen1 rep_gen2 (AddSubgroup.mem_zmultiples _) (fun _ => val2_one P)]
  exact ⟨ate_gen_ne, ate_gen_order⟩

/-- C75: so the pairing of multiples of the generators is one only when one of them is infinity. -/
theorem C75_multiples (a : Pt Int) (b : Pt Gfp2) (k l : Nat) (ha : Rep1 P a (k • G1gen)) (hb : Rep2 P b (l • G2gen))
    (ht : b.z = Gfp2.one → val2 P b.t = 1) : val12 P (pair a b) = 1 ↔ curveIsInf a = true ∨ twistIsInf b = true := by
  rw [pair_eq_ate a b ha hb (AddSubgroup.nsmul_mem _ (AddSubgroup.mem_zmultiples _) _) ht,
    ate_nsmul k l G1gen (AddSubgroup.mem_zmultiples _), ← orderOf_dvd_iff_pow_eq_one, ate_gen_order,
    bnOrderPrime.out.dvd_mul, ← addOrder_G1, addOrderOf_dvd_iff_nsmul_eq_zero, addOrder_G1, ← addOrder_G2, addOrderOf_dvd_iff_nsmul_eq_zero]
  have h1 := rep_zero_iff ha
  have h2 := rep2_zero_iff hb
  rw [← h1, ← h2]
  have e1 : curveIsInf a = true ↔ a.z = 0 := by simp [curveIsInf]
  have e2 : twistIsInf b = true ↔ b.z = ⟨0, 0⟩ := isZero_iff _
  rw [e1, e2]

example : val12 P (pair curveGen (g2ScalarMult genMem2 (.obj 0) .gen (3 : Nat) (.obj 0))) ≠ 1 := by
  have h := C75_multiples curveGen _ 1 3 (by rw [one_nsmul]; exact rep_gen1)
    (C61_g2_scalarMult genMem2 (.obj 0) .gen ⟨by decide, by decide⟩ 3 rep_gen2).1 (fun hz => absurd hz (by decide +kernel))
  rw [Ne, h]
  decide +kernel

/-! ### C77: bilinearity -/

/-- C77: the pairing is additive in the first argument, for all points of `E(F_p)`, all multiples of the generator of G2 and all
representations. -/
theorem C77_additive_left (a b s : Pt Int) (q : Pt Gfp2) {A B : (E1 P).Point} {Q : (E2 P).Point} (ha : Rep1 P a A) (hb : Rep1 P b B)
    (hs : Rep1 P s (A + B)) (hq : Rep2 P q Q) (hQ : Q ∈ AddSubgroup.zmultiples G2gen) (tq : q.z = Gfp2.one → val2 P q.t = 1) :
    gtMarshal (pair s q) = gtMarshal (gtAdd (pair a q) (pair b q)) := by
  rw [gtMarshal_inj, gtAdd, val12_mul, pair_eq_ate s q hs hq hQ tq, pair_eq_ate a q ha hq hQ tq, pair_eq_ate b q hb hq hQ tq]
  exact ate_add_left A B hQ

/-- C77: and in the second argument. -/
theorem C77_additive_right (a : Pt Int) (q r w : Pt Gfp2) {A : (E1 P).Point} {Q R : (E2 P).Point} (ha : Rep1 P a A)
    (hq : Rep2 P q Q) (hr : Rep2 P r R) (hw : Rep2 P w (Q + R)) (hQ : Q ∈ AddSubgroup.zmultiples G2gen)
    (hR : R ∈ AddSubgroup.zmultiples G2gen) (tq : q.z = Gfp2.one → val2 P q.t = 1) (tr : r.z = Gfp2.one → val2 P r.t = 1)
    (tw : w.z = Gfp2.one → val2 P w.t = 1) : gtMarshal (pair a w) = gtMarshal (gtAdd (pair a q) (pair a r)) := by
  rw [gtMarshal_inj, gtAdd, val12_mul, pair_eq_ate a w ha hw (AddSubgroup.add_mem _ hQ hR) tw, pair_eq_ate a q ha hq hQ tq,
    pair_eq_ate a r ha hr hR tr]
  exact ate_add_right A hQ hR

/-- C77: `Pair(k·A, l·Q) = Pair(A, Q)^(k l)`, with the scalar multiples computed by `ScalarMult` of G1, G2 and GT, compared by their
encodings. -/
theorem C77_scalars (m : Mem Int) (n : Mem Gfp2) (a e q f : Ref) (hu : isUser a ∧ isUser q) (k l : Nat) {A : (E1 P).Point} {Q : (E2 P).Point}
    (ha : Rep1 P (m a) A) (hq : Rep2 P (n q) Q) (hQ : Q ∈ AddSubgroup.zmultiples G2gen) (tq : (n q).z = Gfp2.one → val2 P (n q).t = 1)
    (tf : (g2ScalarMult n f q l f).z = Gfp2.one → val2 P (g2ScalarMult n f q l f).t = 1) :
    gtMarshal (pair (g1ScalarMult m e a k e) (g2ScalarMult n f q l f)) =
      gtMarshal (gtScalarMult (pair (m a) (n q)) ((k * l : Nat) : Int)) := by
  rw [gtMarshal_inj, gtScalarMult, val12_exp, pair_eq_ate (m a) (n q) ha hq hQ tq,
    pair_eq_ate _ _ (C61_g1_scalarMult m e a hu.1 k ha).1 (C61_g2_scalarMult n f q hu.2 l hq).1 (AddSubgroup.nsmul_mem _ hQ _) tf]
  exact ate_nsmul k l A hQ

/-- C77: a key agreement: `Pair(a·G1, b·G2) = Pair(b·G1, a·G2)`. -/
theorem C77_symmetric (k l : Nat) (a a' : Pt Int) (b b' : Pt Gfp2) (ha : Rep1 P a (k • G1gen)) (ha' : Rep1 P a' (l • G1gen))
    (hb : Rep2 P b (l • G2gen)) (hb' : Rep2 P b' (k • G2gen)) (ht : b.z = Gfp2.one → val2 P b.t = 1)
    (ht' : b'.z = Gfp2.one → val2 P b'.t = 1) : val12 P (pair a b) = val12 P (pair a' b') := by
  have hm : ∀ n : Nat, n • G2gen ∈ GG2 := fun n => AddSubgroup.nsmul_mem _ (AddSubgroup.mem_zmultiples _) _
  rw [pair_eq_ate a b ha hb (hm _) ht, pair_eq_ate a' b' ha' hb' (hm _) ht', ate_nsmul _ _ _ (AddSubgroup.mem_zmultiples _),
    ate_nsmul _ _ _ (AddSubgroup.mem_zmultiples _), Nat.mul_comm]

/-- `Pair(2·G1, G2) = Pair(G1, G2)²` -/
example : gtMarshal (pair (g1ScalarMult genMem1 (.obj 0) .gen (2 : Nat) (.obj 0)) twistGen) =
    gtMarshal (gtAdd (pair curveGen twistGen) (pair curveGen twistGen)) := by
  have h := (C61_g1_scalarMult genMem1 (.obj 0) .gen ⟨by decide, by decide⟩ 2 rep_gen1).1
  rw [two_nsmul] at h
  exact C77_additive_left curveGen curveGen _ twistGen rep_gen1 rep_gen1 h rep_gen2 (AddSubgroup.mem_zmultiples _) (fun _ => val2_one P)

/-- `Pair(G1, 2·G2) = Pair(G1, G2)²` for the double of the generator as `Add` computes it -/
example : gtMarshal (pair curveGen (g2Add genMem2 (.obj 0) .gen .gen (.obj 0))) =
    gtMarshal (gtAdd (pair curveGen twistGen) (pair curveGen twistGen)) := by
  have h := (C60_g2_add genMem2 (.obj 0) .gen .gen rep_gen2 rep_gen2 (Or.inl (by decide))).1
  exact C77_additive_right curveGen twistGen twistGen _ rep_gen1 rep_gen2 rep_gen2 h (AddSubgroup.mem_zmultiples _)
    (AddSubgroup.mem_zmultiples _) (fun _ => val2_one P) (fun _ => val2_one P) (fun hz => absurd hz (by decide +kernel))

/-! ### C76: GT -/

/-- C76: `Add`, `Neg`, `ScalarMult` are multiplication, inversion and powering. -/
theorem C76_operations (a b : Gfp12) (k : Nat) : val12 P (gtAdd a b) = val12 P a * val12 P b ∧
    val12 P (gtNeg a) = (val12 P a)⁻¹ ∧ val12 P (gtScalarMult a k) = val12 P a ^ k :=
  ⟨val12_mul P a b, val12_invert P a, val12_exp P a k⟩

theorem exp_congr (a : Gfp12) (k k' : Int) : ∀ (i : Nat) (s : Gfp12), (∀ j, j < i → bitInt k j = bitInt k' j) →
    Gfp12.expLoop P a k i s = Gfp12.expLoop P a k' i s
  | 0, _, _ => rfl
  | i + 1, s, h => by
    rw [Gfp12.expLoop, Gfp12.expLoop, h i (Nat.lt_succ_self _)]
    exact exp_congr a k k' i _ fun j hj => h j (by omega)

/-- C76: negative exponents: the loop reads the low `BitLen` two's complement bits, so `-n` acts as `2^(BitLen n) - n`. -/
theorem C76_negative_exponent (a : Gfp12) (n : Nat) (hn : 0 < n) :
    val12 P (gtScalarMult a (-(n : Int))) = val12 P a ^ (2 ^ bitLenInt n - n) := by
  have e : bitLenInt (-(n : Int)) = bitLenInt (n : Int) := by simp [bitLenInt]
  have hlt : n < 2 ^ bitLenInt (n : Int) := lt_two_pow_bitLen' n
  rw [gtScalarMult, Gfp12.exp, e, exp_congr a _ ((2 ^ bitLenInt (n : Int) - n : Nat) : Int), val12_expLoop, val12_one, one_pow, one_mul,
    Nat.mod_eq_of_lt (by omega)]
  intro j hj
  rw [bitInt_nat]
  have h := bitInt_neg n j hn (by rw [e]; omega)
  rw [h, e]
  have h2 : 2 ^ (bitLenInt (n : Int) + 1) - n = 2 ^ bitLenInt (n : Int) * 1 + (2 ^ bitLenInt (n : Int) - n) := by
    rw [Nat.pow_succ]; omega
  rw [h2, Nat.testBit_two_pow_mul_add _ (by omega), if_pos hj]

/-- C76: `Marshal` gives 384 bytes, `Unmarshal` accepts them and gives back the same element; equal elements have equal encodings. -/
theorem C76_encoding (a b : Gfp12) : (gtMarshal a).length = 384 ∧
    (∃ c, gtUnmarshal (gtMarshal a) = some c ∧ val12 P c = val12 P a) ∧ (gtMarshal a = gtMarshal b ↔ val12 P a = val12 P b) :=
  ⟨(gtUnmarshal_marshal a).1, ⟨_, (gtUnmarshal_marshal a).2, val12_minimal P a⟩, gtMarshal_inj a b⟩

/-- C76: the powers of the pairing of the generators are `Order` different elements: exponents count modulo `Order`. -/
theorem C76_exponents_mod_order (k l : Nat) :
    gtMarshal (gtScalarMult (pair curveGen twistGen) k) = gtMarshal (gtScalarMult (pair curveGen twistGen) l) ↔ k % Order = l % Order := by
  have h := C75_nondegenerate.2
  rw [gtMarshal_inj, gtScalarMult, gtScalarMult, val12_exp, val12_exp]
  have h0 : val12 P (pair curveGen twistGen) ≠ 0 :=
    (C72_pair_order curveGen twistGen rep_gen1 rep_gen2 (AddSubgroup.mem_zmultiples _) (fun _ => val2_one P)).2
  generalize val12 P (pair curveGen twistGen) = g at *
  have h1 : orderOf (Units.mk0 g h0) = Order := by rw [← orderOf_units]; exact h
  rw [← h1]
  have : g ^ k = g ^ l ↔ Units.mk0 g h0 ^ k = Units.mk0 g h0 ^ l := by
    rw [Units.ext_iff, Units.val_pow_eq_pow_val, Units.val_pow_eq_pow_val]; rfl
  rw [this, pow_eq_pow_iff_modEq]; rfl

/-- C76 is false for the exponent -1: `ScalarMult(Pair(G1, G2), -1)` is not the inverse, it is the element itself. -/
theorem C76_minus_one_refuted : val12 P (gtScalarMult (pair curveGen twistGen) (-1)) = val12 P (pair curveGen twistGen) ∧
    val12 P (gtScalarMult (pair curveGen twistGen) (-1)) ≠ (val12 P (pair curveGen twistGen))⁻¹ := by
  have h := C76_negative_exponent (pair curveGen twistGen) 1 (by norm_num)
  rw [show 2 ^ bitLenInt ((1 : Nat) : Int) - 1 = 1 by decide, pow_one] at h
  have h' : val12 P (gtScalarMult (pair curveGen twistGen) (-1)) = val12 P (pair curveGen twistGen) := h
  refine ⟨h', fun e => ?_⟩
  rw [h'] at e
  have h0 : val12 P (pair curveGen twistGen) ≠ 0 :=
    (C72_pair_order curveGen twistGen rep_gen1 rep_gen2 (AddSubgroup.mem_zmultiples _) (fun _ => val2_one P)).2
  have ho := C75_nondegenerate.2
  generalize val12 P (pair curveGen twistGen) = g at *
  have h2 : g ^ 2 = 1 := by
    have : g * g = 1 := by nth_rewrite 2 [e]; exact mul_inv_cancel₀ h0
    exact (pow_two g).trans this
  have := orderOf_dvd_of_pow_eq_one h2
  rw [ho] at this
  have := Nat.le_of_dvd (by norm_num) this
  have h3 : 2 < Order := by decide +kernel
  omega

/-- C76: `Unmarshal` does not check anything but the length: every 384 bytes are accepted, e.g. zeros, which are no element of GT
(every element of the group is invertible), and several byte strings give the same element. -/
theorem C76_unmarshal_refuted : (∀ m : List UInt8, (gtUnmarshal m).isSome = true ↔ m.length = 384) ∧
    (∃ m c, gtUnmarshal m = some c ∧ val12 P c = 0) ∧
    ∃ m m' c c', m ≠ m' ∧ gtUnmarshal m = some c ∧ gtUnmarshal m' = some c' ∧ val12 P c = val12 P c' := by
  refine ⟨fun m => ?_, ⟨List.replicate 384 0, Gfp12.zero, by decide +kernel, val12_zero P⟩, ?_⟩
  · unfold gtUnmarshal
    split_ifs with h <;> simp [h]
    push Not at h
    exact h
  · refine ⟨List.replicate 384 0, slot P ++ List.replicate 352 0, Gfp12.zero, ⟨⟨⟨P, 0⟩, ⟨0, 0⟩, ⟨0, 0⟩⟩, Gfp6.zero⟩, by decide +kernel,
      by decide +kernel, by decide +kernel, ?_⟩
    rw [← minimal12_eq_iff]
    decide +kernel

end APS
