import Verif.Proofs.BnField
import Verif.Proofs.Twist
import Mathlib.GroupTheory.OrderOfElement

/-! the generators and their order, computed by the kernel -/
namespace APS
open APS.Spec APS.Pairing

def forceInt {α : Type} (a : Int) (k : Int → α) : α :=
  match a with
  | .ofNat n => forceNat n fun n => k (.ofNat n)
  | .negSucc n => forceNat n fun n => k (.negSucc n)

theorem forceInt_eq {α : Type} (a : Int) (k : Int → α) : forceInt a k = k a := by
  cases a <;> simp [forceInt, forceNat_eq]

def forcePt {α : Type} (a : Pt Int) (k : Pt Int → α) : α :=
  forceInt a.x fun x => forceInt a.y fun y => forceInt a.z fun z => forceInt a.t fun t => k ⟨x, y, z, t⟩

theorem forcePt_eq {α : Type} (a : Pt Int) (k : Pt Int → α) : forcePt a k = k a := by
  simp [forcePt, forceInt_eq]

def forceG2 {α : Type} (a : Gfp2) (k : Gfp2 → α) : α := forceInt a.x fun x => forceInt a.y fun y => k ⟨x, y⟩

theorem forceG2_eq {α : Type} (a : Gfp2) (k : Gfp2 → α) : forceG2 a k = k a := by
  simp [forceG2, forceInt_eq]

def forceTw {α : Type} (a : Pt Gfp2) (k : Pt Gfp2 → α) : α :=
  forceG2 a.x fun x => forceG2 a.y fun y => forceG2 a.z fun z => forceG2 a.t fun t => k ⟨x, y, z, t⟩

theorem forceTw_eq {α : Type} (a : Pt Gfp2) (k : Pt Gfp2 → α) : forceTw a k = k a := by
  simp [forceTw, forceG2_eq]

/-- the value computed by `Add` into a third object with fourth field 0 -/
def addV (p : Nat) (a b : Pt Int) : Pt Int :=
  if a.z = 0 then b else if b.z = 0 then a
  else if addU1 p a b = addU1 p b a ∧ addS1 p a b = addS1 p b a then dblPt p a 0 else addPt p a b 0

/-- does double-and-add end in infinity -/
def mulZ (p : Nat) (a : Pt Int) (k : Nat) : Nat → Pt Int → Bool
  | 0, s => s.z == 0
  | i + 1, s => forcePt (dblPt p s 0) fun t => if k.testBit i then forcePt (addV p t a) (mulZ p a k i) else mulZ p a k i t

/-- see `addV` -/
def addW (p : Nat) (a b : Pt Gfp2) : Pt Gfp2 :=
  if a.z = ⟨0, 0⟩ then b else if b.z = ⟨0, 0⟩ then a
  else if twU p a b = twU p b a ∧ twS p a b = twS p b a then dblTw p a Gfp2.zero else addTw p a b Gfp2.zero

/-- see `mulZ` -/
def mulW (p : Nat) (a : Pt Gfp2) (k : Nat) : Nat → Pt Gfp2 → Bool
  | 0, s => s.z == ⟨0, 0⟩
  | i + 1, s => forceTw (dblTw p s Gfp2.zero) fun t => if k.testBit i then forceTw (addW p t a) (mulW p a k i) else mulW p a k i t

section
variable {p : Nat} [hp : Fact p.Prime]

theorem addV_rep (hp2 : p ≠ 2) {a b : Pt Int} {P Q : (E1 p).Point} (ha : Rep1 p a P) (hb : Rep1 p b Q) :
    Rep1 p (addV p a b) (P + Q) := by
  unfold addV
  by_cases h1 : a.z = 0
  · rw [if_pos h1, (rep_zero_iff ha).1 h1, zero_add]; exact hb
  rw [if_neg h1]
  by_cases h2 : b.z = 0
  · rw [if_pos h2, (rep_zero_iff hb).1 h2, add_zero]; exact ha
  rw [if_neg h2]
  by_cases h3 : addU1 p a b = addU1 p b a ∧ addS1 p a b = addS1 p b a
  · rw [if_pos h3, ← (rep_eq_of ha hb h1 h2).1 h3]; exact rep_dbl hp2 ha _
  · rw [if_neg h3]; exact rep_add hp2 ha hb h1 h2 h3 _

theorem mulZ_rep (hp2 : p ≠ 2) {a : Pt Int} {Q : (E1 p).Point} (ha : Rep1 p a Q) (k : Nat) :
    ∀ i s (S : (E1 p).Point), Rep1 p s S → mulZ p a k i s = true → 2 ^ i • S + (k % 2 ^ i) • Q = 0
  | 0, s, S, hs, h => by
    rw [pow_zero, Nat.mod_one, zero_nsmul, one_nsmul, add_zero]
    simp only [mulZ, beq_iff_eq] at h
    exact (rep_zero_iff hs).1 h
  | i + 1, s, S, hs, h => by
    rw [mulZ, forcePt_eq] at h
    have hd := rep_dbl hp2 hs 0
    have e := double_and_add S Q k i
    by_cases hb : k.testBit i = true
    · rw [if_pos hb, forcePt_eq] at h
      rw [hb, Bool.toNat_true, one_nsmul] at e
      rw [← e]
      exact mulZ_rep hp2 ha k i _ _ (addV_rep hp2 hd ha) h
    · rw [if_neg hb] at h
      rw [Bool.not_eq_true] at hb
      rw [hb, Bool.toNat_false, zero_nsmul, add_zero] at e
      rw [← e]
      exact mulZ_rep hp2 ha k i _ _ hd h

variable [h2 : Fact (∀ r : ZMod p, r ^ 2 ≠ -1 + 0 * r)]

theorem addW_rep (hp2 : p ≠ 2) {a b : Pt Gfp2} {P Q : (E2 p).Point} (ha : Rep2 p a P) (hb : Rep2 p b Q) :
    Rep2 p (addW p a b) (P + Q) := by
  unfold addW
  by_cases h1 : a.z = ⟨0, 0⟩
  · rw [if_pos h1, (rep2_zero_iff ha).1 h1, zero_add]; exact hb
  rw [if_neg h1]
  by_cases h2 : b.z = ⟨0, 0⟩
  · rw [if_pos h2, (rep2_zero_iff hb).1 h2, add_zero]; exact ha
  rw [if_neg h2]
  by_cases h3 : twU p a b = twU p b a ∧ twS p a b = twS p b a
  · rw [if_pos h3, ← (rep2_eq_of ha hb h1 h2).1 h3]; exact rep2_dbl hp2 ha _
  · rw [if_neg h3]; exact rep2_add hp2 ha hb h1 h2 h3 _

theorem mulW_rep (hp2 : p ≠ 2) {a : Pt Gfp2} {Q : (E2 p).Point} (ha : Rep2 p a Q) (k : Nat) :
    ∀ i s (S : (E2 p).Point), Rep2 p s S → mulW p a k i s = true → 2 ^ i • S + (k % 2 ^ i) • Q = 0
  | 0, s, S, hs, h => by
    rw [pow_zero, Nat.mod_one, zero_nsmul, one_nsmul, add_zero]
    simp only [mulW, beq_iff_eq] at h
    exact (rep2_zero_iff hs).1 h
  | i + 1, s, S, hs, h => by
    rw [mulW, forceTw_eq] at h
    have hd := rep2_dbl hp2 hs Gfp2.zero
    have e := double_and_add S Q k i
    by_cases hb : k.testBit i = true
    · rw [if_pos hb, forceTw_eq] at h
      rw [hb, Bool.toNat_true, one_nsmul] at e
      rw [← e]
      exact mulW_rep hp2 ha k i _ _ (addW_rep hp2 hd ha) h
    · rw [if_neg hb] at h
      rw [Bool.not_eq_true] at hb
      rw [hb, Bool.toNat_false, zero_nsmul, add_zero] at e
      rw [← e]
      exact mulW_rep hp2 ha k i _ _ hd h
end

theorem bnP_ne2 : P ≠ 2 := by decide +kernel

theorem natCast_ne_zero {n : Nat} (h1 : 0 < n) (h2 : n < P) : ((n : Nat) : ZMod P) ≠ 0 := by
  rw [Ne, ZMod.natCast_eq_zero_iff]
  intro h
  have := Nat.le_of_dvd h1 h
  omega

theorem three_ne : (3 : ZMod P) ≠ 0 := by
  have := natCast_ne_zero (n := 3) (by norm_num) (by have := bnP_gt; omega)
  exact_mod_cast this

theorem three_ne2 : (3 : Fp2 P) ≠ 0 := by
  intro h
  have h' : ((1 + 1 + 1 : Fp2 P)) = 0 := by rw [← h]; norm_num
  have := congrArg QuadraticAlgebra.re h'
  refine three_ne ?_
  have e : (3 : ZMod P) = 1 + 1 + 1 := by norm_num
  rw [e]; exact this

/-- every pair on the curve equation is a point of `E1` -/
theorem e1_nonsing {x y : ZMod P} (h : y ^ 2 = x ^ 3 + 3) : (E1 P).Nonsingular x y :=
  short_nonsing (two_ne bnP_ne2) three_ne three_ne h

theorem twistB_ne : val2 P twistB ≠ 0 := by
  rw [← val2_zero, Ne, val2_eq_iff]
  decide +kernel

theorem e2_nonsing {x y : Fp2 P} (h : y ^ 2 = x ^ 3 + val2 P twistB) : (E2 P).Nonsingular x y :=
  short_nonsing (two_ne2 bnP_ne2) three_ne2 twistB_ne h

/-- `twistB = 3/ξ` -/
theorem twistB_eq : val2 P twistB * xi P = 3 := by
  rw [mul_comm, ← val2_mulXi, show (3 : Fp2 P) = ((3 : Int) : Fp2 P) by norm_num, ← val2_scalar, val2_eq_iff]
  decide +kernel

/-- the generator of G1 -/
def G1gen : (E1 P).Point := .some 1 2 (e1_nonsing (by norm_num))

theorem rep_gen1 : Rep1 P curveGen G1gen := by
  refine ⟨⟨?_, ?_, ?_⟩, by decide, fun h => ?_⟩
  · simp [curveGen]
  · simp [curveGen]
  · simp [curveGen]
  · exfalso
    have := Int.le_of_dvd (by norm_num [curveGen]) h
    have h2 := bnP_gt
    simp only [curveGen] at this
    omega

theorem gen2_eq : val2 P twistGen.y ^ 2 = val2 P twistGen.x ^ 3 + val2 P twistB := by
  have h : (twistGen.y.square P) = (((twistGen.x.square P).mul P twistGen.x).add twistB).minimal P := by decide +kernel
  have h' := congrArg (val2 P) h
  rw [val2_square, val2_minimal, val2_add, val2_mul, val2_square] at h'
  rw [pow_two, h']; ring

/-- the generator of G2 -/
def G2gen : (E2 P).Point := .some (val2 P twistGen.x) (val2 P twistGen.y) (e2_nonsing gen2_eq)

theorem rep_gen2 : Rep2 P twistGen G2gen := by
  have h1 : val2 P twistGen.z = 1 := val2_one P
  refine ⟨⟨?_, ?_, ?_⟩, by decide, fun h => ?_⟩
  · rw [h1]; exact one_ne_zero
  · rw [h1]; ring
  · rw [h1]; ring
  · rw [h1] at h; exact absurd h one_ne_zero

theorem order_G1 : Order • G1gen = 0 := by
  have h : mulZ P curveGen Order 255 ⟨0, 0, 0, 0⟩ = true := by decide +kernel
  have h0 : Rep1 P ⟨0, 0, 0, 0⟩ (0 : (E1 P).Point) := ⟨by show ((0 : Int) : ZMod P) = 0; simp, le_refl _, fun _ => rfl⟩
  have := mulZ_rep bnP_ne2 rep_gen1 Order 255 _ _ h0 h
  rwa [nsmul_zero, zero_add, Nat.mod_eq_of_lt (by decide +kernel)] at this

theorem order_G2 : Order • G2gen = 0 := by
  have h : mulW P twistGen Order 255 ⟨⟨0, 0⟩, ⟨0, 0⟩, ⟨0, 0⟩, ⟨0, 0⟩⟩ = true := by decide +kernel
  have h0 : Rep2 P ⟨⟨0, 0⟩, ⟨0, 0⟩, ⟨0, 0⟩, ⟨0, 0⟩⟩ (0 : (E2 P).Point) := rep2_infty _ rfl
  have := mulW_rep bnP_ne2 rep_gen2 Order 255 _ _ h0 h
  rwa [nsmul_zero, zero_add, Nat.mod_eq_of_lt (by decide +kernel)] at this

instance bnOrderPrime : Fact Order.Prime := ⟨prime_bnOrder⟩

theorem addOrder_G1 : addOrderOf G1gen = Order :=
  addOrderOf_eq_prime order_G1 (by intro h; cases h)

theorem addOrder_G2 : addOrderOf G2gen = Order :=
  addOrderOf_eq_prime order_G2 (by intro h; cases h)

end APS
