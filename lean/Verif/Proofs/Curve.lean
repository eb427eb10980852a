import Verif.Proofs.Jacobian

/-! curve.go: the memory functions as value functions, and what they represent. -/
namespace APS
open APS.Spec APS.Pairing

namespace Pairing.Mem
variable {K : Type}
@[simp] theorem set_same (m : Mem K) (c : Ref) (v : Pt K) : m.set c v c = v := by simp [set]
theorem set_other (m : Mem K) {c r : Ref} (v : Pt K) (h : r ≠ c) : m.set c v r = m r := by simp [set, h]
theorem set_set (m : Mem K) (c : Ref) (v w : Pt K) : (m.set c v).set c w = m.set c w := by
  funext r; by_cases h : r = c <;> simp [set, h]
end Pairing.Mem
open Pairing.Mem

/-- `Double` of a value, `t` is the content of the unused fourth field of the receiver -/
def dblPt (p : Nat) (a : Pt Int) (t0 : Int) : Pt Int :=
  let A := (a.x * a.x) % p
  let B := (a.y * a.y) % p
  let C := (B * B) % p
  let d := (((a.x + B) * (a.x + B)) % p - A - C) + (((a.x + B) * (a.x + B)) % p - A - C)
  let e := A + A + A
  let X := (e * e) % p - (d + d)
  let Y := (e * (d - X)) % p - (C + C + (C + C) + (C + C + (C + C)))
  ⟨X, Y, (a.y * a.z) % p + (a.y * a.z) % p, t0⟩

/-- `Double` with receiver = argument: the new `y` is used for `z` -/
def dblPtIn (p : Nat) (a : Pt Int) : Pt Int :=
  let r := dblPt p a a.t
  { r with z := (r.y * a.z) % p + (r.y * a.z) % p }

/-- the numbers `u1 u2 s1 s2` of `Add` -/
def addU1 (p : Nat) (a b : Pt Int) : Int := (a.x * ((b.z * b.z) % p)) % p
/-- see `addU1` -/
def addS1 (p : Nat) (a b : Pt Int) : Int := (a.y * ((b.z * ((b.z * b.z) % p)) % p)) % p

/-- `Add` of two finite values that are not equal -/
def addPt (p : Nat) (a b : Pt Int) (t0 : Int) : Pt Int :=
  let u1 := addU1 p a b
  let u2 := addU1 p b a
  let s1 := addS1 p a b
  let s2 := addS1 p b a
  let h := u2 - u1
  let i := ((h + h) * (h + h)) % p
  let j := (h * i) % p
  let r := s2 - s1 + (s2 - s1)
  let v := (u1 * i) % p
  let X := (r * r) % p - j - (v + v)
  let Y := (r * (v - X)) % p - ((s1 * j) % p + (s1 * j) % p)
  let Z := (((a.z + b.z) * (a.z + b.z)) % p - (a.z * a.z) % p - (b.z * b.z) % p) * h % p
  ⟨X, Y, Z, t0⟩

theorem curveDouble_other (p : Nat) (m : Mem Int) {c a : Ref} (h : c ≠ a) :
    curveDouble p m c a = m.set c (dblPt p (m a) (m c).t) := by
  funext r
  have h' : a ≠ c := fun e => h e.symm
  by_cases hr : r = c
  · subst hr; simp [curveDouble, dblPt, setX, setY, setZ, Mem.set, h']
  · simp [curveDouble, setX, setY, setZ, Mem.set, hr]

theorem curveDouble_same (p : Nat) (m : Mem Int) (a : Ref) : curveDouble p m a a = m.set a (dblPtIn p (m a)) := by
  funext r
  by_cases hr : r = a
  · subst hr; simp [curveDouble, dblPt, dblPtIn, setX, setY, setZ, Mem.set]
  · simp [curveDouble, setX, setY, setZ, Mem.set, hr]

theorem curveAdd_eq (p : Nat) (m : Mem Int) (c a b : Ref) : curveAdd p m c a b =
    if (m a).z = 0 then m.set c (m b) else if (m b).z = 0 then m.set c (m a)
    else if addU1 p (m a) (m b) = addU1 p (m b) (m a) ∧ addS1 p (m a) (m b) = addS1 p (m b) (m a) then curveDouble p m c a
    else m.set c (addPt p (m a) (m b) (m c).t) := by
  unfold curveAdd curveIsInf
  by_cases h1 : (m a).z = 0
  · simp [h1]
  by_cases h2 : (m b).z = 0
  · simp [h1, h2]
  simp only [h1, h2, if_false, beq_iff_eq]
  have hc : (addU1 p (m a) (m b) = addU1 p (m b) (m a) ∧ addS1 p (m a) (m b) = addS1 p (m b) (m a)) ↔
    (((m b).x * (((m a).z * (m a).z) % p)) % p - ((m a).x * (((m b).z * (m b).z) % p)) % p == 0 &&
      ((m b).y * (((m a).z * (((m a).z * (m a).z) % p)) % p)) % p -
        ((m a).y * (((m b).z * (((m b).z * (m b).z) % p)) % p)) % p == 0) = true := by
    unfold addU1 addS1
    simp only [Bool.and_eq_true, beq_iff_eq, sub_eq_zero]
    constructor <;> rintro ⟨e1, e2⟩ <;> exact ⟨e1.symm, e2.symm⟩
  by_cases h3 : addU1 p (m a) (m b) = addU1 p (m b) (m a) ∧ addS1 p (m a) (m b) = addS1 p (m b) (m a)
  · rw [if_pos h3, if_pos (hc.1 h3)]
  · rw [if_neg h3, if_neg (fun e => h3 (hc.2 e))]
    funext r
    have hz : ∀ (v w : Int) (d : Ref), (((m.setX c v).setY c w) d).z = (m d).z := by
      intro v w d
      by_cases hd : d = c
      · subst hd; simp [setX, setY, Mem.set]
      · simp [setX, setY, Mem.set, hd]
    by_cases hr : r = c
    · subst hr
      simp only [hz]
      simp [addPt, addU1, addS1, setX, setY, setZ, Mem.set]
    · simp [setX, setY, setZ, Mem.set, hr]

variable {p : Nat} [Fact p.Prime]

theorem two_ne (hp : p ≠ 2) : (2 : ZMod p) ≠ 0 := by
  intro h
  have : ((2 : Nat) : ZMod p) = 0 := by exact_mod_cast h
  rw [ZMod.natCast_eq_zero_iff] at this
  have h2 := Nat.le_of_dvd (by norm_num) this
  have := (Fact.out : p.Prime).two_le
  omega

theorem cast_z_eq_zero {a : Pt Int} {Q : (E1 p).Point} (h : Rep1 p a Q) : (a.z : ZMod p) = 0 ↔ a.z = 0 := by
  rw [ZMod.intCast_zmod_eq_zero_iff_dvd]
  exact ⟨h.2.2, fun e => by rw [e]; exact dvd_zero _⟩

theorem twice_mod (hp : p ≠ 2) (n : Int) : 0 ≤ n % p + n % p ∧ ((p : Int) ∣ n % p + n % p → n % p + n % p = 0) := by
  have hpos : (0 : Int) < p := by exact_mod_cast (Fact.out : p.Prime).pos
  have h0 := Int.emod_nonneg n (ne_of_gt hpos)
  have h1 := Int.emod_lt_of_pos n hpos
  refine ⟨by omega, fun h => ?_⟩
  have h2 : ((n % p + n % p : Int) : ZMod p) = 0 := (ZMod.intCast_zmod_eq_zero_iff_dvd _ _).2 h
  have h3 : (2 : ZMod p) * ((n % p : Int) : ZMod p) = 0 := by push_cast at h2 ⊢; rw [← h2]; ring
  rcases mul_eq_zero.1 h3 with e | e
  · exact absurd e (two_ne hp)
  · have := Int.emod_eq_zero_of_dvd ((ZMod.intCast_zmod_eq_zero_iff_dvd _ _).1 e)
    rw [Int.emod_emod_of_dvd _ (dvd_refl _)] at this
    omega

theorem mod_canon (n : Int) : 0 ≤ n % p ∧ ((p : Int) ∣ n % p → n % p = 0) := by
  have hpos : (0 : Int) < p := by exact_mod_cast (Fact.out : p.Prime).pos
  refine ⟨Int.emod_nonneg n (ne_of_gt hpos), fun h => ?_⟩
  have := Int.emod_eq_zero_of_dvd h
  rwa [Int.emod_emod_of_dvd _ (dvd_refl _)] at this

theorem rep_dbl (hp : p ≠ 2) {a : Pt Int} {Q : (E1 p).Point} (h : Rep1 p a Q) (t0 : Int) : Rep1 p (dblPt p a t0) (Q + Q) := by
  refine ⟨jrep_double (two_ne hp) h.1 _ _ _ ?_ ?_ ?_, twice_mod hp _⟩
  · simp only [dblPt]; push_cast [ZMod.intCast_mod]; ring
  · simp only [dblPt]; push_cast [ZMod.intCast_mod]; ring
  · simp only [dblPt]; push_cast [ZMod.intCast_mod]; ring

theorem cast_inj_mod {n k : Int} : ((n % p : Int) : ZMod p) = ((k % p : Int) : ZMod p) ↔ n % p = k % p := by
  constructor
  · intro h
    have := (ZMod.intCast_eq_intCast_iff_dvd_sub _ _ _).1 h
    have h1 := Int.emod_emod_of_dvd k (dvd_refl (p : Int))
    have h2 := Int.emod_emod_of_dvd n (dvd_refl (p : Int))
    have h3 := (Int.emod_emod_of_dvd n (dvd_refl (p : Int))).symm.trans ((Int.emod_eq_emod_iff_emod_sub_eq_zero.2
      (Int.emod_eq_zero_of_dvd (by have := Int.dvd_neg.2 this; rwa [neg_sub] at this))).trans h1)
    exact h3
  · intro h; rw [h]

theorem addU1_cast (a b : Pt Int) : ((addU1 p a b : Int) : ZMod p) = a.x * (b.z : ZMod p) ^ 2 := by
  unfold addU1; push_cast [ZMod.intCast_mod]; ring

theorem addS1_cast (a b : Pt Int) : ((addS1 p a b : Int) : ZMod p) = a.y * (b.z : ZMod p) ^ 3 := by
  unfold addS1; push_cast [ZMod.intCast_mod]; ring

theorem rep_add (hp : p ≠ 2) {a b : Pt Int} {P Q : (E1 p).Point} (ha : Rep1 p a P) (hb : Rep1 p b Q) (hz1 : a.z ≠ 0) (hz2 : b.z ≠ 0)
    (hne : ¬ (addU1 p a b = addU1 p b a ∧ addS1 p a b = addS1 p b a)) (t0 : Int) : Rep1 p (addPt p a b t0) (P + Q) := by
  have hz1' : (a.z : ZMod p) ≠ 0 := fun e => hz1 ((cast_z_eq_zero ha).1 e)
  have hz2' : (b.z : ZMod p) ≠ 0 := fun e => hz2 ((cast_z_eq_zero hb).1 e)
  refine ⟨jrep_add (two_ne hp) ha.1 hb.1 hz1' hz2' _ _ _ _ (addU1_cast a b) (addU1_cast b a) (addS1_cast a b) (addS1_cast b a)
    ?_ _ _ _ ?_ ?_ ?_, mod_canon _⟩
  · rintro ⟨e1, e2⟩
    exact hne ⟨cast_inj_mod.1 e1, cast_inj_mod.1 e2⟩
  · simp only [addPt]; push_cast [ZMod.intCast_mod]; ring
  · simp only [addPt]; push_cast [ZMod.intCast_mod]; ring
  · simp only [addPt]; push_cast [ZMod.intCast_mod]; ring

/-- equal normalised coordinates mean equal points -/
theorem rep_eq_of {a b : Pt Int} {P Q : (E1 p).Point} (ha : Rep1 p a P) (hb : Rep1 p b Q) (hz1 : a.z ≠ 0) (hz2 : b.z ≠ 0) :
    (addU1 p a b = addU1 p b a ∧ addS1 p a b = addS1 p b a) ↔ P = Q := by
  have hz1' : (a.z : ZMod p) ≠ 0 := fun e => hz1 ((cast_z_eq_zero ha).1 e)
  have hz2' : (b.z : ZMod p) ≠ 0 := fun e => hz2 ((cast_z_eq_zero hb).1 e)
  have hu : addU1 p a b = addU1 p b a ↔ (a.x : ZMod p) * (b.z : ZMod p) ^ 2 = b.x * (a.z : ZMod p) ^ 2 := by
    rw [← addU1_cast, ← addU1_cast]; exact cast_inj_mod.symm
  have hs : addS1 p a b = addS1 p b a ↔ (a.y : ZMod p) * (b.z : ZMod p) ^ 3 = b.y * (a.z : ZMod p) ^ 3 := by
    rw [← addS1_cast, ← addS1_cast]; exact cast_inj_mod.symm
  rw [hu, hs]
  obtain ⟨ha1, -⟩ := ha
  obtain ⟨hb1, -⟩ := hb
  match P, Q, ha1, hb1 with
  | .zero, _, h, _ => exact absurd h hz1'
  | .some _ _ _, .zero, _, h => exact absurd h hz2'
  | .some x₁ y₁ n₁, .some x₂ y₂ n₂, ⟨_, e1, e2⟩, ⟨_, e3, e4⟩ =>
    rw [e1, e2, e3, e4]
    have hzz : (a.z : ZMod p) ^ 2 * (b.z : ZMod p) ^ 2 ≠ 0 := mul_ne_zero (pow_ne_zero _ hz1') (pow_ne_zero _ hz2')
    have hzzz : (a.z : ZMod p) ^ 3 * (b.z : ZMod p) ^ 3 ≠ 0 := mul_ne_zero (pow_ne_zero _ hz1') (pow_ne_zero _ hz2')
    constructor
    · rintro ⟨f1, f2⟩
      have g1 : x₁ = x₂ := mul_right_cancel₀ hzz (by linear_combination f1)
      have g2 : y₁ = y₂ := mul_right_cancel₀ hzzz (by linear_combination f2)
      subst g1; subst g2; rfl
    · intro h
      injection h with g1 g2
      subst g1; subst g2
      constructor <;> ring

theorem rep_zero_iff {a : Pt Int} {Q : (E1 p).Point} (h : Rep1 p a Q) : a.z = 0 ↔ Q = 0 := by
  rw [← cast_z_eq_zero h]
  match Q, h.1 with
  | .zero, h1 => exact ⟨fun _ => rfl, fun _ => h1⟩
  | .some x y n, ⟨hz, _⟩ => exact ⟨fun e => absurd e hz, fun e => by cases e⟩

theorem rep_neg {a : Pt Int} {Q : (E1 p).Point} (h : Rep1 p a Q) (t0 : Int) : Rep1 p ⟨a.x, -a.y, a.z, t0⟩ (-Q) := by
  refine ⟨?_, h.2⟩
  have := jrep_neg h.1
  push_cast; exact this

theorem rep_unique {a : Pt Int} {P Q : (E1 p).Point} (h : Rep1 p a P) (h' : Rep1 p a Q) : P = Q := jrep_unique h.1 h'.1

/-- `Add` in general: everything except adding a point to itself in place -/
theorem curveAdd_rep (hp : p ≠ 2) (m : Mem Int) (c a b : Ref) {P Q : (E1 p).Point} (ha : Rep1 p (m a) P) (hb : Rep1 p (m b) Q)
    (h : c ≠ a ∨ P ≠ Q ∨ P = 0) : Rep1 p (curveAdd p m c a b c) (P + Q) ∧ ∀ r, r ≠ c → curveAdd p m c a b r = m r := by
  rw [curveAdd_eq]
  by_cases h1 : (m a).z = 0
  · rw [if_pos h1]
    refine ⟨?_, fun r hr => set_other _ _ hr⟩
    rw [set_same, (rep_zero_iff ha).1 h1, zero_add]; exact hb
  rw [if_neg h1]
  by_cases h2 : (m b).z = 0
  · rw [if_pos h2]
    refine ⟨?_, fun r hr => set_other _ _ hr⟩
    rw [set_same, (rep_zero_iff hb).1 h2, add_zero]; exact ha
  rw [if_neg h2]
  by_cases h3 : addU1 p (m a) (m b) = addU1 p (m b) (m a) ∧ addS1 p (m a) (m b) = addS1 p (m b) (m a)
  · rw [if_pos h3]
    have hPQ := (rep_eq_of ha hb h1 h2).1 h3
    have hc : c ≠ a := by
      rcases h with h | h | h
      · exact h
      · exact absurd hPQ h
      · exact absurd ((rep_zero_iff ha).2 h) h1
    rw [curveDouble_other p m hc]
    refine ⟨?_, fun r hr => set_other _ _ hr⟩
    rw [set_same, ← hPQ]; exact rep_dbl hp ha _
  · rw [if_neg h3]
    refine ⟨?_, fun r hr => set_other _ _ hr⟩
    rw [set_same]; exact rep_add hp ha hb h1 h2 h3 _

end APS
