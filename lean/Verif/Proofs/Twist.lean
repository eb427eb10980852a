import Verif.Proofs.TowerField

/-! twist.go: the memory functions as value functions, and what they represent. -/
namespace APS
open APS.Spec APS.Pairing
open Pairing.Mem

/-- `Double` of a value, `t` is the content of the unused fourth field of the receiver -/
def dblTw (p : Nat) (a : Pt Gfp2) (t0 : Gfp2) : Pt Gfp2 :=
  let A := a.x.square p
  let B := a.y.square p
  let C := B.square p
  let t2 := (((a.x.add B).square p).sub A).sub C
  let d := t2.add t2
  let e := (A.add A).add A
  let X := (e.square p).sub (d.add d)
  let C2 := C.add C
  let C4 := C2.add C2
  let Y := (e.mul p (d.sub X)).sub (C4.add C4)
  ⟨X, Y, (a.y.mul p a.z).add (a.y.mul p a.z), t0⟩

/-- `Double` with receiver = argument: the new `y` is used for `z` -/
def dblTwIn (p : Nat) (a : Pt Gfp2) : Pt Gfp2 :=
  let r := dblTw p a a.t
  { r with z := (r.y.mul p a.z).add (r.y.mul p a.z) }

/-- the numbers `u1 u2 s1 s2` of `Add` -/
def twU (p : Nat) (a b : Pt Gfp2) : Gfp2 := a.x.mul p (b.z.square p)
/-- see `twU` -/
def twS (p : Nat) (a b : Pt Gfp2) : Gfp2 := a.y.mul p (b.z.mul p (b.z.square p))

/-- `Add` of two finite values that are not equal -/
def addTw (p : Nat) (a b : Pt Gfp2) (t0 : Gfp2) : Pt Gfp2 :=
  let u1 := twU p a b
  let u2 := twU p b a
  let s1 := twS p a b
  let s2 := twS p b a
  let h := u2.sub u1
  let i := (h.add h).square p
  let j := h.mul p i
  let r := (s2.sub s1).add (s2.sub s1)
  let v := u1.mul p i
  let X := ((r.square p).sub j).sub (v.add v)
  let Y := (r.mul p (v.sub X)).sub ((s1.mul p j).add (s1.mul p j))
  let Z := ((((a.z.add b.z).square p).sub (a.z.square p)).sub (b.z.square p)).mul p h
  ⟨X, Y, Z, t0⟩

theorem twistDouble_other (p : Nat) (m : Mem Gfp2) {c a : Ref} (h : c ≠ a) :
    twistDouble p m c a = m.set c (dblTw p (m a) (m c).t) := by
  funext r
  have h' : a ≠ c := fun e => h e.symm
  by_cases hr : r = c
  · subst hr; simp [twistDouble, dblTw, setX, setY, setZ, Mem.set, h']
  · simp [twistDouble, setX, setY, setZ, Mem.set, hr]

theorem twistDouble_same (p : Nat) (m : Mem Gfp2) (a : Ref) : twistDouble p m a a = m.set a (dblTwIn p (m a)) := by
  funext r
  by_cases hr : r = a
  · subst hr; simp [twistDouble, dblTw, dblTwIn, setX, setY, setZ, Mem.set]
  · simp [twistDouble, setX, setY, setZ, Mem.set, hr]

theorem isZero_iff (a : Gfp2) : a.isZero = true ↔ a = ⟨0, 0⟩ := by
  cases a; simp [Gfp2.isZero]

theorem sub_isZero_iff (a b : Gfp2) : (a.sub b).isZero = true ↔ b = a := by
  rw [isZero_iff]
  cases a; cases b
  simp only [Gfp2.sub, Gfp2.mk.injEq]
  omega

theorem twistAdd_eq (p : Nat) (m : Mem Gfp2) (c a b : Ref) : twistAdd p m c a b =
    if (m a).z = ⟨0, 0⟩ then m.set c (m b) else if (m b).z = ⟨0, 0⟩ then m.set c (m a)
    else if twU p (m a) (m b) = twU p (m b) (m a) ∧ twS p (m a) (m b) = twS p (m b) (m a) then twistDouble p m c a
    else m.set c (addTw p (m a) (m b) (m c).t) := by
  unfold twistAdd twistIsInf
  by_cases h1 : (m a).z = ⟨0, 0⟩
  · rw [if_pos ((isZero_iff _).2 h1), if_pos h1]
  rw [if_neg (fun e => h1 ((isZero_iff _).1 e)), if_neg h1]
  by_cases h2 : (m b).z = ⟨0, 0⟩
  · rw [if_pos ((isZero_iff _).2 h2), if_pos h2]
  rw [if_neg (fun e => h2 ((isZero_iff _).1 e)), if_neg h2]
  have hc : (twU p (m a) (m b) = twU p (m b) (m a) ∧ twS p (m a) (m b) = twS p (m b) (m a)) ↔
      (((twU p (m b) (m a)).sub (twU p (m a) (m b))).isZero && ((twS p (m b) (m a)).sub (twS p (m a) (m b))).isZero) = true := by
    rw [Bool.and_eq_true, sub_isZero_iff, sub_isZero_iff]
  by_cases h3 : twU p (m a) (m b) = twU p (m b) (m a) ∧ twS p (m a) (m b) = twS p (m b) (m a)
  · rw [if_pos h3]; exact if_pos (hc.1 h3)
  · rw [if_neg h3]
    refine (if_neg (fun e => h3 (hc.2 e))).trans ?_
    funext r
    have hz : ∀ (v w : Gfp2) (d : Ref), (((m.setX c v).setY c w) d).z = (m d).z := by
      intro v w d
      by_cases hd : d = c
      · subst hd; simp [setX, setY, Mem.set]
      · simp [setX, setY, Mem.set, hd]
    by_cases hr : r = c
    · subst hr
      simp only [hz]
      simp [addTw, twU, twS, setX, setY, setZ, Mem.set]
    · simp [setX, setY, setZ, Mem.set, hr]

variable {p : Nat} [hp : Fact p.Prime] [h2 : Fact (∀ r : ZMod p, r ^ 2 ≠ -1 + 0 * r)]

theorem two_ne2 (hp : p ≠ 2) : (2 : Fp2 p) ≠ 0 := by
  intro h
  have h' : ((1 + 1 : Fp2 p)) = 0 := by rw [one_add_one_eq_two]; exact h
  have := congrArg QuadraticAlgebra.re h'
  refine two_ne hp ?_
  rw [← one_add_one_eq_two]
  exact this

theorem mul_canon (a b : Gfp2) : 0 ≤ (a.mul p b).y ∧ (val2 p (a.mul p b) = 0 → a.mul p b = ⟨0, 0⟩) := by
  refine ⟨(mod_canon (p := p) _).1, fun h => ?_⟩
  have hx := congrArg QuadraticAlgebra.im h
  have hy := congrArg QuadraticAlgebra.re h
  have hx' := (mod_canon (p := p) _).2 ((ZMod.intCast_zmod_eq_zero_iff_dvd _ _).1 hx)
  have hy' := (mod_canon (p := p) _).2 ((ZMod.intCast_zmod_eq_zero_iff_dvd _ _).1 hy)
  exact Gfp2.ext hx' hy'

theorem mul_inj {a b c d : Gfp2} (h : val2 p (a.mul p b) = val2 p (c.mul p d)) : a.mul p b = c.mul p d := by
  have hx := congrArg QuadraticAlgebra.im h
  have hy := congrArg QuadraticAlgebra.re h
  exact Gfp2.ext (cast_inj_mod.1 hx) (cast_inj_mod.1 hy)

theorem mul2_canon (hp2 : p ≠ 2) (a b : Gfp2) : 0 ≤ ((a.mul p b).add (a.mul p b)).y ∧
    (val2 p ((a.mul p b).add (a.mul p b)) = 0 → (a.mul p b).add (a.mul p b) = ⟨0, 0⟩) := by
  refine ⟨(twice_mod hp2 _).1, fun h => ?_⟩
  have hx := congrArg QuadraticAlgebra.im h
  have hy := congrArg QuadraticAlgebra.re h
  have hx' := (twice_mod hp2 _).2 ((ZMod.intCast_zmod_eq_zero_iff_dvd _ _).1 hx)
  have hy' := (twice_mod hp2 _).2 ((ZMod.intCast_zmod_eq_zero_iff_dvd _ _).1 hy)
  exact Gfp2.ext hx' hy'

theorem cast_z2 {a : Pt Gfp2} {Q : (E2 p).Point} (h : Rep2 p a Q) : val2 p a.z = 0 ↔ a.z = ⟨0, 0⟩ :=
  ⟨h.2.2, fun e => by rw [e]; exact val2_zero p⟩

theorem rep2_dbl (hp2 : p ≠ 2) {a : Pt Gfp2} {Q : (E2 p).Point} (h : Rep2 p a Q) (t0 : Gfp2) : Rep2 p (dblTw p a t0) (Q + Q) := by
  refine ⟨jrep_double (two_ne2 hp2) h.1 _ _ _ ?_ ?_ ?_, mul2_canon hp2 _ _⟩
  · simp only [dblTw, val2_add, val2_sub, val2_square, val2_mul]; ring
  · simp only [dblTw, val2_add, val2_sub, val2_square, val2_mul]; ring
  · simp only [dblTw, val2_add, val2_sub, val2_square, val2_mul]; ring

theorem twU_val (a b : Pt Gfp2) : val2 p (twU p a b) = val2 p a.x * val2 p b.z ^ 2 := by
  simp only [twU, val2_square, val2_mul]; ring

theorem twS_val (a b : Pt Gfp2) : val2 p (twS p a b) = val2 p a.y * val2 p b.z ^ 3 := by
  simp only [twS, val2_square, val2_mul]; ring

theorem rep2_add (hp2 : p ≠ 2) {a b : Pt Gfp2} {P Q : (E2 p).Point} (ha : Rep2 p a P) (hb : Rep2 p b Q) (hz1 : a.z ≠ ⟨0, 0⟩)
    (hz2 : b.z ≠ ⟨0, 0⟩) (hne : ¬ (twU p a b = twU p b a ∧ twS p a b = twS p b a)) (t0 : Gfp2) : Rep2 p (addTw p a b t0) (P + Q) := by
  have hz1' : val2 p a.z ≠ 0 := fun e => hz1 ((cast_z2 ha).1 e)
  have hz2' : val2 p b.z ≠ 0 := fun e => hz2 ((cast_z2 hb).1 e)
  refine ⟨jrep_add (two_ne2 hp2) ha.1 hb.1 hz1' hz2' _ _ _ _ (twU_val a b) (twU_val b a) (twS_val a b) (twS_val b a)
    ?_ _ _ _ ?_ ?_ ?_, mul_canon _ _⟩
  · rintro ⟨e1, e2⟩
    exact hne ⟨mul_inj e1, mul_inj e2⟩
  · simp only [addTw, val2_add, val2_sub, val2_square, val2_mul]; ring
  · simp only [addTw, val2_add, val2_sub, val2_square, val2_mul]; ring
  · simp only [addTw, val2_add, val2_sub, val2_square, val2_mul]; ring

/-- equal normalised coordinates mean equal points -/
theorem rep2_eq_of {a b : Pt Gfp2} {P Q : (E2 p).Point} (ha : Rep2 p a P) (hb : Rep2 p b Q) (hz1 : a.z ≠ ⟨0, 0⟩) (hz2 : b.z ≠ ⟨0, 0⟩) :
    (twU p a b = twU p b a ∧ twS p a b = twS p b a) ↔ P = Q := by
  have hz1' : val2 p a.z ≠ 0 := fun e => hz1 ((cast_z2 ha).1 e)
  have hz2' : val2 p b.z ≠ 0 := fun e => hz2 ((cast_z2 hb).1 e)
  have hu : twU p a b = twU p b a ↔ val2 p a.x * val2 p b.z ^ 2 = val2 p b.x * val2 p a.z ^ 2 := by
    rw [← twU_val, ← twU_val]; exact ⟨fun e => by rw [e], fun e => mul_inj e⟩
  have hs : twS p a b = twS p b a ↔ val2 p a.y * val2 p b.z ^ 3 = val2 p b.y * val2 p a.z ^ 3 := by
    rw [← twS_val, ← twS_val]; exact ⟨fun e => by rw [e], fun e => mul_inj e⟩
  rw [hu, hs]
  obtain ⟨ha1, -⟩ := ha
  obtain ⟨hb1, -⟩ := hb
  match P, Q, ha1, hb1 with
  | .zero, _, h, _ => exact absurd h hz1'
  | .some _ _ _, .zero, _, h => exact absurd h hz2'
  | .some x₁ y₁ n₁, .some x₂ y₂ n₂, ⟨_, e1, e2⟩, ⟨_, e3, e4⟩ =>
    rw [e1, e2, e3, e4]
    have hzz : val2 p a.z ^ 2 * val2 p b.z ^ 2 ≠ 0 := mul_ne_zero (pow_ne_zero _ hz1') (pow_ne_zero _ hz2')
    have hzzz : val2 p a.z ^ 3 * val2 p b.z ^ 3 ≠ 0 := mul_ne_zero (pow_ne_zero _ hz1') (pow_ne_zero _ hz2')
    constructor
    · rintro ⟨f1, f2⟩
      have g1 : x₁ = x₂ := mul_right_cancel₀ hzz (by linear_combination f1)
      have g2 : y₁ = y₂ := mul_right_cancel₀ hzzz (by linear_combination f2)
      subst g1; subst g2; rfl
    · intro h
      injection h with g1 g2
      subst g1; subst g2
      constructor <;> ring

theorem rep2_zero_iff {a : Pt Gfp2} {Q : (E2 p).Point} (h : Rep2 p a Q) : a.z = ⟨0, 0⟩ ↔ Q = 0 := by
  rw [← cast_z2 h]
  match Q, h.1 with
  | .zero, h1 => exact ⟨fun _ => rfl, fun _ => h1⟩
  | .some x y n, ⟨hz, _⟩ => exact ⟨fun e => absurd e hz, fun e => by cases e⟩

theorem rep2_unique {a : Pt Gfp2} {P Q : (E2 p).Point} (h : Rep2 p a P) (h' : Rep2 p a Q) : P = Q := jrep_unique h.1 h'.1

/-- `Add` in general: everything except adding a point to itself in place -/
theorem twistAdd_rep (hp2 : p ≠ 2) (m : Mem Gfp2) (c a b : Ref) {P Q : (E2 p).Point} (ha : Rep2 p (m a) P) (hb : Rep2 p (m b) Q)
    (h : c ≠ a ∨ P ≠ Q ∨ P = 0) : Rep2 p (twistAdd p m c a b c) (P + Q) ∧ ∀ r, r ≠ c → twistAdd p m c a b r = m r := by
  rw [twistAdd_eq]
  by_cases h1 : (m a).z = ⟨0, 0⟩
  · rw [if_pos h1]
    refine ⟨?_, fun r hr => set_other _ _ hr⟩
    rw [set_same, (rep2_zero_iff ha).1 h1, zero_add]; exact hb
  rw [if_neg h1]
  by_cases h2 : (m b).z = ⟨0, 0⟩
  · rw [if_pos h2]
    refine ⟨?_, fun r hr => set_other _ _ hr⟩
    rw [set_same, (rep2_zero_iff hb).1 h2, add_zero]; exact ha
  rw [if_neg h2]
  by_cases h3 : twU p (m a) (m b) = twU p (m b) (m a) ∧ twS p (m a) (m b) = twS p (m b) (m a)
  · rw [if_pos h3]
    have hPQ := (rep2_eq_of ha hb h1 h2).1 h3
    have hc : c ≠ a := by
      rcases h with h | h | h
      · exact h
      · exact absurd hPQ h
      · exact absurd ((rep2_zero_iff ha).2 h) h1
    rw [twistDouble_other p m hc]
    refine ⟨?_, fun r hr => set_other _ _ hr⟩
    rw [set_same, ← hPQ]; exact rep2_dbl hp2 ha _
  · rw [if_neg h3]
    refine ⟨?_, fun r hr => set_other _ _ hr⟩
    rw [set_same]; exact rep2_add hp2 ha hb h1 h2 h3 _

theorem twistNegative_other (m : Mem Gfp2) {c a : Ref} (h : c ≠ a) :
    twistNegative m c a = m.set c ⟨(m a).x, Gfp2.zero.sub (m a).y, (m a).z, Gfp2.zero⟩ := by
  funext r
  have h' : a ≠ c := fun e => h e.symm
  by_cases hr : r = c
  · subst hr; simp [twistNegative, setX, setY, setZ, setT, Mem.set, h']
  · simp [twistNegative, setX, setY, setZ, setT, Mem.set, hr]

theorem rep2_neg {a : Pt Gfp2} {Q : (E2 p).Point} (h : Rep2 p a Q) (t0 : Gfp2) : Rep2 p ⟨a.x, Gfp2.zero.sub a.y, a.z, t0⟩ (-Q) := by
  refine ⟨?_, h.2⟩
  have := jrep_neg h.1
  rw [val2_sub, val2_zero, zero_sub]; exact this

theorem rep2_infty (z : Pt Gfp2) (h : z.z = Gfp2.zero) : Rep2 p z (0 : (E2 p).Point) := by
  refine ⟨?_, by rw [h]; exact le_refl _, fun _ => h⟩
  show val2 p z.z = 0
  rw [h, val2_zero]

theorem twistMulLoop_rep (hp2 : p ≠ 2) {a : Ref} (ha : a ≠ .sum ∧ a ≠ .tmp) (k : Nat) {Q : (E2 p).Point} :
    ∀ (i : Nat) (m : Mem Gfp2) (S : (E2 p).Point), Rep2 p (m a) Q → Rep2 p (m .sum) S →
      Rep2 p (twistMulLoop p a k i m .sum) (2 ^ i • S + (k % 2 ^ i) • Q) ∧
        ∀ r, r ≠ .sum → r ≠ .tmp → twistMulLoop p a k i m r = m r
  | 0, m, S, _, hs => by
    rw [pow_zero, Nat.mod_one, zero_nsmul, one_nsmul, add_zero]
    exact ⟨hs, fun _ _ _ => rfl⟩
  | i + 1, m, S, hq, hs => by
    simp only [twistMulLoop]
    rw [twistDouble_other p m (by decide : Ref.tmp ≠ Ref.sum)]
    set m1 := m.set .tmp (dblTw p (m .sum) (m .tmp).t) with hm1
    have t1 : Rep2 p (m1 .tmp) (S + S) := by rw [hm1, set_same]; exact rep2_dbl hp2 hs _
    have q1 : Rep2 p (m1 a) Q := by rw [hm1, set_other _ _ ha.2]; exact hq
    rw [bitInt_nat]
    by_cases hb : k.testBit i = true
    · rw [if_pos hb]
      obtain ⟨r1, r2⟩ := twistAdd_rep hp2 m1 .sum .tmp a t1 q1 (Or.inl (by decide))
      have ih := twistMulLoop_rep hp2 ha k i (twistAdd p m1 .sum .tmp a) ((S + S) + Q) (by rw [r2 a ha.1]; exact q1) r1
      refine ⟨?_, fun r h1 h2 => ?_⟩
      · have e := double_and_add S Q k i
        rw [hb] at e
        rw [Bool.toNat_true, one_nsmul] at e
        rw [← e]; exact ih.1
      · rw [ih.2 r h1 h2, r2 r h1, hm1, set_other _ _ h2]
    · rw [if_neg hb]
      have ih := twistMulLoop_rep hp2 ha k i (m1.set .sum (m1 .tmp)) (S + S) (by rw [set_other _ _ ha.1]; exact q1)
        (by rw [set_same]; exact t1)
      refine ⟨?_, fun r h1 h2 => ?_⟩
      · have e := double_and_add S Q k i
        rw [Bool.not_eq_true] at hb
        rw [hb] at e
        rw [Bool.toNat_false, zero_nsmul, add_zero] at e
        rw [← e]; exact ih.1
      · rw [ih.2 r h1 h2, set_other _ _ h1, hm1, set_other _ _ h2]

theorem twistMulSum_rep (hp2 : p ≠ 2) (m : Mem Gfp2) {a : Ref} (ha : a ≠ .sum ∧ a ≠ .tmp) (k : Nat) {Q : (E2 p).Point}
    (hq : Rep2 p (m a) Q) : Rep2 p (twistMulLoop p a k (bitLenInt (k : Int) + 1) (m.setZ .sum Gfp2.zero) .sum) (k • Q) ∧
      ∀ r, r ≠ .sum → r ≠ .tmp → twistMulLoop p a k (bitLenInt (k : Int) + 1) (m.setZ .sum Gfp2.zero) r = m r := by
  have h0 : Rep2 p ((m.setZ .sum Gfp2.zero) .sum) (0 : (E2 p).Point) := by
    apply rep2_infty
    unfold setZ
    rw [set_same]
  have := twistMulLoop_rep hp2 ha k (bitLenInt (k : Int) + 1) (m.setZ .sum Gfp2.zero) 0
    (by unfold setZ; rw [set_other _ _ ha.1]; exact hq) h0
  refine ⟨?_, fun r h1 h2 => ?_⟩
  · have e := this.1
    rw [nsmul_zero, zero_add, Nat.mod_eq_of_lt (lt_two_pow_bitLen k)] at e
    exact e
  · rw [this.2 r h1 h2]
    unfold setZ
    rw [set_other _ _ h1]

theorem twistMul_rep (hp2 : p ≠ 2) (m : Mem Gfp2) (c : Ref) {a : Ref} (ha : a ≠ .sum ∧ a ≠ .tmp) (k : Nat) {Q : (E2 p).Point}
    (hq : Rep2 p (m a) Q) : Rep2 p (twistMul p m c a k c) (k • Q) ∧
      ∀ r, r ≠ .sum → r ≠ .tmp → r ≠ c → twistMul p m c a k r = m r := by
  have := twistMulSum_rep hp2 m ha k hq
  unfold twistMul
  refine ⟨?_, fun r h1 h2 h3 => ?_⟩
  · rw [set_same]; exact this.1
  · rw [set_other _ _ h3]; exact this.2 r h1 h2

/-- the last branch of `MakeAffine` on values -/
def affTw (p : Nat) (a : Pt Gfp2) : Pt Gfp2 :=
  ⟨a.x.mul p ((a.z.invert p).square p), (a.y.mul p (a.z.invert p)).mul p ((a.z.invert p).square p), Gfp2.one, Gfp2.one⟩

theorem affTw_eq (p : Nat) (m : Mem Gfp2) (c : Ref) :
    (let zInv := (m c).z.invert p
    let t := (m c).y.mul p zInv
    let zInv2 := zInv.square p
    let m := m.setY c (t.mul p zInv2)
    let t := (m c).x.mul p zInv2
    let m := m.setX c t
    let m := m.setZ c Gfp2.one
    m.setT c Gfp2.one) = m.set c (affTw p (m c)) := by
  funext r
  by_cases hr : r = c
  · subst hr; simp [affTw, setX, setY, setZ, setT]
  · simp [setX, setY, setZ, setT, Mem.set, hr]

/-- `MakeAffine` keeps the point and makes `z` 0 or 1 -/
theorem twistMakeAffine_rep (m : Mem Gfp2) (c : Ref) {Q : (E2 p).Point} (h : Rep2 p (m c) Q) :
    Rep2 p (twistMakeAffine p m c c) Q ∧ (twistMakeAffine p m c c).z = (if Q = 0 then Gfp2.zero else Gfp2.one) ∧
      ∀ r, r ≠ c → twistMakeAffine p m c r = m r := by
  classical
  unfold twistMakeAffine
  have hne : Gfp2.one ≠ ⟨0, 0⟩ := by decide
  by_cases h1 : (m c).z.isOne = true
  · rw [if_pos h1]
    have hz : (m c).z = Gfp2.one := by
      have h0 := h.2.1
      simp only [Gfp2.isOne, Bool.and_eq_true, beq_iff_eq] at h1
      refine Gfp2.ext h1.1 ?_
      show _ = (1 : Int)
      have := h1.2
      omega
    have : Q ≠ 0 := fun e => by
      have := (rep2_zero_iff h).2 e
      exact hne (hz.symm.trans this)
    refine ⟨h, ?_, fun _ _ => rfl⟩
    rw [if_neg this, hz]
  rw [if_neg h1]
  by_cases h2 : (m c).z = ⟨0, 0⟩
  · have hQ := (rep2_zero_iff h).1 h2
    rw [if_pos (show twistIsInf (m c) = true from (isZero_iff _).2 h2), set_same]
    refine ⟨?_, ?_, fun r hr => set_other _ _ hr⟩
    · rw [hQ]; exact rep2_infty _ rfl
    · rw [if_pos hQ]
  · rw [if_neg (show ¬ twistIsInf (m c) = true from fun e => h2 ((isZero_iff _).1 e))]
    have hQ : Q ≠ 0 := fun e => h2 ((rep2_zero_iff h).2 e)
    have hz : val2 p (m c).z ≠ 0 := fun e => h2 ((cast_z2 h).1 e)
    rw [show _ = _ from affTw_eq p m c]
    refine ⟨?_, by rw [set_same, if_neg hQ]; rfl, fun r hr => set_other _ _ hr⟩
    rw [set_same]
    refine ⟨?_, by show (0 : Int) ≤ 1; norm_num, fun e => ?_⟩
    · match Q, h.1, hQ with
      | .zero, _, hQ => exact absurd rfl hQ
      | .some x y n, ⟨_, e1, e2⟩, _ =>
        unfold affTw
        simp only [val2_mul, val2_square, val2_invert, val2_one]
        rw [e1, e2]
        refine ⟨one_ne_zero, ?_, ?_⟩ <;> field_simp
    · exfalso
      have e' : val2 p Gfp2.one = 0 := e
      rw [val2_one] at e'
      exact one_ne_zero e'

end APS
