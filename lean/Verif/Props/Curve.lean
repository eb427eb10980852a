import Verif.Proofs.Marshal
import Verif.Proofs.NegScalar

/-! C60-C64: the groups G1 and G2 of package bn256.

`Rep1 P a Q` / `Rep2 P a Q` (Spec/Pairing.lean): the Jacobian coordinates held in the object are a representation of the
point `Q` of Mathlib's elliptic curve `y² = x³ + 3` over `F_p` / `y² = x³ + 3/ξ` over `F_{p²}`.  Objects live in a memory,
so that in-place use is visible.  An operation writes its receiver (and the local points `sum`, `tmp` of `Mul`), nothing else. -/
namespace APS
open APS.Spec APS.Pairing
open Pairing.Mem

/-- objects of users and the package's generator are not the local points of `Mul` -/
def isUser (r : Ref) : Prop := r ≠ .sum ∧ r ≠ .tmp

/-- memories in which every object is the generator, for the concrete cases below -/
def genMem1 : Mem Int := fun _ => curveGen
def genMem2 : Mem Gfp2 := fun _ => twistGen

/-- the x-coordinate of a point of the curve, as a number; 0 for infinity -/
noncomputable def xOf : (E1 P).Point → Int
  | .zero => 0
  | .some x _ _ => (x.val : Int)

/-! ### C60: group law -/

/-- C60, G1: `Add`, in every case except adding in place, into the first operand, two equal finite points. -/
theorem C60_g1_add (m : Mem Int) (c a b : Ref) {A B : (E1 P).Point} (ha : Rep1 P (m a) A) (hb : Rep1 P (m b) B)
    (h : c ≠ a ∨ A ≠ B ∨ A = 0) :
    Rep1 P (g1Add m c a b c) (A + B) ∧ ∀ r, r ≠ c → g1Add m c a b r = m r :=
  curveAdd_rep bnP_ne2 m c a b ha hb h

/-- C60, G1: `Double` into another object. -/
theorem C60_g1_double (m : Mem Int) (c a : Ref) {A : (E1 P).Point} (ha : Rep1 P (m a) A) (h : c ≠ a) :
    Rep1 P (curveDouble P m c a c) (A + A) ∧ ∀ r, r ≠ c → curveDouble P m c a r = m r := by
  rw [curveDouble_other P m h]
  exact ⟨by rw [set_same]; exact rep_dbl bnP_ne2 ha _, fun r hr => set_other _ _ hr⟩

/-- C60, G1: `Neg`, also in place. -/
theorem C60_g1_neg (m : Mem Int) (c a : Ref) {A : (E1 P).Point} (ha : Rep1 P (m a) A) :
    Rep1 P (g1Neg m c a c) (-A) ∧ ∀ r, r ≠ c → g1Neg m c a r = m r := by
  have e : g1Neg m c a = m.set c ⟨(m a).x, -(m a).y, (m a).z, 0⟩ := by
    funext r
    by_cases hr : r = c
    · subst hr
      by_cases hac : a = r
      · subst hac; simp [g1Neg, curveNegative, setX, setY, setZ, setT, Mem.set]
      · simp [g1Neg, curveNegative, setX, setY, setZ, setT, Mem.set, hac]
    · simp [g1Neg, curveNegative, setX, setY, setZ, setT, Mem.set, hr]
  rw [e]
  exact ⟨by rw [set_same]; exact rep_neg ha 0, fun r hr => set_other _ _ hr⟩

/-- C60, G2: `Add`. -/
theorem C60_g2_add (m : Mem Gfp2) (c a b : Ref) {A B : (E2 P).Point} (ha : Rep2 P (m a) A) (hb : Rep2 P (m b) B)
    (h : c ≠ a ∨ A ≠ B ∨ A = 0) :
    Rep2 P (g2Add m c a b c) (A + B) ∧ ∀ r, r ≠ c → g2Add m c a b r = m r :=
  twistAdd_rep bnP_ne2 m c a b ha hb h

/-- C60, G2: `Double` into another object. -/
theorem C60_g2_double (m : Mem Gfp2) (c a : Ref) {A : (E2 P).Point} (ha : Rep2 P (m a) A) (h : c ≠ a) :
    Rep2 P (twistDouble P m c a c) (A + A) ∧ ∀ r, r ≠ c → twistDouble P m c a r = m r := by
  rw [twistDouble_other P m h]
  exact ⟨by rw [set_same]; exact rep2_dbl bnP_ne2 ha _, fun r hr => set_other _ _ hr⟩

/-- C60, G2: `Negative` into another object. -/
theorem C60_g2_neg (m : Mem Gfp2) (c a : Ref) {A : (E2 P).Point} (ha : Rep2 P (m a) A) (h : c ≠ a) :
    Rep2 P (twistNegative m c a c) (-A) ∧ ∀ r, r ≠ c → twistNegative m c a r = m r := by
  rw [twistNegative_other m h]
  exact ⟨by rw [set_same]; exact rep2_neg ha _, fun r hr => set_other _ _ hr⟩

/-- C60: the representation is sound and complete: every point of the curves has a representation, and one representation
stands for only one point. -/
theorem C60_representation :
    (∀ Q : (E1 P).Point, ∃ a, Rep1 P a Q) ∧ (∀ a (Q R : (E1 P).Point), Rep1 P a Q → Rep1 P a R → Q = R) ∧
    (∀ Q : (E2 P).Point, ∃ a, Rep2 P a Q) ∧ (∀ a (Q R : (E2 P).Point), Rep2 P a Q → Rep2 P a R → Q = R) := by
  refine ⟨fun Q => ?_, fun a Q R => rep_unique, fun Q => ?_, fun a Q R => rep2_unique⟩
  · exact ⟨_, (g1Unmarshal_spec (fun _ => ⟨0, 0, 0, 0⟩) .gen _).2 Q rfl⟩
  · exact ⟨_, (g2Unmarshal_spec (fun _ => ⟨⟨0, 0⟩, ⟨0, 0⟩, ⟨0, 0⟩, ⟨0, 0⟩⟩) (e := .gen) ⟨by decide, by decide⟩ _).2 Q rfl⟩

/-- C60: `IsOnCurve` of G1 decides, for an affine object (`z = 1`), whether it represents a curve point. -/
theorem C60_g1_isOnCurve (a : Pt Int) (hz : a.z = 1) : curveIsOn P a = true ↔ ∃ Q, Rep1 P a Q := by
  rw [rep1_affine_iff a hz, curveIsOn_iff]

/-- C60: `IsOnCurve` of the twist decides, for an affine object, whether it represents a point of order dividing `Order`. -/
theorem C60_g2_isOnCurve (m : Mem Gfp2) (c : Ref) (hc : isUser c) (hz : (m c).z = Gfp2.one) :
    twistIsOn P Order m c = true ↔ ∃ Q, Rep2 P (m c) Q ∧ Order • Q = 0 := twistIsOn_iff m hc hz

/-- the hypotheses are met by the generator: `G + (-G) = 0`, `G + 2G` and so on -/
example : ∃ m : Mem Int, Rep1 P (m (.obj 0)) G1gen ∧ Rep1 P (m (.obj 1)) (-G1gen) ∧
    Rep1 P (g1Add m (.obj 2) (.obj 0) (.obj 1) (.obj 2)) 0 := by
  refine ⟨g1Neg genMem1 (.obj 1) (.obj 0), ?_, ?_, ?_⟩
  · rw [(C60_g1_neg genMem1 (.obj 1) (.obj 0) rep_gen1).2 _ (by decide)]; exact rep_gen1
  · exact (C60_g1_neg genMem1 (.obj 1) (.obj 0) rep_gen1).1
  · have h1 : Rep1 P (g1Neg genMem1 (.obj 1) (.obj 0) (.obj 0)) G1gen := by
      rw [(C60_g1_neg genMem1 (.obj 1) (.obj 0) rep_gen1).2 _ (by decide)]; exact rep_gen1
    have h2 := (C60_g1_neg genMem1 (.obj 1) (.obj 0) rep_gen1).1
    have := (C60_g1_add _ (.obj 2) (.obj 0) (.obj 1) h1 h2 (Or.inl (by decide))).1
    rwa [add_neg_cancel] at this

/-! ### C61: scalar multiplication -/

/-- C61, G1: `ScalarMult` by any non-negative number, also in place. -/
theorem C61_g1_scalarMult (m : Mem Int) (e a : Ref) (hu : isUser a) (k : Nat) {A : (E1 P).Point} (ha : Rep1 P (m a) A) :
    Rep1 P (g1ScalarMult m e a k e) (k • A) ∧ ∀ r, isUser r → r ≠ e → g1ScalarMult m e a k r = m r := by
  have := curveMul_rep bnP_ne2 m e hu k ha
  exact ⟨this.1, fun r hr he => this.2 r hr.1 hr.2 he⟩

/-- C61, G1: `ScalarBaseMult`; the package generator is not changed. -/
theorem C61_g1_scalarBaseMult (m : Mem Int) (e : Ref) (he : isUser e ∧ e ≠ .gen) (k : Nat) (hg : m .gen = curveGen) :
    Rep1 P (g1ScalarBaseMult m e k e) (k • G1gen) ∧ g1ScalarBaseMult m e k .gen = curveGen := by
  have := curveMul_rep bnP_ne2 m e (a := .gen) ⟨by decide, by decide⟩ k (by rw [hg]; exact rep_gen1)
  exact ⟨this.1, by rw [← hg]; exact this.2 .gen (by decide) (by decide) (Ne.symm he.2)⟩

/-- C61, G2. -/
theorem C61_g2_scalarMult (m : Mem Gfp2) (e a : Ref) (hu : isUser a) (k : Nat) {A : (E2 P).Point} (ha : Rep2 P (m a) A) :
    Rep2 P (g2ScalarMult m e a k e) (k • A) ∧ ∀ r, isUser r → r ≠ e → g2ScalarMult m e a k r = m r := by
  have := twistMul_rep bnP_ne2 m e hu k ha
  exact ⟨this.1, fun r hr he => this.2 r hr.1 hr.2 he⟩

/-- C61, G2: `ScalarBaseMult`. -/
theorem C61_g2_scalarBaseMult (m : Mem Gfp2) (e : Ref) (he : isUser e ∧ e ≠ .gen) (k : Nat) (hg : m .gen = twistGen) :
    Rep2 P (g2ScalarBaseMult m e k e) (k • G2gen) ∧ g2ScalarBaseMult m e k .gen = twistGen := by
  have := twistMul_rep bnP_ne2 m e (a := .gen) ⟨by decide, by decide⟩ k (by rw [hg]; exact rep_gen2)
  exact ⟨this.1, by rw [← hg]; exact this.2 .gen (by decide) (by decide) (Ne.symm he.2)⟩

/-- C61: `MakeAffine` keeps the point and makes `z` 1, or 0 for infinity. -/
theorem C61_makeAffine (m : Mem Int) (n : Mem Gfp2) (c : Ref) {A : (E1 P).Point} {B : (E2 P).Point} (ha : Rep1 P (m c) A)
    (hb : Rep2 P (n c) B) :
    (Rep1 P (curveMakeAffine P m c c) A ∧ (curveMakeAffine P m c c).z = (if A = 0 then 0 else 1) ∧
      ∀ r, r ≠ c → curveMakeAffine P m c r = m r) ∧
    (Rep2 P (twistMakeAffine P n c c) B ∧ (twistMakeAffine P n c c).z = (if B = 0 then Gfp2.zero else Gfp2.one) ∧
      ∀ r, r ≠ c → twistMakeAffine P n c r = n r) :=
  ⟨curveMakeAffine_rep m c ha, twistMakeAffine_rep n c hb⟩

/-- C61: `X` returns the x-coordinate as a number in `[0, P)`; 0 for infinity. -/
theorem C61_g1_x (m : Mem Int) (e : Ref) {A : (E1 P).Point} (ha : Rep1 P (m e) A) :
    (g1X m e).1 = xOf A ∧ Rep1 P ((g1X m e).2 e) A := by
  unfold g1X
  by_cases h0 : (m e).z = 0
  · have hQ := (rep_zero_iff ha).1 h0
    rw [if_pos (by simp [curveIsInf, h0])]
    subst hQ
    exact ⟨rfl, ha⟩
  · rw [if_neg (by simp [curveIsInf, h0])]
    have hQ : A ≠ 0 := fun e => h0 ((rep_zero_iff ha).2 e)
    obtain ⟨h1, h2, h3⟩ := curveMakeAffine_rep m e ha
    rw [if_neg hQ] at h2
    refine ⟨?_, h1⟩
    clear ha
    match A, h1, hQ with
    | .zero, _, hQ => exact absurd rfl hQ
    | .some x y n, ⟨⟨_, hx, hy⟩, _⟩, _ =>
      rw [h2] at hx
      simp at hx
      show ((curveMakeAffine P m e) e).x % (P : Int) = (x.val : Int)
      rw [emod_eq_val, hx]

/-- C61, negative scalars: the loop reads the two's complement bits of `-n`, so it multiplies by `2^(BitLen n + 1) - n`. -/
theorem C61_negative_scalars (m : Mem Int) (l : Mem Gfp2) (e a : Ref) (hu : isUser a) (n : Nat) (hn : 0 < n)
    {A : (E1 P).Point} {B : (E2 P).Point} (ha : Rep1 P (m a) A) (hb : Rep2 P (l a) B) :
    Rep1 P (g1ScalarMult m e a (-(n : Int)) e) ((2 ^ (bitLenInt n + 1) - n) • A) ∧
    Rep2 P (g2ScalarMult l e a (-(n : Int)) e) ((2 ^ (bitLenInt n + 1) - n) • B) :=
  ⟨curveMul_neg bnP_ne2 m e hu n hn ha, twistMul_neg bnP_ne2 l e hu n hn hb⟩

/-- the scalar 3 computes `3 G` from the generator -/
example : Rep1 P (g1ScalarBaseMult genMem1 (.obj 0) 3 (.obj 0)) (3 • G1gen) :=
  (C61_g1_scalarBaseMult genMem1 _ ⟨⟨by decide, by decide⟩, by decide⟩ 3 rfl).1

theorem four_G1_ne : 4 • G1gen ≠ 0 := by
  intro h
  have := addOrderOf_dvd_of_nsmul_eq_zero h
  rw [addOrder_G1] at this
  have := Nat.le_of_dvd (by norm_num) this
  have h2 : 4 < Order := by decide +kernel
  omega

/-- C61 for negative scalars is false: `ScalarMult` of the generator by -1 is `3 G`, not `-G`. -/
theorem C61_minus_one_refuted (m : Mem Int) (e : Ref) (hm : m .gen = curveGen) :
    Rep1 P (g1ScalarMult m e .gen (-1) e) (3 • G1gen) ∧ ¬ Rep1 P (g1ScalarMult m e .gen (-1) e) (-G1gen) := by
  have h := curveMul_neg bnP_ne2 m e (a := .gen) ⟨by decide, by decide⟩ 1 (by norm_num) (by rw [hm]; exact rep_gen1)
  have e3 : (2 ^ (bitLenInt ((1 : Nat) : Int) + 1) - 1) = 3 := by decide
  rw [e3] at h
  refine ⟨h, fun h' => ?_⟩
  have := rep_unique h h'
  apply four_G1_ne
  rw [show 4 = 3 + 1 from rfl, add_nsmul, this, one_nsmul, neg_add_cancel]

/-! ### C62: in place -/

/-- C62: the receiver may be the second operand, always; the first one unless the operands are the same finite point. -/
theorem C62_in_place (m : Mem Int) (l : Mem Gfp2) (a b : Ref) {A B : (E1 P).Point} {C D : (E2 P).Point}
    (ha : Rep1 P (m a) A) (hb : Rep1 P (m b) B) (hc : Rep2 P (l a) C) (hd : Rep2 P (l b) D) (hab : b ≠ a) :
    Rep1 P (g1Add m b a b b) (A + B) ∧ (A ≠ B → Rep1 P (g1Add m a a b a) (A + B)) ∧
    Rep2 P (g2Add l b a b b) (C + D) ∧ (C ≠ D → Rep2 P (g2Add l a a b a) (C + D)) :=
  ⟨(C60_g1_add m b a b ha hb (Or.inl hab)).1, fun h => (C60_g1_add m a a b ha hb (Or.inr (Or.inl h))).1,
   (C60_g2_add l b a b hc hd (Or.inl hab)).1, fun h => (C60_g2_add l a a b hc hd (Or.inr (Or.inl h))).1⟩

/-- C62 is false: `e.Add(e, f)` with `e` and `f` both the generator does not give `2 G`, and neither does `e.Double(e)`, while
the same call with a third object does. -/
theorem C62_equal_operands_refuted :
    ¬ Rep1 P (g1Add genMem1 (.obj 0) (.obj 0) (.obj 1) (.obj 0)) (G1gen + G1gen) ∧
    ¬ Rep1 P (curveDouble P genMem1 (.obj 0) (.obj 0) (.obj 0)) (G1gen + G1gen) ∧
    Rep1 P (g1Add genMem1 (.obj 2) (.obj 0) (.obj 1) (.obj 2)) (G1gen + G1gen) := by
  have hgood := (C60_g1_add genMem1 (.obj 2) (.obj 0) (.obj 1) rep_gen1 rep_gen1 (Or.inl (by decide))).1
  have hbad : ¬ Rep1 P (dblPtIn P curveGen) (G1gen + G1gen) := by
    intro h
    have hd := rep_dbl bnP_ne2 rep_gen1 0
    have hz1 : (dblPtIn P curveGen).z ≠ 0 := by decide +kernel
    have hz2 : (dblPt P curveGen 0).z ≠ 0 := by decide +kernel
    have := ((rep_eq_of h hd hz1 hz2).2 rfl).1
    revert this
    decide +kernel
  have e1 : curveDouble P genMem1 (.obj 0) (.obj 0) (.obj 0) = dblPtIn P curveGen := by
    rw [curveDouble_same, set_same]; rfl
  have e2 : g1Add genMem1 (.obj 0) (.obj 0) (.obj 1) (.obj 0) = dblPtIn P curveGen := by
    unfold g1Add
    rw [curveAdd_eq, if_neg (by decide), if_neg (by decide), if_pos ⟨rfl, rfl⟩, e1]
  exact ⟨by rw [e2]; exact hbad, by rw [e1]; exact hbad, hgood⟩

/-- C62 is false on the twist as well. -/
theorem C62_twist_equal_operands_refuted :
    ¬ Rep2 P (g2Add genMem2 (.obj 0) (.obj 0) (.obj 1) (.obj 0)) (G2gen + G2gen) ∧
    Rep2 P (g2Add genMem2 (.obj 2) (.obj 0) (.obj 1) (.obj 2)) (G2gen + G2gen) := by
  have hgood := (C60_g2_add genMem2 (.obj 2) (.obj 0) (.obj 1) rep_gen2 rep_gen2 (Or.inl (by decide))).1
  have hbad : ¬ Rep2 P (dblTwIn P twistGen) (G2gen + G2gen) := by
    intro h
    have hd := rep2_dbl bnP_ne2 rep_gen2 Gfp2.zero
    have hz1 : (dblTwIn P twistGen).z ≠ ⟨0, 0⟩ := by decide +kernel
    have hz2 : (dblTw P twistGen Gfp2.zero).z ≠ ⟨0, 0⟩ := by decide +kernel
    have := ((rep2_eq_of h hd hz1 hz2).2 rfl).1
    revert this
    decide +kernel
  have e1 : twistDouble P genMem2 (.obj 0) (.obj 0) (.obj 0) = dblTwIn P twistGen := by
    rw [twistDouble_same, set_same]; rfl
  have e2 : g2Add genMem2 (.obj 0) (.obj 0) (.obj 1) (.obj 0) = dblTwIn P twistGen := by
    unfold g2Add
    rw [twistAdd_eq, if_neg (by decide), if_neg (by decide), if_pos ⟨rfl, rfl⟩, e1]
  exact ⟨by rw [e2]; exact hbad, hgood⟩

/-- C62 is false for `Negative` on the twist: in place it sets `y` to zero, whatever the point. -/
theorem C62_twist_negative_refuted (m : Mem Gfp2) (a : Ref) : (twistNegative m a a a).y = Gfp2.zero ∧
    (∀ A : (E2 P).Point, m a = twistGen → ¬ Rep2 P (twistNegative m a a a) (-G2gen)) := by
  have hy : (twistNegative m a a a).y = Gfp2.zero := by
    simp [twistNegative, setX, setY, setZ, setT, Gfp2.zero, Gfp2.sub]
  have hz : (twistNegative m a a a).z = (m a).z := by
    simp [twistNegative, setX, setY, setZ, setT]
  refine ⟨hy, fun _ hm h => ?_⟩
  have hn : -G2gen = .some _ _ ((WeierstrassCurve.Affine.nonsingular_neg _ _).2 (e2_nonsing gen2_eq)) := rfl
  rw [hn] at h
  obtain ⟨⟨_, _, h3⟩, _⟩ := h
  rw [hy, hz, hm, show twistGen.z = Gfp2.one from rfl, val2_one, val2_zero] at h3
  have h4 : val2 P twistGen.y = 0 := by
    simp only [WeierstrassCurve.Affine.negY, shortCurve] at h3
    linear_combination h3
  rw [← val2_zero, val2_eq_iff] at h4
  revert h4
  decide +kernel

/-! ### C63: order -/

/-- C63: `P` and `Order` are prime and the BN polynomials at `u`; `twistB = 3/ξ`. -/
theorem C63_parameters : P.Prime ∧ Order.Prime ∧ P = 36 * u ^ 4 + 36 * u ^ 3 + 24 * u ^ 2 + 6 * u + 1 ∧
    Order = 36 * u ^ 4 + 36 * u ^ 3 + 18 * u ^ 2 + 6 * u + 1 ∧ val2 P twistB * xi P = 3 :=
  ⟨bnPrime.out, bnOrderPrime.out, by decide +kernel, by decide +kernel, twistB_eq⟩

/-- C63: both generators are points of the curves and have order exactly `Order`. -/
theorem C63_order : Rep1 P curveGen G1gen ∧ Rep2 P twistGen G2gen ∧ addOrderOf G1gen = Order ∧ addOrderOf G2gen = Order :=
  ⟨rep_gen1, rep_gen2, addOrder_G1, addOrder_G2⟩

/-- C63: `ScalarBaseMult(k)` and `ScalarBaseMult(k')` are the same group element exactly when `k ≡ k'` modulo `Order`. -/
theorem C63_scalars_mod_order (m m' : Mem Int) (l l' : Mem Gfp2) (e : Ref) (he : isUser e ∧ e ≠ .gen) (k k' : Nat)
    (hm : m .gen = curveGen) (hm' : m' .gen = curveGen) (hl : l .gen = twistGen) (hl' : l' .gen = twistGen) :
    ((∃ Q, Rep1 P (g1ScalarBaseMult m e k e) Q ∧ Rep1 P (g1ScalarBaseMult m' e k' e) Q) ↔ k % Order = k' % Order) ∧
    ((∃ Q, Rep2 P (g2ScalarBaseMult l e k e) Q ∧ Rep2 P (g2ScalarBaseMult l' e k' e) Q) ↔ k % Order = k' % Order) := by
  have a1 := (C61_g1_scalarBaseMult m e he k hm).1
  have a2 := (C61_g1_scalarBaseMult m' e he k' hm').1
  have b1 := (C61_g2_scalarBaseMult l e he k hl).1
  have b2 := (C61_g2_scalarBaseMult l' e he k' hl').1
  have h1 : k • G1gen = k' • G1gen ↔ k % Order = k' % Order := by
    rw [nsmul_eq_nsmul_iff_modEq, addOrder_G1]; rfl
  have h2 : k • G2gen = k' • G2gen ↔ k % Order = k' % Order := by
    rw [nsmul_eq_nsmul_iff_modEq, addOrder_G2]; rfl
  constructor
  · rw [← h1]
    exact ⟨fun ⟨Q, q1, q2⟩ => (rep_unique a1 q1).trans (rep_unique q2 a2), fun h => ⟨_, a1, by rw [h]; exact a2⟩⟩
  · rw [← h2]
    exact ⟨fun ⟨Q, q1, q2⟩ => (rep2_unique b1 q1).trans (rep2_unique q2 b2), fun h => ⟨_, b1, by rw [h]; exact b2⟩⟩

/-! ### C64: encodings -/

/-- C64, G1: the round trip, for every point, every representation and every receiver. -/
theorem C64_g1_round_trip (m m' : Mem Int) (e e' : Ref) {A : (E1 P).Point} (ha : Rep1 P (m e) A) :
    (g1Marshal m e).1.length = 64 ∧ Rep1 P ((g1Marshal m e).2 e) A ∧
    (g1Unmarshal m' e' (g1Marshal m e).1).1 = true ∧ Rep1 P ((g1Unmarshal m' e' (g1Marshal m e).1).2 e') A ∧
    ∀ r, r ≠ e' → (g1Unmarshal m' e' (g1Marshal m e).1).2 r = m' r := by
  obtain ⟨h1, h2, _⟩ := g1Marshal_eq m e ha
  obtain ⟨h3, h4⟩ := g1Unmarshal_spec m' e' (g1Marshal m e).1
  have ht := h3.2 ⟨A, h1⟩
  refine ⟨?_, h2, ht, h4 A h1, fun r hr => g1Unmarshal_other _ _ _ _ hr⟩
  by_contra hl
  unfold g1Unmarshal at ht
  rw [if_pos hl] at ht
  exact Bool.false_ne_true ht

/-- C64, G1: `Unmarshal` accepts a byte string exactly when it is what `Marshal` produces for some point, and then the
receiver represents that point.  So each point has one encoding. -/
theorem C64_g1_accepts (m : Mem Int) (e : Ref) (b : List UInt8) :
    (g1Unmarshal m e b).1 = true ↔
      ∃ A, Rep1 P ((g1Unmarshal m e b).2 e) A ∧ (g1Marshal (g1Unmarshal m e b).2 e).1 = b := by
  obtain ⟨h3, h4⟩ := g1Unmarshal_spec m e b
  constructor
  · intro h
    obtain ⟨Q, hQ⟩ := h3.1 h
    exact ⟨Q, h4 Q hQ, by rw [hQ]; rw [hQ] at h4; exact (g1Marshal_eq _ e (h4 Q rfl)).1⟩
  · rintro ⟨A, hA, hb⟩
    exact h3.2 ⟨A, by rw [← hb]; exact (g1Marshal_eq _ e hA).1⟩

/-- C64, G1: different points have different encodings, and the encoding does not depend on the representation. -/
theorem C64_g1_canonical (m m' : Mem Int) (e e' : Ref) {A B : (E1 P).Point} (ha : Rep1 P (m e) A) (hb : Rep1 P (m' e') B) :
    (g1Marshal m e).1 = (g1Marshal m' e').1 ↔ A = B := by
  rw [(g1Marshal_eq m e ha).1, (g1Marshal_eq m' e' hb).1]
  exact ⟨bytes1_inj, fun h => by rw [h]⟩

/-- C64: byte strings of another length are refused and nothing is written. -/
theorem C64_wrong_length (m : Mem Int) (l : Mem Gfp2) (e : Ref) (b : List UInt8) :
    (b.length ≠ 64 → g1Unmarshal m e b = (false, m)) ∧ (b.length ≠ 128 → g2Unmarshal l e b = (false, l)) :=
  ⟨fun h => by unfold g1Unmarshal; rw [if_pos h], fun h => by unfold g2Unmarshal; rw [if_pos h]⟩

/-- C64, G2: the round trip, for every point of order dividing `Order` (in particular all multiples of the generator). -/
theorem C64_g2_round_trip (m m' : Mem Gfp2) (e e' : Ref) (he : isUser e') {A : (E2 P).Point} (ha : Rep2 P (m e) A)
    (ho : Order • A = 0) :
    (g2Marshal m e).1.length = 128 ∧ Rep2 P ((g2Marshal m e).2 e) A ∧
    (g2Unmarshal m' e' (g2Marshal m e).1).1 = true ∧ Rep2 P ((g2Unmarshal m' e' (g2Marshal m e).1).2 e') A := by
  obtain ⟨h1, h2, _⟩ := g2Marshal_eq m e ha
  obtain ⟨h3, h4⟩ := g2Unmarshal_spec m' he (g2Marshal m e).1
  have ht := h3.2 ⟨A, ho, h1⟩
  refine ⟨?_, h2, ht, h4 A h1⟩
  by_contra hl
  unfold g2Unmarshal at ht
  rw [if_pos hl] at ht
  exact Bool.false_ne_true ht

/-- C64, G2: `Unmarshal` accepts exactly the encodings of points of order dividing `Order`. -/
theorem C64_g2_accepts (m : Mem Gfp2) (e : Ref) (he : isUser e) (b : List UInt8) :
    (g2Unmarshal m e b).1 = true ↔
      ∃ A, Order • A = 0 ∧ Rep2 P ((g2Unmarshal m e b).2 e) A ∧ (g2Marshal (g2Unmarshal m e b).2 e).1 = b := by
  obtain ⟨h3, h4⟩ := g2Unmarshal_spec m he b
  constructor
  · intro h
    obtain ⟨Q, ho, hQ⟩ := h3.1 h
    exact ⟨Q, ho, h4 Q hQ, by rw [hQ]; rw [hQ] at h4; exact (g2Marshal_eq _ e (h4 Q rfl)).1⟩
  · rintro ⟨A, ho, hA, hb⟩
    exact h3.2 ⟨A, ho, by rw [← hb]; exact (g2Marshal_eq _ e hA).1⟩

/-- C64, G2: encodings are canonical. -/
theorem C64_g2_canonical (m m' : Mem Gfp2) (e e' : Ref) {A B : (E2 P).Point} (ha : Rep2 P (m e) A) (hb : Rep2 P (m' e') B) :
    (g2Marshal m e).1 = (g2Marshal m' e').1 ↔ A = B := by
  rw [(g2Marshal_eq m e ha).1, (g2Marshal_eq m' e' hb).1]
  exact ⟨bytes2_inj, fun h => by rw [h]⟩

/-- `Unmarshal` can fail after having overwritten a coordinate: the receiver of a refused call is not kept -/
example : ∃ b : List UInt8, (g1Unmarshal genMem1 .gen b).1 = false ∧ ((g1Unmarshal genMem1 .gen b).2 .gen).x ≠ curveGen.x :=
  ⟨List.replicate 64 255, by decide +kernel⟩

end APS
