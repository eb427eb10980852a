import Verif.Proofs.MillerCode

/-! `Pair` computes the optimal ate pairing. -/
namespace APS
open APS.Spec APS.Pairing WeierstrassCurve.Affine

/-- the multiples reached in the loop stay between 0 and `Order / 2` -/
def okDigs (k : Nat) : List Int → Bool
  | [] => true
  | d :: ds => decide (0 < k) && decide (2 * k + 1 < Order) &&
      okDigs (if d = 1 then 2 * k + 1 else if d = -1 then 2 * k - 1 else 2 * k) ds

theorem okDigs_m : okDigs 1 mDigits = true := by decide +kernel

theorem nsmul_ne {Q : (E2 P).Point} (hQ : Q ∈ GG2) (h0 : Q ≠ 0) {k : Nat} (h : k % Order ≠ 0) : k • Q ≠ 0 := by
  intro e
  have : addOrderOf Q = Order := addOrderOf_eq_prime (GG2_order hQ) h0
  have hd := addOrderOf_dvd_of_nsmul_eq_zero e
  rw [this] at hd
  exact h (Nat.mod_eq_zero_of_dvd hd)

theorem nsmul_ne_lt {Q : (E2 P).Point} (hQ : Q ∈ GG2) (h0 : Q ≠ 0) {k : Nat} (h : 0 < k) (h' : k < Order) : k • Q ≠ 0 :=
  nsmul_ne hQ h0 (by rw [Nat.mod_eq_of_lt h']; omega)

/-- two different factors of `F_{p²}` -/
theorem of2_pow {s : Fp2 P} (hs : s ≠ 0) : of2 s ^ eN = 1 := eN_of6 (e2_ne hs)

theorem take_rev (l : List Int) (i : Nat) (h : i < l.length) : (l.take (i + 1)).reverse = l.getD i 0 :: (l.take i).reverse := by
  rw [List.take_add_one, List.getElem?_eq_getElem h, List.reverse_append, List.getD_eq_getElem?_getD, List.getElem?_eq_getElem h]
  rfl

section
variable {Q : (E2 P).Point} (hQ : Q ∈ GG2) (h0 : Q ≠ 0) {aA mA : Pt Gfp2} {bA : Pt Int} {r2 : Gfp2}
  (ha : ∃ x₂ y₂ h₂, Q = .some x₂ y₂ h₂ ∧ val2 P aA.x = x₂ ∧ val2 P aA.y = y₂)
  (hm : ∃ x₂ y₂ h₂, -Q = .some x₂ y₂ h₂ ∧ val2 P mA.x = x₂ ∧ val2 P mA.y = y₂)
  (hr2 : val2 P r2 = val2 P aA.y ^ 2) (hr2' : val2 P r2 = val2 P mA.y ^ 2)
include hQ h0 ha hm hr2 hr2'

theorem step_rel (i : Nat) (ret : Gfp12) (r : Pt Gfp2) (k : Nat) (f : Fp12 P) (s : Fp2 P)
    (h1 : i = sixuPlus2NAF.length - 1 → val12 P ret = 1 ∧ f = 1) (hr : RepT r (k • Q)) (hs : s ≠ 0) (hf : val12 P ret = of2 s * f)
    (hk : 0 < k) (hk' : 2 * k + 1 < Order) :
    let d := sixuPlus2NAF.getD (i - 1) 0
    let k' := if d = 1 then 2 * k + 1 else if d = -1 then 2 * k - 1 else 2 * k
    ∃ ret' r' f' s', millerStep aA mA bA r2 i (ret, r) = (ret', r') ∧ millerStepAff Q (of1 bA.x) (of1 bA.y) (f, k • Q) d = (f', k' • Q) ∧
      RepT r' (k' • Q) ∧ s' ≠ 0 ∧ val12 P ret' = of2 s' * f' := by
  intro d k'
  have hd2 : k • Q + k • Q = (2 * k) • Q := by rw [two_mul, add_nsmul]
  have hkQ : k • Q ≠ 0 := nsmul_ne_lt hQ h0 hk (by omega)
  have hk2Q : k • Q + k • Q ≠ 0 := by rw [hd2]; exact nsmul_ne_lt hQ h0 (by omega) (by omega)
  have hp : k • Q + k • Q + Q = (2 * k + 1) • Q := by rw [hd2, succ_nsmul]
  have hq : k • Q + k • Q + -Q = (2 * k - 1) • Q := by
    rw [← sub_eq_add_neg, sub_eq_iff_eq_add, hd2, ← succ_nsmul]; congr 1; omega
  have hq' : k • Q + k • Q + -Q = k • Q + k • Q - Q := (sub_eq_add_neg _ _).symm
  have hpQ : k • Q + k • Q + Q ≠ 0 := by rw [hp]; exact nsmul_ne_lt hQ h0 (by omega) hk'
  have hqQ : k • Q + k • Q + -Q ≠ 0 := by rw [hq]; exact nsmul_ne_lt hQ h0 (by omega) (by omega)
  set ret1 := if i ≠ sixuPlus2NAF.length - 1 then ret.square P else ret with hret1
  have hsq : ∃ s1 : Fp2 P, s1 ≠ 0 ∧ val12 P ret1 = of2 s1 * f ^ 2 := by
    by_cases hi : i = sixuPlus2NAF.length - 1
    · refine ⟨1, one_ne_zero, ?_⟩
      rw [hret1, if_neg (by simpa using hi), (h1 hi).1, (h1 hi).2, map_one]; ring
    · refine ⟨s ^ 2, pow_ne_zero _ hs, ?_⟩
      rw [hret1, if_pos hi, val12_square, hf, map_pow]; ring
  obtain ⟨s1, hs1, e1⟩ := hsq
  obtain ⟨a, b, c, o, eo, ho, s2, hs2, e2⟩ := lineDouble r bA hr hkQ hk2Q ret1
  unfold millerStep millerStepAff
  simp only [eo]
  rw [← hret1]
  by_cases hd1 : d = 1
  · have hk'e : k' = 2 * k + 1 := if_pos hd1
    rw [if_pos hd1, if_pos hd1, hk'e]
    obtain ⟨a', b', c', o', eo', ho', s3, hs3, e3⟩ := lineAdd o aA bA r2 ho ha hr2 hk2Q
      (fun e => hqQ (by rw [e, add_neg_cancel])) hpQ (mulLine ret1 a b c)
    refine ⟨_, _, _, s3 * (s2 * s1), by rw [eo'], by rw [hp], by rw [← hp]; exact ho', mul_ne_zero hs3 (mul_ne_zero hs2 hs1), ?_⟩
    rw [e3, e2, e1]
    simp only [map_mul]; ring
  · rw [if_neg hd1, if_neg hd1]
    by_cases hd3 : d = -1
    · have hk'e : k' = 2 * k - 1 := (if_neg hd1).trans (if_pos hd3)
      rw [if_pos hd3, if_pos hd3, hk'e]
      obtain ⟨a', b', c', o', eo', ho', s3, hs3, e3⟩ := lineAdd o mA bA r2 ho hm hr2' hk2Q
        (fun e => hpQ (by rw [e, neg_add_cancel])) hqQ (mulLine ret1 a b c)
      refine ⟨_, _, _, s3 * (s2 * s1), by rw [eo'], by rw [← hq', hq], by rw [← hq]; exact ho',
        mul_ne_zero hs3 (mul_ne_zero hs2 hs1), ?_⟩
      rw [e3, e2, e1]
      simp only [map_mul]; ring
    · have hk'e : k' = 2 * k := (if_neg hd1).trans (if_neg hd3)
      rw [if_neg hd3, if_neg hd3, hk'e]
      refine ⟨_, _, _, s2 * s1, rfl, by rw [hd2], by rw [← hd2]; exact ho, mul_ne_zero hs2 hs1, ?_⟩
      rw [e2, e1]
      simp only [map_mul]; ring

theorem loop_rel : ∀ (i : Nat), i ≤ sixuPlus2NAF.length - 1 → ∀ (ret : Gfp12) (r : Pt Gfp2) (k : Nat) (f : Fp12 P) (s : Fp2 P),
    (i = sixuPlus2NAF.length - 1 → val12 P ret = 1 ∧ f = 1) → RepT r (k • Q) → s ≠ 0 → val12 P ret = of2 s * f →
    okDigs k (sixuPlus2NAF.take i).reverse = true →
    ∃ s', s' ≠ 0 ∧ RepT (millerLoop aA mA bA r2 i (ret, r)).2 ((sixuPlus2NAF.take i).reverse.foldl (millerStepAff Q (of1 bA.x) (of1 bA.y)) (f, k • Q)).2 ∧
      val12 P (millerLoop aA mA bA r2 i (ret, r)).1 = of2 s' * ((sixuPlus2NAF.take i).reverse.foldl (millerStepAff Q (of1 bA.x) (of1 bA.y)) (f, k • Q)).1 := by
  intro i
  induction i with
  | zero => exact fun _ ret r k f s _ hr hs hf _ => ⟨s, hs, hr, hf⟩
  | succ i ih =>
    intro hi ret r k f s h1 hr hs hf hok
    have hlt : i < sixuPlus2NAF.length := by
      have : sixuPlus2NAF.length = 65 := by decide
      omega
    rw [take_rev _ i hlt] at hok ⊢
    rw [okDigs, Bool.and_eq_true, Bool.and_eq_true, decide_eq_true_eq, decide_eq_true_eq] at hok
    obtain ⟨ret', r', f', s', e1, e2, hr', hs', hf'⟩ := step_rel hQ h0 ha hm hr2 hr2' (bA := bA) (i + 1) ret r k f s h1 hr hs hf hok.1.1 hok.1.2
    rw [millerLoop, e1, List.foldl_cons]
    rw [Nat.add_sub_cancel] at e2
    rw [e2]
    exact ih (by omega) ret' r' _ f' s' (fun h => by omega) hr' hs' hf' hok.2
end

theorem zsmul_ne {Q : (E2 P).Point} (hQ : Q ∈ GG2) (h0 : Q ≠ 0) {k : Int} (h : k % Order ≠ 0) : k • Q ≠ 0 := by
  intro e
  have : addOrderOf Q = Order := addOrderOf_eq_prime (GG2_order hQ) h0
  have hd := addOrderOf_dvd_iff_zsmul_eq_zero.2 e
  rw [this] at hd
  exact h (Int.emod_eq_zero_of_dvd hd)

theorem makeAffine_t (m : Mem Gfp2) (c : Ref) {Q : (E2 P).Point} (h : Rep2 P (m c) Q) (hQ : Q ≠ 0) (ht : (m c).z = Gfp2.one → val2 P (m c).t = 1) :
    val2 P (twistMakeAffine P m c c).t = 1 := by
  unfold twistMakeAffine
  by_cases h1 : (m c).z.isOne = true
  · rw [if_pos h1]
    apply ht
    have h0 := h.2.1
    simp only [Gfp2.isOne, Bool.and_eq_true, beq_iff_eq] at h1
    refine Gfp2.ext h1.1 ?_
    show _ = (1 : Int)
    have := h1.2
    omega
  rw [if_neg h1]
  have h2 : ¬ (m c).z = ⟨0, 0⟩ := fun e => hQ ((rep2_zero_iff h).1 e)
  rw [if_neg (show ¬ twistIsInf (m c) = true from fun e => h2 ((isZero_iff _).1 e))]
  simp only [Mem.setT, Mem.set_same, val2_one]

theorem millerAff_def (Q : (E2 P).Point) (x y : Fp12 P) (F : Fp12 P × (E2 P).Point) (hF : mDigits.foldl (millerStepAff Q x y) (1, Q) = F) :
    millerAff Q x y = F.1 * lineAt (psi F.2) (psi (frobTw Q)) x y * lineAt (psi (F.2 + frobTw Q)) (psi (-frobTw (frobTw Q))) x y := by
  subst hF; rfl

theorem frob2_some {x y : Fp2 P} (h : (E2 P).Nonsingular x y) :
    ∃ h', -frobTw (frobTw (.some x y h)) = .some (x * (xiToPSquaredMinus1Over3 : Fp2 P)) y h' := by
  have aux : ∀ {a b c d : Fp2 P} (h : (E2 P).Nonsingular a b), a = c → b = d → ∃ h', (Point.some a b h : (E2 P).Point) = .some c d h' := by
    rintro a b _ _ h rfl rfl; exact ⟨h, rfl⟩
  rw [frobTw_some, frobTw_some, Point.neg_some]
  have hp2 : ∀ z : Fp2 P, frobenius (Fp2 P) P (frobenius (Fp2 P) P z) = z := by
    intro z
    rw [frobenius_def, frobenius_def, ← pow_mul, ← pow_two, fp2_pow_p2 P bnP_mod4]
  have hu : frobenius (Fp2 P) P (val2 P xiToPMinus1Over6) * val2 P xiToPMinus1Over6 = xi P ^ ((P ^ 2 - 1) / 6) := by
    rw [← xi_pow_p16, frobenius_def, ← pow_mul, ← pow_add, show (P - 1) / 6 * P + (P - 1) / 6 = (P ^ 2 - 1) / 6 by decide +kernel]
  apply aux
  · rw [map_mul, hp2, map_pow, mul_assoc, ← mul_pow, hu, ← pow_mul, show (P ^ 2 - 1) / 6 * 2 = (P ^ 2 - 1) / 3 by decide +kernel, xi_pow_pp13]
  · rw [negY_short, map_mul, hp2, map_pow, mul_assoc, ← mul_pow, hu, ← pow_mul, show (P ^ 2 - 1) / 6 * 3 = (P ^ 2 - 1) / 2 by decide +kernel, xi_pow_pp12]
    ring

theorem fold_pt {x y : ZMod P} (h : (E1 P).Nonsingular x y) (Q : GG2) :
    (mDigits.foldl (millerStepAff Q (of1 x) (of1 y)) (1, ↑Q)).2 = (6 * (u : Int) + 2) • (Q : (E2 P).Point) := by
  have e1 := (fold_coe h Q mDigits 1 1 Q (by rw [one_pow, Units.val_one])).2
  rw [← e1, Bil.fold_point1, mDigits_val, AddSubgroup.coe_zsmul]

/-- the Miller loop of the code is the one of the specification up to a factor of `F_{p²}` -/
theorem miller_eq (q : Pt Gfp2) (p : Pt Int) {x y : ZMod P} {h : (E1 P).Nonsingular x y} (hp : Rep1 P p (.some x y h)) {Q : (E2 P).Point}
    (hq : Rep2 P q Q) (hQ : Q ∈ GG2) (h0 : Q ≠ 0) (ht : q.z = Gfp2.one → val2 P q.t = 1) :
    ∃ s : Fp2 P, s ≠ 0 ∧ val12 P (miller q p) = of2 s * millerAff Q (of1 x) (of1 y) := by
  obtain ⟨ra, rz, _⟩ := twistMakeAffine_rep (m := (fun _ => q : Mem Gfp2)) (.obj 0) hq
  obtain ⟨pa, pz, _⟩ := curveMakeAffine_rep (fun _ => p) (.obj 0) hp
  have hat := makeAffine_t (fun _ => q : Mem Gfp2) (.obj 0) hq h0 ht
  rw [if_neg h0] at rz
  rw [if_neg (Point.some_ne_zero _)] at pz
  unfold miller
  simp only
  have hneg := twistNegative_other (twistMakeAffine P (fun _ => q) (.obj 0)) (c := .obj 1) (a := .obj 0) (by decide)
  rw [hneg, Mem.set_same]
  generalize twistMakeAffine P (fun _ => q) (.obj 0) (.obj 0) = aA at *
  generalize curveMakeAffine P (fun _ => p) (.obj 0) (.obj 0) = bA at *
  have hbx : (bA.x : ZMod P) = x ∧ (bA.y : ZMod P) = y := by
    obtain ⟨⟨_, e1, e2⟩, _⟩ := pa
    rw [pz] at e1 e2
    exact ⟨by rw [e1]; simp, by rw [e2]; simp⟩
  obtain ⟨rfl, rfl⟩ := hbx
  match Q, h0 with
  | .some x₂ y₂ h₂, h0 =>
    obtain ⟨ax, ay⟩ := (rep2_one h₂ rz).1 ra
    have ha : ∃ x₃ y₃ h₃, (Point.some x₂ y₂ h₂ : (E2 P).Point) = .some x₃ y₃ h₃ ∧ val2 P aA.x = x₃ ∧ val2 P aA.y = y₃ := ⟨_, _, _, rfl, ax, ay⟩
    set mA : Pt Gfp2 := ⟨aA.x, Gfp2.zero.sub aA.y, aA.z, Gfp2.zero⟩ with hmA
    have hm : ∃ x₃ y₃ h₃, -(Point.some x₂ y₂ h₂ : (E2 P).Point) = .some x₃ y₃ h₃ ∧ val2 P mA.x = x₃ ∧ val2 P mA.y = y₃ :=
      ⟨_, _, _, Point.neg_some h₂, ax, by rw [hmA, negY_short]; simp only [val2_sub, val2_zero]; rw [ay, zero_sub]⟩
    have hrt : RepT aA ((1 : Nat) • (Point.some x₂ y₂ h₂ : (E2 P).Point)) := by
      rw [one_nsmul]
      exact ⟨ra.1, by rw [hat, rz, val2_one, one_pow]⟩
    have hr2 : val2 P (aA.y.square P) = val2 P aA.y ^ 2 := by rw [val2_square]; ring
    have hr2' : val2 P (aA.y.square P) = val2 P mA.y ^ 2 := by
      rw [hmA, val2_square]; simp only [val2_sub, val2_zero]; ring
    obtain ⟨s, hs, hT, hf⟩ := loop_rel hQ h0 ha hm hr2 hr2' (bA := bA) (sixuPlus2NAF.length - 1) le_rfl Gfp12.one aA 1 1 1
      (fun _ => ⟨val12_one P, rfl⟩) hrt one_ne_zero (by rw [val12_one, map_one, one_mul]) okDigs_m
    have hds : (sixuPlus2NAF.take (sixuPlus2NAF.length - 1)).reverse = mDigits := rfl
    rw [hds, one_nsmul] at hT hf
    have hpt : (mDigits.foldl (millerStepAff (.some x₂ y₂ h₂) (of1 bA.x) (of1 bA.y)) (1, .some x₂ y₂ h₂)).2 = (6 * (u : Int) + 2) • (Point.some x₂ y₂ h₂ : (E2 P).Point) := by
      exact fold_pt h ⟨_, hQ⟩
    rw [millerAff_def _ _ _ _ rfl]
    generalize millerLoop aA mA bA (aA.y.square P) (sixuPlus2NAF.length - 1) (Gfp12.one, aA) = L at *
    generalize List.foldl (millerStepAff (.some x₂ y₂ h₂) (of1 bA.x) (of1 bA.y)) (1, .some x₂ y₂ h₂) mDigits = F at *
    have hfz : frobTw (.some x₂ y₂ h₂) = (P : Int) • (Point.some x₂ y₂ h₂ : (E2 P).Point) := by rw [GG2_frob hQ, natCast_zsmul]
    have hfz2 : -frobTw (frobTw (.some x₂ y₂ h₂)) = (-((P : Int) * P)) • (Point.some x₂ y₂ h₂ : (E2 P).Point) := by
      rw [hfz, map_zsmul, hfz, neg_zsmul, mul_zsmul]
    have hfr : ∃ x₃ y₃ h₃, frobTw (Point.some x₂ y₂ h₂ : (E2 P).Point) = .some x₃ y₃ h₃ ∧ val2 P (aA.x.conjugate.mul P xiToPMinus1Over3) = x₃ ∧
        val2 P (aA.y.conjugate.mul P xiToPMinus1Over2) = y₃ := by
      have e := rep2_frob ra h0 rz
      rw [frobTw_some] at e ⊢
      exact ⟨_, _, _, rfl, ((rep2_one _ rfl).1 e).1, ((rep2_one _ rfl).1 e).2⟩
    have hT0 : F.2 ≠ 0 := by rw [hpt]; exact zsmul_ne hQ h0 (by decide +kernel)
    have hT1 : F.2 ≠ frobTw (.some x₂ y₂ h₂) := by
      rw [hpt, hfz, ← sub_ne_zero, sub_eq_add_neg, ← sub_zsmul]; exact zsmul_ne hQ h0 (by decide +kernel)
    have hT2 : F.2 + frobTw (.some x₂ y₂ h₂) ≠ 0 := by
      rw [hpt, hfz, ← add_zsmul]; exact zsmul_ne hQ h0 (by decide +kernel)
    obtain ⟨a, b, c, o, eo, ho, s2, hs2, e2⟩ := lineAdd L.2 ⟨aA.x.conjugate.mul P xiToPMinus1Over3, aA.y.conjugate.mul P xiToPMinus1Over2, Gfp2.one, Gfp2.one⟩ bA
      ((aA.y.conjugate.mul P xiToPMinus1Over2).square P) hT hfr (by rw [val2_square]; ring) hT0 hT1 hT2 L.1
    obtain ⟨h₃, e3⟩ := frob2_some h₂
    have hT3 : F.2 + frobTw (.some x₂ y₂ h₂) ≠ -frobTw (frobTw (.some x₂ y₂ h₂)) := by
      rw [hpt, hfz2, hfz, ← add_zsmul, ← sub_ne_zero, sub_eq_add_neg, ← sub_zsmul]; exact zsmul_ne hQ h0 (by decide +kernel)
    have hT4 : F.2 + frobTw (.some x₂ y₂ h₂) + -frobTw (frobTw (.some x₂ y₂ h₂)) ≠ 0 := by
      rw [hpt, hfz2, hfz, ← add_zsmul, ← add_zsmul]; exact zsmul_ne hQ h0 (by decide +kernel)
    obtain ⟨a', b', c', o', eo', ho', s3, hs3, e4⟩ := lineAdd o ⟨aA.x.mulScalar xiToPSquaredMinus1Over3, aA.y, Gfp2.one, Gfp2.one⟩ bA
      (aA.y.square P) ho ⟨_, _, _, e3, by simp only [val2_mulScalar, ax], ay⟩ (by rw [val2_square]; ring) hT2 hT3 hT4 (mulLine L.1 a b c)
    refine ⟨s3 * (s2 * s), mul_ne_zero hs3 (mul_ne_zero hs2 hs), ?_⟩
    rw [eo]
    simp only
    rw [eo']
    simp only
    rw [e4, e2, hf]
    simp only [map_mul]; ring

/-- `Pair` computes the optimal ate pairing -/
theorem pair_eq_ate (a : Pt Int) (b : Pt Gfp2) {A : (E1 P).Point} {B : (E2 P).Point} (ha : Rep1 P a A) (hb : Rep2 P b B)
    (hB : B ∈ GG2) (ht : b.z = Gfp2.one → val2 P b.t = 1) : val12 P (pair a b) = ate A B := by
  by_cases hA0 : A = 0
  · have : a.z = 0 := (rep_zero_iff ha).2 hA0
    rw [pair_inf (by simp [curveIsInf, this]), hA0, val12_one]; rfl
  by_cases hB0 : B = 0
  · have : b.z = ⟨0, 0⟩ := (rep2_zero_iff hb).2 hB0
    rw [pair_inf (by simp [twistIsInf, this, Gfp2.isZero]), hB0, val12_one, ate_zero_right]
  have h1 : ¬ a.z = 0 := fun e => hA0 ((rep_zero_iff ha).1 e)
  have h2 : ¬ b.z = ⟨0, 0⟩ := fun e => hB0 ((rep2_zero_iff hb).1 e)
  rw [pair_fin (by
    rw [Bool.or_eq_true, not_or]
    exact ⟨by simpa [curveIsInf] using h1, fun e => h2 ((isZero_iff _).1 e)⟩), finalExp_eq]
  match A, ha, hA0 with
  | .some x y h, ha, _ =>
    obtain ⟨s, hs, e⟩ := miller_eq b a ha hb hB hB0 ht
    rw [e, mul_pow, show (P ^ 12 - 1) / Order = eN from rfl, of2_pow hs, one_mul]
    unfold ate
    simp only
    rw [if_neg hB0]; rfl

end APS
