import Verif.Proofs.SnarkForge
import Verif.Spec.Soundness
import Mathlib.Algebra.Polynomial.Roots
import Mathlib.Algebra.MvPolynomial.SchwartzZippel

/-! Linear provers: the algebra behind soundness. -/
namespace APS.Snark
open Polynomial APS.Spec APS.Circuit

theorem cubic {K : Type} [Field K] [Fintype K] (hK : 3 < Fintype.card K) {a b c d : K}
    (h : ∀ t, a + b * t + c * t ^ 2 + d * t ^ 3 = 0) : a = 0 ∧ b = 0 ∧ c = 0 ∧ d = 0 := by
  classical
  have hp : (C a + C b * X + C c * X ^ 2 + C d * X ^ 3 : K[X]) = 0 := by
    refine Polynomial.eq_zero_of_natDegree_lt_card_of_eval_eq_zero' _ (Finset.univ : Finset K) ?_ ?_
    · intro t _
      simpa using h t
    · refine lt_of_le_of_lt ?_ (by simpa using hK)
      compute_degree
  have e := fun n => congrArg (fun p => Polynomial.coeff p n) hp
  simp only [coeff_add, coeff_C_mul, coeff_X_pow, coeff_C, coeff_X, coeff_zero] at e
  have e0 := e 0
  have e1 := e 1
  have e2 := e 2
  have e3 := e 3
  simp at e0 e1 e2 e3
  exact ⟨e0, e1, e2, e3⟩

/-- comparison of coefficients in the verification equation of a linear prover -/
theorem lin_core {K : Type} [Field K] [Fintype K] (hK : 3 < Fintype.card K)
    {a0 aA aB aD r1 l1 o1 r2 l2 o2 b0 bB bG bD c0 cA cB cD r3 l3 o3 r4 l4 o4 r5 l5 o5 k y : K}
    (H : ∀ α β γ δ : K,
      (γ * δ * (a0 + aA * α + aB * β + aD * δ) + γ * (α * r1 + β * l1 + o1) + δ * (α * r2 + β * l2 + o2)) *
        (b0 + bB * β + bG * γ + bD * δ) + γ * δ * (k * β + y - α * β - (α * r5 + β * l5 + o5)) -
      δ * (γ * δ * (c0 + cA * α + cB * β + cD * δ) + γ * (α * r3 + β * l3 + o3) + δ * (α * r4 + β * l4 + o4)) = 0) :
    (l3 + l5 - k) * (r3 + r5) + y = o3 + o5 := by
  -- powers of delta
  have hd : ∀ α β γ : K, γ * (α * r1 + β * l1 + o1) * (b0 + bB * β + bG * γ) = 0 ∧
      γ * (a0 + aA * α + aB * β) * (b0 + bB * β + bG * γ) + γ * (α * r1 + β * l1 + o1) * bD +
        (α * r2 + β * l2 + o2) * (b0 + bB * β + bG * γ) + γ * (k * β + y - α * β - (α * r5 + β * l5 + o5)) -
        γ * (α * r3 + β * l3 + o3) = 0 := by
    intro α β γ
    obtain ⟨h0, h1, -, -⟩ := cubic hK (a := γ * (α * r1 + β * l1 + o1) * (b0 + bB * β + bG * γ))
      (b := γ * (a0 + aA * α + aB * β) * (b0 + bB * β + bG * γ) + γ * (α * r1 + β * l1 + o1) * bD +
        (α * r2 + β * l2 + o2) * (b0 + bB * β + bG * γ) + γ * (k * β + y - α * β - (α * r5 + β * l5 + o5)) -
        γ * (α * r3 + β * l3 + o3))
      (c := γ * (a0 + aA * α + aB * β) * bD + γ * aD * (b0 + bB * β + bG * γ) + (α * r2 + β * l2 + o2) * bD -
        γ * (c0 + cA * α + cB * β) - (α * r4 + β * l4 + o4))
      (d := γ * aD * bD - γ * cD) (fun δ => by linear_combination H α β γ δ)
    exact ⟨h0, h1⟩
  -- powers of gamma
  have hg : ∀ α β : K, (α * r1 + β * l1 + o1) * (b0 + bB * β) = 0 ∧ (α * r2 + β * l2 + o2) * (b0 + bB * β) = 0 ∧
      (a0 + aA * α + aB * β) * (b0 + bB * β) + (α * r1 + β * l1 + o1) * bD + (α * r2 + β * l2 + o2) * bG +
        (k * β + y - α * β - (α * r5 + β * l5 + o5)) - (α * r3 + β * l3 + o3) = 0 := by
    intro α β
    obtain ⟨-, h1, -, -⟩ := cubic hK (a := 0) (b := (α * r1 + β * l1 + o1) * (b0 + bB * β))
      (c := (α * r1 + β * l1 + o1) * bG) (d := 0) (fun γ => by linear_combination (hd α β γ).1)
    obtain ⟨h2, h3, -, -⟩ := cubic hK (a := (α * r2 + β * l2 + o2) * (b0 + bB * β))
      (b := (a0 + aA * α + aB * β) * (b0 + bB * β) + (α * r1 + β * l1 + o1) * bD + (α * r2 + β * l2 + o2) * bG +
        (k * β + y - α * β - (α * r5 + β * l5 + o5)) - (α * r3 + β * l3 + o3))
      (c := (a0 + aA * α + aB * β) * bG) (d := 0) (fun γ => by linear_combination (hd α β γ).2)
    exact ⟨h1, h2, h3⟩
  -- powers of alpha
  have ha : ∀ β : K, r1 * (b0 + bB * β) = 0 ∧ (β * l1 + o1) * (b0 + bB * β) = 0 ∧ r2 * (b0 + bB * β) = 0 ∧
      (β * l2 + o2) * (b0 + bB * β) = 0 ∧
      aA * (b0 + bB * β) + r1 * bD + r2 * bG - β - r5 - r3 = 0 ∧
      (a0 + aB * β) * (b0 + bB * β) + (β * l1 + o1) * bD + (β * l2 + o2) * bG + k * β + y - (β * l5 + o5) -
        (β * l3 + o3) = 0 := by
    intro β
    obtain ⟨h1, h2, -, -⟩ := cubic hK (a := (β * l1 + o1) * (b0 + bB * β)) (b := r1 * (b0 + bB * β)) (c := 0) (d := 0)
      (fun α => by linear_combination (hg α β).1)
    obtain ⟨h3, h4, -, -⟩ := cubic hK (a := (β * l2 + o2) * (b0 + bB * β)) (b := r2 * (b0 + bB * β)) (c := 0) (d := 0)
      (fun α => by linear_combination (hg α β).2.1)
    obtain ⟨h5, h6, -, -⟩ := cubic hK (a := (a0 + aB * β) * (b0 + bB * β) + (β * l1 + o1) * bD + (β * l2 + o2) * bG +
        k * β + y - (β * l5 + o5) - (β * l3 + o3)) (b := aA * (b0 + bB * β) + r1 * bD + r2 * bG - β - r5 - r3) (c := 0)
      (d := 0) (fun α => by linear_combination (hg α β).2.2)
    exact ⟨h2, h1, h4, h3, h6, h5⟩
  -- powers of beta
  obtain ⟨-, p1, -, -⟩ := cubic hK (a := r1 * b0) (b := r1 * bB) (c := 0) (d := 0) (fun β => by linear_combination (ha β).1)
  obtain ⟨-, p2, -, -⟩ := cubic hK (a := r2 * b0) (b := r2 * bB) (c := 0) (d := 0)
    (fun β => by linear_combination (ha β).2.2.1)
  obtain ⟨-, p3, p4, -⟩ := cubic hK (a := o1 * b0) (b := l1 * b0 + o1 * bB) (c := l1 * bB) (d := 0)
    (fun β => by linear_combination (ha β).2.1)
  obtain ⟨-, p5, p6, -⟩ := cubic hK (a := o2 * b0) (b := l2 * b0 + o2 * bB) (c := l2 * bB) (d := 0)
    (fun β => by linear_combination (ha β).2.2.2.1)
  obtain ⟨p7, p8, -, -⟩ := cubic hK (a := aA * b0 + r1 * bD + r2 * bG - r5 - r3) (b := aA * bB - 1) (c := 0) (d := 0)
    (fun β => by linear_combination (ha β).2.2.2.2.1)
  obtain ⟨p9, p10, p11, -⟩ := cubic hK (a := a0 * b0 + o1 * bD + o2 * bG + y - o5 - o3)
    (b := a0 * bB + aB * b0 + l1 * bD + l2 * bG + k - l5 - l3) (c := aB * bB) (d := 0)
    (fun β => by linear_combination (ha β).2.2.2.2.2)
  have hb : bB ≠ 0 := by
    rintro rfl
    simp at p8
  have z1 : r1 = 0 := (mul_eq_zero.1 p1).resolve_right hb
  have z2 : r2 = 0 := (mul_eq_zero.1 p2).resolve_right hb
  have z3 : l1 = 0 := (mul_eq_zero.1 p4).resolve_right hb
  have z4 : l2 = 0 := (mul_eq_zero.1 p6).resolve_right hb
  have z5 : o1 = 0 := by rw [z3] at p3; exact (mul_eq_zero.1 (by linear_combination p3)).resolve_right hb
  have z6 : o2 = 0 := by rw [z4] at p5; exact (mul_eq_zero.1 (by linear_combination p5)).resolve_right hb
  have z7 : aB = 0 := (mul_eq_zero.1 p11).resolve_right hb
  rw [z1, z2] at p7
  rw [z3, z4, z7] at p10
  rw [z5, z6] at p9
  have e1 : r3 + r5 = aA * b0 := by linear_combination -p7
  have e2 : l3 + l5 - k = a0 * bB := by linear_combination -p10
  rw [e1, e2]
  linear_combination p9 + a0 * b0 * p8

/-! ### polynomials in the five secrets -/

section Mv
variable {q : Nat} [Fact q.Prime]

/-- a polynomial in the secret point -/
noncomputable def up (p : (ZMod q)[X]) : MvPolynomial (Fin 5) (ZMod q) := Polynomial.aeval (MvPolynomial.X 0) p

theorem up_eval (p : (ZMod q)[X]) (f : Fin 5 → ZMod q) : MvPolynomial.eval f (up p) = p.eval (f 0) := by
  unfold up
  induction p using Polynomial.induction_on' with
  | add a b ha hb => simp [ha, hb]
  | monomial n a => simp [Polynomial.aeval_monomial]

theorem up_degree {p : (ZMod q)[X]} {d : Nat} (h : p.natDegree ≤ d) : (up p).totalDegree ≤ d := by
  unfold up
  rw [Polynomial.aeval_eq_sum_range]
  refine MvPolynomial.totalDegree_finsetSum_le fun i hi => ?_
  refine (MvPolynomial.totalDegree_smul_le _ _).trans ?_
  refine (MvPolynomial.totalDegree_pow _ _).trans ?_
  rw [MvPolynomial.totalDegree_X]
  simp at hi
  omega

theorem deg_add {p r : MvPolynomial (Fin 5) (ZMod q)} {d : Nat} (hp : p.totalDegree ≤ d) (hr : r.totalDegree ≤ d) :
    (p + r).totalDegree ≤ d := (MvPolynomial.totalDegree_add _ _).trans (max_le hp hr)
theorem deg_sub {p r : MvPolynomial (Fin 5) (ZMod q)} {d : Nat} (hp : p.totalDegree ≤ d) (hr : r.totalDegree ≤ d) :
    (p - r).totalDegree ≤ d := (MvPolynomial.totalDegree_sub _ _).trans (max_le hp hr)
theorem deg_mul {p r : MvPolynomial (Fin 5) (ZMod q)} {d e : Nat} (hp : p.totalDegree ≤ d) (hr : r.totalDegree ≤ e) :
    (p * r).totalDegree ≤ d + e := (MvPolynomial.totalDegree_mul _ _).trans (Nat.add_le_add hp hr)
theorem deg_X (i : Fin 5) : (MvPolynomial.X i : MvPolynomial (Fin 5) (ZMod q)).totalDegree ≤ 1 := by
  rw [MvPolynomial.totalDegree_X]
theorem deg_C (a : ZMod q) : (MvPolynomial.C a : MvPolynomial (Fin 5) (ZMod q)).totalDegree ≤ 0 := by
  rw [MvPolynomial.totalDegree_C]

/-- what a linear combination of the G1 points amounts to -/
structure Form (q : Nat) [Fact q.Prime] where
  z : (ZMod q)[X]
  a : ZMod q
  b : ZMod q
  d : ZMod q
  rd : (ZMod q)[X]
  ld : (ZMod q)[X]
  od : (ZMod q)[X]
  rg : (ZMod q)[X]
  lg : (ZMod q)[X]
  og : (ZMod q)[X]

/-- `γδ` times the linear combination -/
noncomputable def Form.mv (F : Form q) : MvPolynomial (Fin 5) (ZMod q) :=
  MvPolynomial.X 3 * MvPolynomial.X 4 * (up F.z + MvPolynomial.C F.a * MvPolynomial.X 1 + MvPolynomial.C F.b * MvPolynomial.X 2 + MvPolynomial.C F.d * MvPolynomial.X 4) +
    MvPolynomial.X 3 * (MvPolynomial.X 1 * up F.rd + MvPolynomial.X 2 * up F.ld + up F.od) +
    MvPolynomial.X 4 * (MvPolynomial.X 1 * up F.rg + MvPolynomial.X 2 * up F.lg + up F.og)

/-- the value of `Form.mv` -/
def Form.val (F : Form q) (x α β γ δ : ZMod q) : ZMod q :=
  γ * δ * (F.z.eval x + F.a * α + F.b * β + F.d * δ) + γ * (α * F.rd.eval x + β * F.ld.eval x + F.od.eval x) +
    δ * (α * F.rg.eval x + β * F.lg.eval x + F.og.eval x)

theorem Form.eval_mv (F : Form q) (f : Fin 5 → ZMod q) : MvPolynomial.eval f F.mv = F.val (f 0) (f 1) (f 2) (f 3) (f 4) := by
  simp [Form.mv, Form.val, up_eval]

/-- the degrees that occur in a key for `n` gates -/
structure Form.Deg (F : Form q) (n : Nat) : Prop where
  z : F.z.natDegree ≤ n
  rd : F.rd.natDegree ≤ n
  ld : F.ld.natDegree ≤ n
  od : F.od.natDegree ≤ 2 * n
  rg : F.rg.natDegree ≤ n
  lg : F.lg.natDegree ≤ n
  og : F.og.natDegree ≤ n

theorem Form.Deg.mv {F : Form q} {n : Nat} (h : F.Deg n) : F.mv.totalDegree ≤ 2 * n + 3 := by
  unfold Form.mv
  have hX := deg_X (q := q)
  have hC := deg_C (q := q)
  refine deg_add (deg_add ?_ ?_) ?_
  · refine (deg_mul (deg_mul (hX 3) (hX 4)) (e := n + 1) ?_).trans (by omega)
    refine deg_add (deg_add (deg_add ?_ ?_) ?_) ?_
    · exact (up_degree h.z).trans (by omega)
    all_goals exact (deg_mul (hC _) (hX _)).trans (by omega)
  · refine (deg_mul (hX 3) (e := 2 * n + 1) ?_).trans (by omega)
    refine deg_add (deg_add ?_ ?_) ?_
    · exact (deg_mul (hX _) (up_degree h.rd)).trans (by omega)
    · exact (deg_mul (hX _) (up_degree h.ld)).trans (by omega)
    · exact (up_degree h.od).trans (by omega)
  · refine (deg_mul (hX 4) (e := n + 1) ?_).trans (by omega)
    refine deg_add (deg_add ?_ ?_) ?_
    · exact (deg_mul (hX _) (up_degree h.rg)).trans (by omega)
    · exact (deg_mul (hX _) (up_degree h.lg)).trans (by omega)
    · exact (up_degree h.og).trans (by omega)

/-- `γδ` times the difference of the two sides of the verification equation -/
noncomputable def eqMv (A Cc I : Form q) (b0 : (ZMod q)[X]) (bB bG bD k y : ZMod q) : MvPolynomial (Fin 5) (ZMod q) :=
  A.mv * (up b0 + MvPolynomial.C bB * MvPolynomial.X 2 + MvPolynomial.C bG * MvPolynomial.X 3 + MvPolynomial.C bD * MvPolynomial.X 4) +
    MvPolynomial.X 3 * MvPolynomial.X 4 * (MvPolynomial.C k * MvPolynomial.X 2 + MvPolynomial.C y - MvPolynomial.X 1 * MvPolynomial.X 2 -
      (MvPolynomial.X 1 * up I.rd + MvPolynomial.X 2 * up I.ld + up I.od)) -
    MvPolynomial.X 4 * Cc.mv

theorem eqMv_eval (A Cc I : Form q) (b0 : (ZMod q)[X]) (bB bG bD k y : ZMod q) (f : Fin 5 → ZMod q) :
    MvPolynomial.eval f (eqMv A Cc I b0 bB bG bD k y) =
      A.val (f 0) (f 1) (f 2) (f 3) (f 4) * (b0.eval (f 0) + bB * f 2 + bG * f 3 + bD * f 4) +
      f 3 * f 4 * (k * f 2 + y - f 1 * f 2 - (f 1 * I.rd.eval (f 0) + f 2 * I.ld.eval (f 0) + I.od.eval (f 0))) -
      f 4 * Cc.val (f 0) (f 1) (f 2) (f 3) (f 4) := by
  simp [eqMv, up_eval, Form.eval_mv]

theorem eqMv_degree {A Cc I : Form q} {b0 : (ZMod q)[X]} (bB bG bD k y : ZMod q) {n : Nat} (hA : A.Deg n) (hC : Cc.Deg n)
    (hI : I.Deg n) (hb : b0.natDegree ≤ n) : (eqMv A Cc I b0 bB bG bD k y).totalDegree ≤ 3 * n + 4 := by
  unfold eqMv
  have hX := deg_X (q := q)
  have hC' := deg_C (q := q)
  refine deg_sub (deg_add ?_ ?_) ?_
  · refine (deg_mul hA.mv (e := n + 1) ?_).trans (by omega)
    refine deg_add (deg_add (deg_add ?_ ?_) ?_) ?_
    · exact (up_degree hb).trans (by omega)
    all_goals exact (deg_mul (hC' _) (hX _)).trans (by omega)
  · refine (deg_mul (deg_mul (hX 3) (hX 4)) (e := 2 * n + 2) ?_).trans ?_
    · refine deg_sub (deg_sub (deg_add ?_ ?_) ?_) (deg_add (deg_add ?_ ?_) ?_)
      · exact (deg_mul (hC' _) (hX _)).trans (by omega)
      · exact (hC' _).trans (by omega)
      · exact (deg_mul (hX _) (hX _)).trans (by omega)
      · exact (deg_mul (hX _) (up_degree hI.rd)).trans (by omega)
      · exact (deg_mul (hX _) (up_degree hI.ld)).trans (by omega)
      · exact (up_degree hI.od).trans (by omega)
    · omega
  · exact (deg_mul (hX 4) hC.mv).trans (by omega)

/-! ### the prover's points -/

theorem zip_sum (ks : List Int) (m : Nat) (f : Nat → ZMod q) :
    (List.zipWith (fun (k : Int) b => (k : ZMod q) * b) ks ((List.range m).map f)).sum =
      ∑ i ∈ Finset.range m, assign q ks i * f i := by
  induction ks generalizing m f with
  | nil => simp [assign]
  | cons k ks ih =>
    cases m with
    | zero => simp
    | succ m =>
      rw [List.range_succ_eq_map, Finset.sum_range_succ', List.map_cons, List.map_map, List.zipWith_cons_cons, List.sum_cons, ih]
      simp [assign, add_comm]

variable {G1 G2 GT : Type} [AddCommGroup G1] [AddCommGroup G2] [AddCommGroup GT] {api : Api G1 G2 GT}
  {g1 : G1} {g2 : G2}

theorem linComb_expo {G : Type} [AddCommGroup G] {g : G} (h : q • g = 0) (ks : List Int) (m : Nat) (f : Nat → ZMod q) :
    linComb ks (((List.range m).map f).map (expo q g h)) = expo q g h (∑ i ∈ Finset.range m, assign q ks i * f i) := by
  unfold linComb
  rw [zipWith_expo, zip_sum]

/-- combination of columns -/
noncomputable def linCol (S : Sys q) (M : Nat → Nat → ZMod q) (ks : List Int) (off len : Nat) : (ZMod q)[X] :=
  ∑ i ∈ Finset.range len, C (assign q ks i) * S.col M (off + i)

/-- combination of powers -/
noncomputable def linPow (q : Nat) [Fact q.Prime] (ks : List Int) (len : Nat) : (ZMod q)[X] :=
  ∑ i ∈ Finset.range len, C (assign q ks i) * X ^ i

theorem linCol_eval (S : Sys q) (M ks off len) (x : ZMod q) :
    (linCol S M ks off len).eval x = ∑ i ∈ Finset.range len, assign q ks i * (S.col M (off + i)).eval x := by
  simp [linCol, eval_finsetSum]

theorem linPow_eval (ks len) (x : ZMod q) : (linPow q ks len).eval x = ∑ i ∈ Finset.range len, assign q ks i * x ^ i := by
  simp [linPow, eval_finsetSum]

theorem linCol_degree (S : Sys q) (hn : S.n ≤ q) (M ks off len) : (linCol S M ks off len).natDegree ≤ S.n := by
  refine natDegree_sum_le_of_forall_le _ _ fun i _ => ?_
  refine (natDegree_C_mul_le _ _).trans ?_
  unfold Sys.col
  exact natDegree_le_of_degree_le (through_degree hn _).le

theorem linPow_degree (ks : List Int) (len) : (linPow q ks len).natDegree ≤ len := by
  refine natDegree_sum_le_of_forall_le _ _ fun i hi => ?_
  refine (natDegree_C_mul_le _ _).trans ?_
  rw [natDegree_X_pow]
  simp at hi
  omega

/-- the form of a linear combination of G1 points -/
noncomputable def formOf (S : Sys q) (pub : Nat) (c : Lin1) : Form q where
  z := linPow q c.powersX1 S.n + linCol S S.E c.LE 0 S.m + linCol S S.L c.LE 0 S.m + linCol S S.E c.Ex 0 S.m
  a := c.alpha
  b := c.beta1
  d := c.delta1
  rd := linCol S S.R c.rleoDelta pub (S.m - pub)
  ld := linCol S S.L c.rleoDelta pub (S.m - pub) + linCol S S.E c.rleoDelta pub (S.m - pub)
  od := linCol S S.O c.rleoDelta pub (S.m - pub) + linPow q c.powersXDD S.n * vanish q S.n
  rg := linCol S S.R c.rleoGamma 0 pub
  lg := linCol S S.L c.rleoGamma 0 pub + linCol S S.E c.rleoGamma 0 pub
  og := linCol S S.O c.rleoGamma 0 pub

theorem natDegree_add_le' {p r : (ZMod q)[X]} {d : Nat} (hp : p.natDegree ≤ d) (hr : r.natDegree ≤ d) : (p + r).natDegree ≤ d :=
  (natDegree_add_le _ _).trans (max_le hp hr)

theorem formOf_deg (S : Sys q) (hn : S.n ≤ q) (pub : Nat) (c : Lin1) : (formOf S pub c).Deg S.n := by
  have h := linCol_degree S hn
  have h' := linPow_degree (q := q)
  constructor
  · exact natDegree_add_le' (natDegree_add_le' (natDegree_add_le' (h' _ _) (h _ _ _ _)) (h _ _ _ _)) (h _ _ _ _)
  · exact h _ _ _ _
  · exact natDegree_add_le' (h _ _ _ _) (h _ _ _ _)
  · refine natDegree_add_le' ((h _ _ _ _).trans (by omega)) (natDegree_mul_le.trans ?_)
    rw [vanish_natDegree]
    have := h' c.powersXDD S.n
    omega
  · exact h _ _ _ _
  · exact natDegree_add_le' (h _ _ _ _) (h _ _ _ _)
  · exact h _ _ _ _

/-- the exponent of a linear combination of the published G1 points -/
noncomputable def expo1 (S : Sys q) (pub : Nat) (t : Secrets q) (c : Lin1) : ZMod q :=
  (∑ i ∈ Finset.range S.n, assign q c.powersX1 i * t.x ^ i) + c.alpha * t.alpha + c.beta1 * t.beta + c.delta1 * t.delta +
    (∑ i ∈ Finset.range (S.m - pub), assign q c.rleoDelta i * (t.delta⁻¹ * S.mix t (pub + i))) +
    (∑ i ∈ Finset.range pub, assign q c.rleoGamma i * (t.gamma⁻¹ * S.mix t i)) +
    (∑ i ∈ Finset.range S.n, assign q c.powersXDD i * (t.x ^ i * (t.delta⁻¹ * (vanish q S.n).eval t.x))) +
    (∑ i ∈ Finset.range S.m, assign q c.LE i * ((S.col S.E i).eval t.x + (S.col S.L i).eval t.x)) +
    ∑ i ∈ Finset.range S.m, assign q c.Ex i * (S.col S.E i).eval t.x

/-- the exponent of a linear combination of the published G2 points -/
noncomputable def expo2 (S : Sys q) (t : Secrets q) (c : Lin2) : ZMod q :=
  (∑ i ∈ Finset.range S.n, assign q c.powersX2 i * t.x ^ i) + c.beta2 * t.beta + c.gamma2 * t.gamma + c.delta2 * t.delta +
    ∑ i ∈ Finset.range S.m, assign q c.Rx i * (S.col S.R i).eval t.x

/-- the published points are these multiples of the generators -/
structure KeyExpo (g1 : G1) (h1 : q • g1 = 0) (g2 : G2) (h2 : q • g2 = 0) (S : Sys q) (pub : Nat) (t : Secrets q)
    (pk : Pk G1 G2 GT) : Prop where
  rleoDelta : pk.rleoDelta = ((List.range' pub (S.m - pub)).map fun i => t.delta⁻¹ * S.mix t i).map (expo q g1 h1)
  alpha : pk.alpha = expo q g1 h1 t.alpha
  rleoGamma : pk.rleoGamma = ((List.range pub).map fun i => t.gamma⁻¹ * S.mix t i).map (expo q g1 h1)
  powersX1 : pk.powersX1 = ((List.range S.n).map fun k => t.x ^ k).map (expo q g1 h1)
  powersXDD : pk.powersXDD = ((List.range S.n).map fun k => t.x ^ k * (t.delta⁻¹ * (vanish q S.n).eval t.x)).map (expo q g1 h1)
  LE : pk.LE = ((List.range S.m).map fun i => (S.col S.E i).eval t.x + (S.col S.L i).eval t.x).map (expo q g1 h1)
  Ex : pk.Ex = ((List.range S.m).map fun i => (S.col S.E i).eval t.x).map (expo q g1 h1)
  beta2 : pk.beta2 = expo q g2 h2 t.beta
  gamma2 : pk.gamma2 = expo q g2 h2 t.gamma
  delta2 : pk.delta2 = expo q g2 h2 t.delta
  Rx : pk.Rx = ((List.range S.m).map fun i => (S.col S.R i).eval t.x).map (expo q g2 h2)
  beta1 : pk.beta1 = expo q g1 h1 t.beta
  delta1 : pk.delta1 = expo q g1 h1 t.delta
  powersX2 : pk.powersX2 = ((List.range S.n).map fun k => t.x ^ k).map (expo q g2 h2)

theorem PkOK.key {H : Laws api q g1 g2} {S : Sys q} {pub : Nat} {t : Secrets q} {pk : Pk G1 G2 GT} (h : PkOK H S pub t pk) :
    KeyExpo g1 H.order1 g2 H.order2 S pub t pk :=
  ⟨h.rleoDelta, h.alpha, h.rleoGamma, h.powersX1, h.powersXDD, h.LE, h.Ex, h.beta2, h.gamma2, h.delta2, h.Rx, h.beta1, h.delta1,
    h.powersX2⟩

theorem point1_expo {h1 : q • g1 = 0} {h2 : q • g2 = 0} {S : Sys q} {pub : Nat} {t : Secrets q} {pk : Pk G1 G2 GT}
    (hpk : KeyExpo g1 h1 g2 h2 S pub t pk) (c : Lin1) : c.point pk = expo q g1 h1 (expo1 S pub t c) := by
  unfold Lin1.point expo1
  rw [hpk.powersX1, hpk.alpha, hpk.beta1, hpk.delta1, hpk.rleoDelta, hpk.rleoGamma, hpk.powersXDD, hpk.LE, hpk.Ex,
    show (List.range' pub (S.m - pub)).map (fun i => t.delta⁻¹ * S.mix t i) =
      (List.range (S.m - pub)).map (fun i => t.delta⁻¹ * S.mix t (pub + i)) by
        rw [List.range'_eq_map_range, List.map_map]; rfl]
  simp only [linComb_expo, expo_smul, ← map_add]

theorem point2_expo {h1 : q • g1 = 0} {h2 : q • g2 = 0} {S : Sys q} {pub : Nat} {t : Secrets q} {pk : Pk G1 G2 GT}
    (hpk : KeyExpo g1 h1 g2 h2 S pub t pk) (c : Lin2) : c.point pk = expo q g2 h2 (expo2 S t c) := by
  unfold Lin2.point expo2
  rw [hpk.powersX2, hpk.beta2, hpk.gamma2, hpk.delta2, hpk.Rx]
  simp only [linComb_expo, expo_smul, ← map_add]

theorem powerF_expo {h1 : q • g1 = 0} {h2 : q • g2 = 0} {S : Sys q} {pub : Nat} {t : Secrets q} {pk : Pk G1 G2 GT}
    (hpk : KeyExpo g1 h1 g2 h2 S pub t pk) (hn : 0 < S.n) (k : Int) : linComb [k] pk.powersX1 = expo q g1 h1 (k : ZMod q) := by
  rw [hpk.powersX1, linComb_expo]
  congr 1
  rw [show S.n = (S.n - 1) + 1 by omega, Finset.sum_range_succ']
  simp [assign]

theorem mix_sum (S : Sys q) (t : Secrets q) (ks : List Int) (off len : Nat) :
    (∑ i ∈ Finset.range len, assign q ks i * S.mix t (off + i)) =
      t.alpha * (linCol S S.R ks off len).eval t.x +
      t.beta * (linCol S S.L ks off len + linCol S S.E ks off len).eval t.x + (linCol S S.O ks off len).eval t.x := by
  rw [eval_add]
  simp only [linCol_eval, Finset.mul_sum, mul_add, ← Finset.sum_add_distrib]
  refine Finset.sum_congr rfl fun i _ => ?_
  unfold Sys.mix
  ring

theorem formOf_val (S : Sys q) (pub : Nat) (t : Secrets q) (hg : t.gamma ≠ 0) (hd : t.delta ≠ 0) (c : Lin1) :
    (formOf S pub c).val t.x t.alpha t.beta t.gamma t.delta = t.gamma * t.delta * expo1 S pub t c := by
  have e1 : (∑ i ∈ Finset.range (S.m - pub), assign q c.rleoDelta i * (t.delta⁻¹ * S.mix t (pub + i))) =
      t.delta⁻¹ * ∑ i ∈ Finset.range (S.m - pub), assign q c.rleoDelta i * S.mix t (pub + i) := by
    rw [Finset.mul_sum]; exact Finset.sum_congr rfl fun i _ => by ring
  have e2 : (∑ i ∈ Finset.range pub, assign q c.rleoGamma i * (t.gamma⁻¹ * S.mix t i)) =
      t.gamma⁻¹ * ∑ i ∈ Finset.range pub, assign q c.rleoGamma i * S.mix t (0 + i) := by
    rw [Finset.mul_sum]; exact Finset.sum_congr rfl fun i _ => by rw [zero_add]; ring
  have e3 : (∑ i ∈ Finset.range S.n, assign q c.powersXDD i * (t.x ^ i * (t.delta⁻¹ * (vanish q S.n).eval t.x))) =
      t.delta⁻¹ * ((linPow q c.powersXDD S.n).eval t.x * (vanish q S.n).eval t.x) := by
    rw [linPow_eval, Finset.sum_mul, Finset.mul_sum]; exact Finset.sum_congr rfl fun i _ => by ring
  have e4 : (∑ i ∈ Finset.range S.m, assign q c.LE i * ((S.col S.E i).eval t.x + (S.col S.L i).eval t.x)) =
      (linCol S S.E c.LE 0 S.m).eval t.x + (linCol S S.L c.LE 0 S.m).eval t.x := by
    rw [linCol_eval, linCol_eval, ← Finset.sum_add_distrib]
    exact Finset.sum_congr rfl fun i _ => by rw [zero_add]; ring
  have e5 : (∑ i ∈ Finset.range S.m, assign q c.Ex i * (S.col S.E i).eval t.x) = (linCol S S.E c.Ex 0 S.m).eval t.x := by
    rw [linCol_eval]; exact Finset.sum_congr rfl fun i _ => by rw [zero_add]
  unfold expo1
  rw [e1, e2, e3, e4, e5, mix_sum, mix_sum, ← linPow_eval]
  simp only [Form.val, formOf, eval_add, eval_mul]
  field_simp
  ring

/-- the secrets as a point -/
def coords (t : Secrets q) : Fin 5 → ZMod q := ![t.x, t.alpha, t.beta, t.gamma, t.delta]

omit [Fact q.Prime] in
theorem coords_inj : Function.Injective (coords (q := q)) := by
  rintro ⟨a, b, c, d, e⟩ ⟨a', b', c', d', e'⟩ h
  have h0 := congrFun h 0
  have h1 := congrFun h 1
  have h2 := congrFun h 2
  have h3 := congrFun h 3
  have h4 := congrFun h 4
  simp [coords] at h0 h1 h2 h3 h4
  simp [h0, h1, h2, h3, h4]

theorem secrets_finite (B : Set (Secrets q)) : B.Finite :=
  Set.Finite.of_finite_image (Set.toFinite (coords '' B)) coords_inj.injOn

theorem ncard_zeros (p : MvPolynomial (Fin 5) (ZMod q)) (hp : p ≠ 0) {d : Nat} (hd : p.totalDegree ≤ d) (B : Set (Secrets q))
    (hB : ∀ t ∈ B, MvPolynomial.eval (coords t) p = 0) : B.ncard ≤ d * q ^ 4 := by
  classical
  have hq : 0 < q := (Fact.out : q.Prime).pos
  have hsz := MvPolynomial.schwartz_zippel_totalDegree hp (Finset.univ : Finset (ZMod q))
  have hle : B.ncard ≤ (Finset.filter (fun f => MvPolynomial.eval f p = 0)
      (Fintype.piFinset fun _ : Fin 5 => (Finset.univ : Finset (ZMod q)))).card := by
    rw [← Set.ncard_coe_finset]
    refine Set.ncard_le_ncard_of_injOn coords ?_ coords_inj.injOn (Finset.finite_toSet _)
    intro t ht
    simp [hB t ht]
  refine hle.trans ?_
  rw [Finset.card_univ, ZMod.card, div_le_div_iff₀ (by positivity) (by positivity)] at hsz
  have h2 : ((Finset.filter (fun f => MvPolynomial.eval f p = 0)
      (Fintype.piFinset fun _ : Fin 5 => (Finset.univ : Finset (ZMod q)))).card) * q ≤ p.totalDegree * q ^ 5 := by
    exact_mod_cast hsz
  have h3 : p.totalDegree * q ^ 5 ≤ (d * q ^ 4) * q := by
    calc p.totalDegree * q ^ 5 ≤ d * q ^ 5 := Nat.mul_le_mul_right _ hd
      _ = (d * q ^ 4) * q := by ring
  exact Nat.le_of_mul_le_mul_right (h2.trans h3) hq

theorem rowVal_split (S : Sys q) (hn : S.n ≤ q) (M : Nat → Nat → ZMod q) {pub : Nat} (hpub : pub ≤ S.m) (sig ks : List Int)
    (hl : sig.length = pub) {j : Nat} (hj : j < S.n) :
    (linCol S M ks pub (S.m - pub)).eval (j : ZMod q) + (linCol S M sig 0 pub).eval (j : ZMod q) =
      rowVal S.m M (fun i => if i < sig.length then assign q sig i else assign q ks (i - sig.length)) j := by
  unfold rowVal
  rw [linCol_eval, linCol_eval]
  conv_rhs => rw [show S.m = pub + (S.m - pub) by omega, Finset.sum_range_add, add_comm]
  unfold Sys.col
  congr 1
  · refine Finset.sum_congr rfl fun i _ => ?_
    rw [through_eval hn _ hj]; beta_reduce; rw [if_neg (by omega), hl]; simp
  · refine Finset.sum_congr rfl fun i hi => ?_
    rw [through_eval hn _ hj]; beta_reduce; rw [if_pos (by rw [hl]; simpa using hi), zero_add]

/-- The equation that holds for more secrets than the bound makes the extracted assignment satisfy the shifted
constraints. -/
theorem lin_sound (S : Sys q) (hn : S.n ≤ q) {pub : Nat} (hpub : pub ≤ S.m) (P : LinProver) (sig : List Int)
    (hl : sig.length = pub) (y : ZMod q) (B : Set (Secrets q))
    (hB : ∀ t ∈ B, t.gamma ≠ 0 ∧ t.delta ≠ 0 ∧ expo1 S pub t P.A * (expo2 S t P.B + t.beta) + y =
      t.alpha * t.beta + (∑ i ∈ Finset.range pub, assign q sig i * S.mix t i) + expo1 S pub t P.C * t.delta +
        (P.k : ZMod q) * expo2 S t P.B) :
    (∀ j < S.n, (rowVal S.m S.L (P.witness q sig) j + rowVal S.m S.E (P.witness q sig) j - (P.k : ZMod q)) *
      rowVal S.m S.R (P.witness q sig) j + y = rowVal S.m S.O (P.witness q sig) j) ∨ B.ncard ≤ (3 * S.n + 4) * q ^ 4 := by
  by_cases hq : q ≤ 3
  · right
    have : B.ncard ≤ q ^ 5 := by
      have h1 : B.ncard ≤ (Set.univ : Set (Fin 5 → ZMod q)).ncard :=
        Set.ncard_le_ncard_of_injOn coords (fun _ _ => Set.mem_univ _) coords_inj.injOn (Set.toFinite _)
      simpa [Set.ncard_univ] using h1
    refine this.trans ?_
    rw [pow_succ, mul_comm]
    exact Nat.mul_le_mul_right _ (by omega)
  let FA : Form q := { formOf S pub P.A with z := (formOf S pub P.A).z - C (P.k : ZMod q) }
  let FI : Form q := { formOf S pub {} with
    rd := linCol S S.R sig 0 pub, ld := linCol S S.L sig 0 pub + linCol S S.E sig 0 pub, od := linCol S S.O sig 0 pub }
  let b0 : (ZMod q)[X] := linPow q P.B.powersX2 S.n + linCol S S.R P.B.Rx 0 S.m
  let Φ := eqMv FA (formOf S pub P.C) FI b0 (P.B.beta2 + 1) P.B.gamma2 P.B.delta2 P.k y
  have hdA := formOf_deg S hn pub P.A
  have hdI := formOf_deg S hn pub {}
  have hcol := linCol_degree S hn
  by_cases hΦ : Φ = 0
  · left
    intro j hj
    have hK : 3 < Fintype.card (ZMod q) := by rw [ZMod.card]; omega
    have hv : (vanish q S.n).eval (j : ZMod q) = 0 := (vanish_dvd_iff hn _).1 dvd_rfl j hj
    have key := lin_core hK (a0 := FA.z.eval (j : ZMod q)) (aA := FA.a) (aB := FA.b) (aD := FA.d)
      (r1 := FA.rd.eval (j : ZMod q)) (l1 := FA.ld.eval (j : ZMod q)) (o1 := FA.od.eval (j : ZMod q))
      (r2 := FA.rg.eval (j : ZMod q)) (l2 := FA.lg.eval (j : ZMod q)) (o2 := FA.og.eval (j : ZMod q))
      (b0 := b0.eval (j : ZMod q)) (bB := P.B.beta2 + 1) (bG := P.B.gamma2) (bD := P.B.delta2)
      (c0 := (formOf S pub P.C).z.eval (j : ZMod q)) (cA := (formOf S pub P.C).a) (cB := (formOf S pub P.C).b)
      (cD := (formOf S pub P.C).d)
      (r3 := (formOf S pub P.C).rd.eval (j : ZMod q)) (l3 := (formOf S pub P.C).ld.eval (j : ZMod q))
      (o3 := (formOf S pub P.C).od.eval (j : ZMod q))
      (r4 := (formOf S pub P.C).rg.eval (j : ZMod q)) (l4 := (formOf S pub P.C).lg.eval (j : ZMod q))
      (o4 := (formOf S pub P.C).og.eval (j : ZMod q))
      (r5 := FI.rd.eval (j : ZMod q)) (l5 := FI.ld.eval (j : ZMod q)) (o5 := FI.od.eval (j : ZMod q)) (k := P.k) (y := y)
      (by
        intro α β γ δ
        have h : MvPolynomial.eval ![(j : ZMod q), α, β, γ, δ] Φ = 0 := by rw [hΦ]; simp
        rw [eqMv_eval] at h
        exact h)
    have eR := rowVal_split S hn S.R hpub sig P.C.rleoDelta hl hj
    have eL := rowVal_split S hn S.L hpub sig P.C.rleoDelta hl hj
    have eE := rowVal_split S hn S.E hpub sig P.C.rleoDelta hl hj
    have eO := rowVal_split S hn S.O hpub sig P.C.rleoDelta hl hj
    have hw : P.witness q sig = fun i => if i < sig.length then assign q sig i else assign q P.C.rleoDelta (i - sig.length) := rfl
    rw [hw, ← eR, ← eL, ← eE, ← eO]
    simp only [FI, formOf, eval_add, eval_mul, hv, mul_zero, add_zero] at key
    linear_combination key
  · right
    refine ncard_zeros Φ hΦ (eqMv_degree _ _ _ _ _ (n := S.n) ?_ (formOf_deg S hn pub P.C) ?_ ?_) B ?_
    · refine ⟨?_, hdA.rd, hdA.ld, hdA.od, hdA.rg, hdA.lg, hdA.og⟩
      exact (natDegree_sub_le _ _).trans (max_le hdA.z (by simp))
    · exact ⟨hdI.z, hcol _ _ _ _, natDegree_add_le' (hcol _ _ _ _) (hcol _ _ _ _), (hcol _ _ _ _).trans (by omega), hdI.rg, hdI.lg, hdI.og⟩
    · exact natDegree_add_le' (linPow_degree _ _) (hcol _ _ _ _)
    · intro t ht
      obtain ⟨hg, hd, he⟩ := hB t ht
      have hA := formOf_val S pub t hg hd P.A
      have hC := formOf_val S pub t hg hd P.C
      have hI := mix_sum S t sig 0 pub
      have hI' : (∑ i ∈ Finset.range pub, assign q sig i * S.mix t (0 + i)) = ∑ i ∈ Finset.range pub, assign q sig i * S.mix t i :=
        Finset.sum_congr rfl fun i _ => by rw [zero_add]
      rw [hI'] at hI
      have hb : b0.eval t.x = expo2 S t P.B - P.B.beta2 * t.beta - P.B.gamma2 * t.gamma - P.B.delta2 * t.delta := by
        simp only [b0, eval_add, linPow_eval, linCol_eval, zero_add, expo2]; ring
      have hFA : FA.val t.x t.alpha t.beta t.gamma t.delta =
          (formOf S pub P.A).val t.x t.alpha t.beta t.gamma t.delta - t.gamma * t.delta * P.k := by
        simp only [FA, Form.val, eval_sub, eval_C]; ring
      have hev := eqMv_eval FA (formOf S pub P.C) FI b0 (P.B.beta2 + 1) P.B.gamma2 P.B.delta2 P.k y (coords t)
      change _ = FA.val t.x t.alpha t.beta t.gamma t.delta * (b0.eval t.x + (P.B.beta2 + 1) * t.beta + P.B.gamma2 * t.gamma +
        P.B.delta2 * t.delta) + t.gamma * t.delta * (P.k * t.beta + y - t.alpha * t.beta - (t.alpha * FI.rd.eval t.x +
        t.beta * FI.ld.eval t.x + FI.od.eval t.x)) - t.delta * (formOf S pub P.C).val t.x t.alpha t.beta t.gamma t.delta at hev
      rw [show MvPolynomial.eval (coords t) Φ = _ from hev, hFA, hA, hC, hb]
      simp only [FI]
      rw [hI] at he
      linear_combination t.gamma * t.delta * he

end Mv

end APS.Snark
