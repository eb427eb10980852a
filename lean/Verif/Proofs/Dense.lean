import Verif.Model.DensePoly
import Verif.Spec.Basic
import Verif.Props.Field
import Mathlib.Algebra.Polynomial.Coeff
import Mathlib.Algebra.Polynomial.Degree.Lemmas
import Mathlib.Algebra.Polynomial.Eval.Degree
import Mathlib.Data.List.GetD
import Mathlib.Tactic.Ring
import Mathlib.Tactic.FieldSimp
import Mathlib.Tactic.LinearCombination

/-! Helper lemmas about the dense polynomial model. -/
namespace APS
open Polynomial APS.Spec

variable {q : Nat}

@[simp] theorem cast_emod (a : Int) : ((a % (q : Int) : Int) : ZMod q) = (a : ZMod q) := by
  rw [ZMod.intCast_mod]

@[simp] theorem cast_add' (a b : Int) : ((Fq.add q a b : Int) : ZMod q) = a + b := by simp [Fq.add]
@[simp] theorem cast_sub' (a b : Int) : ((Fq.sub q a b : Int) : ZMod q) = a - b := by simp [Fq.sub]
@[simp] theorem cast_mul' (a b : Int) : ((Fq.mul q a b : Int) : ZMod q) = a * b := by simp [Fq.mul]
@[simp] theorem cast_neg' (a : Int) : ((Fq.neg q a : Int) : ZMod q) = -a := by simp [Fq.neg]

theorem cast_eq_iff_modEq (a b : Int) : (a : ZMod q) = (b : ZMod q) ↔ a ≡ b [ZMOD q] :=
  ZMod.intCast_eq_intCast_iff a b q

theorem inverse_cast [Fact q.Prime] {a i : Int} (h : Fq.inverse q a = some i) :
    (i : ZMod q) = (a : ZMod q)⁻¹ := by
  unfold Fq.inverse at h
  split at h
  · rename_i h0; obtain rfl := Option.some.inj h; subst h0; simp
  · have := (modInverse_some q (Fact.out : q.Prime).pos h).2.2
    rw [← cast_eq_iff_modEq] at this
    push_cast at this
    exact eq_inv_of_mul_eq_one_left this

theorem inverse_range {a i : Int} (hq : 0 < q) (h : Fq.inverse q a = some i) : 0 ≤ i ∧ i < q := by
  unfold Fq.inverse at h
  split at h
  · obtain rfl := Option.some.inj h; omega
  · have := modInverse_some q hq h; exact ⟨this.1, this.2.1⟩

theorem div_cast [Fact q.Prime] {a b r : Int} (h : Fq.div q a b = some r) :
    (r : ZMod q) = (a : ZMod q) / (b : ZMod q) := by
  unfold Fq.div at h
  split at h
  · exact absurd h (by simp)
  · rename_i i hi
    obtain rfl := Option.some.inj h
    rw [cast_emod, cast_mul', inverse_cast hi, div_eq_mul_inv]

theorem div_range {a b r : Int} (hq : 0 < q) (h : Fq.div q a b = some r) : 0 ≤ r ∧ r < q := by
  unfold Fq.div at h
  split at h
  · exact absurd h (by simp)
  · obtain rfl := Option.some.inj h
    exact ⟨Int.emod_nonneg _ (by omega), Int.emod_lt_of_pos _ (by omega)⟩

theorem cast_ne_zero_of_not_dvd {a : Int} (h : ¬ (q : Int) ∣ a) : (a : ZMod q) ≠ 0 := by
  rwa [Ne, ZMod.intCast_zmod_eq_zero_iff_dvd]

theorem inverse_of_cast_ne [Fact q.Prime] {a : Int} (h : (a : ZMod q) ≠ 0) : ∃ i, Fq.inverse q a = some i := by
  have hd : ¬ (q : Int) ∣ a := by rwa [Ne, ZMod.intCast_zmod_eq_zero_iff_dvd] at h
  obtain ⟨r, hr, -⟩ := C02_inverse q (Fact.out) a hd
  exact ⟨r, hr⟩

theorem div_of_cast_ne [Fact q.Prime] {a b : Int} (h : (b : ZMod q) ≠ 0) : ∃ r, Fq.div q a b = some r := by
  obtain ⟨i, hi⟩ := inverse_of_cast_ne h
  exact ⟨_, by simp [Fq.div, hi]; rfl⟩

/-! ### the denotation -/

@[simp] theorem poly_nil : poly q [] = 0 := rfl
@[simp] theorem poly_cons (a : Int) (l : List Int) : poly q (a :: l) = C (a : ZMod q) + X * poly q l := rfl

theorem poly_coeff (l : List Int) (i : Nat) : (poly q l).coeff i = ((l.getD i 0 : Int) : ZMod q) := by
  induction l generalizing i with
  | nil => simp
  | cons a l ih =>
    cases i with
    | zero => simp
    | succ i => rw [poly_cons, coeff_add, coeff_C_succ, coeff_X_mul, ih]; simp

theorem poly_append (a b : List Int) : poly q (a ++ b) = poly q a + X ^ a.length * poly q b := by
  induction a with
  | nil => simp
  | cons x a ih => simp only [List.cons_append, poly_cons, ih, List.length_cons, pow_succ]; ring

@[simp] theorem poly_zeros (n : Nat) : poly q (Dense.zeros n) = 0 := by
  unfold Dense.zeros
  induction n with
  | zero => simp
  | succ n ih => simp [List.replicate_succ, ih]

theorem poly_set (l : List Int) (k : Nat) (v : Int) (h : k < l.length) :
    poly q (l.set k v) = poly q l + C ((v : ZMod q) - ((l.getD k 0 : Int) : ZMod q)) * X ^ k := by
  induction l generalizing k with
  | nil => simp at h
  | cons a l ih =>
    cases k with
    | zero => simp; ring
    | succ k =>
      simp only [List.set_cons_succ, poly_cons, List.getD_cons_succ]
      rw [ih k (by simpa using h), pow_succ]; ring

theorem poly_natDegree_lt (l : List Int) (h : l ≠ []) : (poly q l).natDegree < l.length := by
  rw [Nat.lt_iff_le_pred (List.length_pos_iff.2 h)]
  rw [natDegree_le_iff_coeff_eq_zero]
  intro N hN
  rw [poly_coeff, List.getD_eq_default _ _ (by omega)]; simp

theorem poly_degree_lt (l : List Int) : (poly q l).degree < l.length := by
  rw [degree_lt_iff_coeff_zero]
  intro N hN
  rw [poly_coeff, List.getD_eq_default _ _ (by omega)]; simp

/-- denotation agrees with plain evaluation -/
theorem poly_eval (l : List Int) (x : Int) : (poly q l).eval (x : ZMod q) = ((evalInt x l : Int) : ZMod q) := by
  induction l with
  | nil => simp [evalInt]
  | cons a l ih => rw [evalInt_cons]; simp [ih]

theorem evalPoly_poly {l : List Int} {x r : Int} (hq : 0 < q) (h : Fq.evalPoly q l x = some r) :
    (r : ZMod q) = (poly q l).eval (x : ZMod q) := by
  have hl : l ≠ [] := by rintro rfl; simp [Fq.evalPoly] at h
  obtain ⟨r', h', hm, -⟩ := (C05_evalPoly q hq l x).2 hl
  obtain rfl : r' = r := by rw [h'] at h; exact Option.some.inj h
  rw [poly_eval, cast_eq_iff_modEq]; exact hm

/-! ### multiplication -/
namespace Dense

theorem mulInner_length (ai : Int) (bs : List Int) : ∀ (k : Nat) (r : List Int),
    (mulInner q ai k r bs).length = r.length := by
  induction bs with
  | nil => intros; rfl
  | cons b bs ih => intro k r; simp only [mulInner]; rw [ih]; split <;> simp

theorem mulInner_poly (ai : Int) (bs : List Int) : ∀ (k : Nat) (r : List Int), k + bs.length ≤ r.length →
    poly q (mulInner q ai k r bs) = poly q r + C (ai : ZMod q) * X ^ k * poly q bs := by
  induction bs with
  | nil => intros; simp [mulInner]
  | cons b bs ih =>
    intro k r h
    simp only [List.length_cons] at h
    simp only [mulInner]
    rw [ih (k+1) _ (by split <;> simp <;> omega)]
    have : poly q (if ai = 0 ∨ b = 0 then r.set k (r.getD k 0)
        else r.set k (Fq.add q (r.getD k 0) (Fq.mul q ai b)))
        = poly q r + C ((ai : ZMod q) * b) * X ^ k := by
      split
      · rename_i h0
        rw [poly_set _ _ _ (by omega)]
        rcases h0 with h0 | h0 <;> simp [h0]
      · rw [poly_set _ _ _ (by omega)]; simp
    rw [this, poly_cons, C_mul, pow_succ]; ring

theorem mulOuter_length (b : List Int) (as : List Int) : ∀ (i : Nat) (r : List Int),
    (mulOuter q i r b as).length = r.length := by
  induction as with
  | nil => intros; rfl
  | cons a as ih => intro i r; simp only [mulOuter]; rw [ih, mulInner_length]

theorem mulOuter_poly (b : List Int) (as : List Int) : ∀ (i : Nat) (r : List Int),
    (as ≠ [] → i + as.length + b.length ≤ r.length + 1) →
    poly q (mulOuter q i r b as) = poly q r + X ^ i * poly q as * poly q b := by
  induction as with
  | nil => intros; simp [mulOuter]
  | cons a as ih =>
    intro i r h
    have h := h (by simp)
    simp only [List.length_cons] at h
    simp only [mulOuter]
    rw [ih (i+1) _ (fun _ => by rw [mulInner_length]; omega), mulInner_poly _ _ _ _ (by omega), poly_cons, pow_succ]
    ring

theorem mul_poly {a b m : List Int} (h : mul q a b = some m) : poly q m = poly q a * poly q b := by
  unfold mul at h
  split at h
  · exact absurd h (by simp)
  · obtain rfl := Option.some.inj h
    rw [mulOuter_poly _ _ _ _ (fun ha => by simp [zeros]; omega)]; simp

theorem mul_length {a b m : List Int} (h : mul q a b = some m) : m.length = a.length + b.length - 1 := by
  unfold mul at h
  split at h
  · exact absurd h (by simp)
  · obtain rfl := Option.some.inj h
    rw [mulOuter_length]; simp [zeros]

theorem mul_isSome {a b : List Int} (h : a ≠ [] ∨ b ≠ []) : ∃ m, mul q a b = some m := by
  unfold mul
  rw [if_neg]
  · exact ⟨_, rfl⟩
  · rcases h with h | h <;> have := List.length_pos_iff.2 h <;> omega

theorem canon_zeros (hq : 0 < q) (n : Nat) : Canon q (zeros n) := by
  intro x hx; have := List.eq_of_mem_replicate hx; subst this; omega

theorem fqadd_range (hq : 0 < q) (a b : Int) : 0 ≤ Fq.add q a b ∧ Fq.add q a b < q :=
  ⟨Int.emod_nonneg _ (by omega), Int.emod_lt_of_pos _ (by omega)⟩
theorem fqsub_range (hq : 0 < q) (a b : Int) : 0 ≤ Fq.sub q a b ∧ Fq.sub q a b < q :=
  ⟨Int.emod_nonneg _ (by omega), Int.emod_lt_of_pos _ (by omega)⟩
theorem fqmul_range (hq : 0 < q) (a b : Int) : 0 ≤ Fq.mul q a b ∧ Fq.mul q a b < q :=
  ⟨Int.emod_nonneg _ (by omega), Int.emod_lt_of_pos _ (by omega)⟩

theorem canon_getD (hq : 0 < q) {r : List Int} (h : Canon q r) (k : Nat) : 0 ≤ r.getD k 0 ∧ r.getD k 0 < (q : Int) := by
  by_cases hk : k < r.length
  · rw [List.getD_eq_getElem _ _ hk]; exact h _ (List.getElem_mem hk)
  · rw [List.getD_eq_default _ _ (by omega)]; omega

theorem canon_set {r : List Int} (h : Canon q r) (k : Nat) (v : Int) (hv : 0 ≤ v ∧ v < q) : Canon q (r.set k v) := by
  intro x hx
  rcases List.mem_or_eq_of_mem_set hx with hx | rfl
  · exact h x hx
  · exact hv

theorem mulInner_canon (hq : 0 < q) (ai : Int) (bs : List Int) : ∀ (k : Nat) (r : List Int), Canon q r →
    Canon q (mulInner q ai k r bs) := by
  induction bs with
  | nil => intro _ _ h; exact h
  | cons b bs ih =>
    intro k r h
    simp only [mulInner]
    apply ih
    split
    · exact canon_set h _ _ (canon_getD hq h k)
    · exact canon_set h _ _ (fqadd_range hq _ _)

theorem mulOuter_canon (hq : 0 < q) (b as : List Int) : ∀ (i : Nat) (r : List Int), Canon q r →
    Canon q (mulOuter q i r b as) := by
  induction as with
  | nil => intro _ _ h; exact h
  | cons a as ih => intro i r h; simp only [mulOuter]; exact ih _ _ (mulInner_canon hq _ _ _ _ h)

theorem mul_canon (hq : 0 < q) {a b m : List Int} (h : mul q a b = some m) : Canon q m := by
  unfold mul at h
  split at h
  · exact absurd h (by simp)
  · obtain rfl := Option.some.inj h
    exact mulOuter_canon hq _ _ _ _ (canon_zeros hq _)

/-! ### addition-like loops -/

theorem zipInto_length (f : Int → Int → Int) : ∀ (r a : List Int), (zipInto f r a).length = r.length
  | [], [] => rfl
  | [], _ :: _ => rfl
  | _ :: _, [] => rfl
  | _ :: r, _ :: a => by simp [zipInto, zipInto_length f r a]

theorem zipInto_getD (f : Int → Int → Int) : ∀ (r a : List Int) (i : Nat), i < r.length →
    (zipInto f r a).getD i 0 = if i < a.length then f (r.getD i 0) (a.getD i 0) else r.getD i 0
  | [], _, i => by simp
  | _ :: _, [], i => by simp [zipInto]
  | x :: r, y :: a, 0 => by simp [zipInto]
  | x :: r, y :: a, i+1 => fun h => by
    have := zipInto_getD f r a i (by simpa using h)
    simpa [zipInto] using this

theorem zipInto_canon (hq : 0 < q) (f : Int → Int → Int) (hf : ∀ x y, 0 ≤ f x y ∧ f x y < q) :
    ∀ (r a : List Int), Canon q r → Canon q (zipInto f r a)
  | [], [], h => h
  | [], _ :: _, h => h
  | _ :: _, [], h => h
  | x :: r, y :: a, h => by
    intro z hz
    simp only [zipInto, List.mem_cons] at hz
    rcases hz with rfl | hz
    · exact hf _ _
    · exact zipInto_canon hq f hf r a (fun w hw => h w (List.mem_cons_of_mem _ hw)) z hz

theorem zipInto_poly (f : Int → Int → Int) (s : ZMod q) (hf : ∀ x y : Int, ((f x y : Int) : ZMod q) = x + s * y) :
    ∀ (r a : List Int), a.length ≤ r.length → poly q (zipInto f r a) = poly q r + C s * poly q a
  | [], [], _ => by simp [zipInto]
  | [], _ :: _, h => by simp at h
  | _ :: _, [], _ => by simp [zipInto]
  | x :: r, y :: a, h => by
    simp only [zipInto, poly_cons, hf]
    rw [zipInto_poly f s hf r a (by simpa using h), C_add, C_mul]; ring

theorem add_poly (a b : List Int) : poly q (add q a b) = poly q a + poly q b := by
  unfold add
  rw [zipInto_poly (Fq.add q) 1 (by simp) _ _ (by rw [zipInto_length]; simp [zeros]),
    zipInto_poly (Fq.add q) 1 (by simp) _ _ (by simp [zeros])]
  simp

theorem sub_poly (a b : List Int) : poly q (sub q a b) = poly q a - poly q b := by
  unfold sub
  rw [zipInto_poly (Fq.sub q) (-1) (by simp [sub_eq_add_neg]) _ _ (by rw [zipInto_length]; simp [zeros]),
    zipInto_poly (Fq.add q) 1 (by simp) _ _ (by simp [zeros])]
  simp [sub_eq_add_neg]

theorem add_length (a b : List Int) : (add q a b).length = max a.length b.length := by
  simp [add, zipInto_length, zeros]
theorem sub_length (a b : List Int) : (sub q a b).length = max a.length b.length := by
  simp [sub, zipInto_length, zeros]
theorem mulSimple_length (a b : List Int) : (mulSimple q a b).length = max a.length b.length := by
  simp [mulSimple, zipInto_length, zeros]

theorem add_canon (hq : 0 < q) (a b : List Int) : Canon q (add q a b) :=
  zipInto_canon hq _ (fqadd_range hq) _ _ (zipInto_canon hq _ (fqadd_range hq) _ _ (canon_zeros hq _))
theorem sub_canon (hq : 0 < q) (a b : List Int) : Canon q (sub q a b) :=
  zipInto_canon hq _ (fqsub_range hq) _ _ (zipInto_canon hq _ (fqadd_range hq) _ _ (canon_zeros hq _))

theorem mulScalar_poly (p : List Int) (w : Int) : poly q (mulScalar q p w) = C (w : ZMod q) * poly q p := by
  induction p with
  | nil => simp [mulScalar]
  | cons a p ih =>
    simp only [mulScalar, List.map_cons, poly_cons, cast_mul', C_mul] at ih ⊢
    rw [ih]; ring

theorem mulScalar_length (p : List Int) (w : Int) : (mulScalar q p w).length = p.length := by simp [mulScalar]
theorem mulScalar_canon (hq : 0 < q) (p : List Int) (w : Int) : Canon q (mulScalar q p w) := by
  intro x hx
  simp only [mulScalar, List.mem_map] at hx
  obtain ⟨y, -, rfl⟩ := hx
  exact fqmul_range hq _ _

theorem addPolynomials_poly (ps : List (List Int)) : poly q (addPolynomials q ps) = (ps.map (poly q)).sum := by
  unfold addPolynomials
  have : ∀ (ps : List (List Int)) (acc : List Int),
      poly q (ps.foldl (add q) acc) = poly q acc + (ps.map (poly q)).sum := by
    intro ps
    induction ps with
    | nil => simp
    | cons p ps ih => intro acc; simp [ih, add_poly, add_assoc]
  simpa using this ps []

/-! ### division -/

theorem take_pred_poly (l : List Int) (n : Nat) (hl : l.length = n + 1) (h0 : ((l.getD n 0 : Int) : ZMod q) = 0) :
    poly q (l.take n) = poly q l := by
  ext i
  rw [poly_coeff, poly_coeff]
  by_cases hi : i < n
  · rw [List.getD_eq_getElem?_getD, List.getElem?_take_of_lt hi, ← List.getD_eq_getElem?_getD]
  · rw [List.getD_eq_default _ _ (by simp; omega)]
    by_cases hi' : i = n
    · subst hi'; rw [h0]; simp
    · rw [List.getD_eq_default _ _ (by omega)]

theorem poly_single (pos : Nat) (l : Int) : poly q (zeros pos ++ [l]) = C (l : ZMod q) * X ^ pos := by
  rw [poly_append, poly_zeros, poly_cons, poly_nil, zeros, List.length_replicate]; ring

/-- one round of long division cancels the leading coefficient when the divisor's leading coefficient is a unit -/
theorem divLoop_spec [Fact q.Prime] (b : List Int) (hb : b ≠ [])
    (hlead : ((b.getD (b.length - 1) 0 : Int) : ZMod q) ≠ 0) :
    ∀ (n : Nat) (r rem : List Int), rem.length = n → (rem.length + 1 ≤ r.length + b.length) →
    (∀ i, i + b.length ≤ rem.length → r.getD i 0 = 0) →
    ∃ qt rm, divLoop q b r rem = some (qt, rm) ∧ poly q r * poly q b + poly q rem = poly q qt * poly q b + poly q rm ∧
      rm.length = min rem.length (b.length - 1) ∧ qt.length = r.length := by
  have hbl := List.length_pos_iff.2 hb
  intro n
  induction n with
  | zero =>
    intro r rem hn _ _
    rw [divLoop, dif_neg (by omega), if_neg (by omega)]
    exact ⟨r, rem, rfl, rfl, by omega, rfl⟩
  | succ n ih =>
    intro r rem hn hr hz
    rw [divLoop]
    split
    · rename_i hlen
      obtain ⟨l, hl⟩ := div_of_cast_ne (q := q) (a := rem.getD (rem.length - 1) 0) hlead
      simp only [hl]
      obtain ⟨m, hm⟩ := mul_isSome (q := q) (a := b) (b := zeros (rem.length - b.length) ++ [l]) (Or.inl hb)
      simp only [hm]
      have hml : m.length = rem.length := by rw [mul_length hm]; simp [zeros]; omega
      have haux : (sub q rem m).length = n + 1 := by rw [sub_length]; omega
      have htk : ((sub q rem m).take (rem.length - 1)).length = n := by simp [haux]; omega
      have hmp : poly q m = poly q b * (C (l : ZMod q) * X ^ (rem.length - b.length)) := by
        rw [mul_poly hm, poly_single]
      have hcoef : (((sub q rem m).getD n 0 : Int) : ZMod q) = 0 := by
        rw [← poly_coeff, sub_poly, coeff_sub, hmp, poly_coeff]
        have e : n = (b.length - 1) + (rem.length - b.length) := by omega
        conv_lhs => arg 2; rw [e]
        rw [← mul_assoc, coeff_mul_X_pow, coeff_mul_C, poly_coeff, div_cast hl]
        rw [show rem.length - 1 = n by omega]
        field_simp; ring
      obtain ⟨qt, rm, h1, h2, h3, h4⟩ := ih (r.set (rem.length - b.length) l)
        ((sub q rem m).take (rem.length - 1)) htk (by simp only [htk, List.length_set]; omega) (by
          intro i hi
          rw [htk] at hi
          rw [List.getD_eq_getElem?_getD, List.getElem?_set_ne (by omega), ← List.getD_eq_getElem?_getD]
          exact hz i (by omega))
      refine ⟨qt, rm, h1, ?_, ?_, ?_⟩
      · rw [← h2, poly_set _ _ _ (by omega), hz (rem.length - b.length) (by omega)]
        rw [show rem.length - 1 = n by omega, take_pred_poly _ n haux hcoef, sub_poly, hmp]
        simp only [Int.cast_zero, sub_zero]
        ring
      · rw [h3, htk]; omega
      · simpa using h4
    · rename_i hlen
      rw [if_neg (by omega)]
      exact ⟨r, rem, rfl, rfl, by omega, rfl⟩

/-! ### domain polynomial -/

theorem domainLoop_spec (is : List Nat) : ∀ (r : List Int), ∃ d, domainLoop q r is = some d ∧
    poly q d = poly q r * (is.map fun i : Nat => (X - C (i : ZMod q))).prod ∧
    (r ≠ [] → d.length = r.length + is.length) ∧ (0 < q → Canon q r → Canon q d) := by
  induction is with
  | nil => intro r; exact ⟨r, rfl, by simp, by simp, fun _ h => h⟩
  | cons i is ih =>
    intro r
    obtain ⟨m, hm⟩ := mul_isSome (q := q) (a := r) (b := [Fq.neg q (i : Int), 1]) (Or.inr (by simp))
    obtain ⟨d, h1, h2, h3, h4⟩ := ih m
    refine ⟨d, by simp [domainLoop, hm, h1], ?_, ?_, fun hq hc => h4 hq (mul_canon hq hm)⟩
    · rw [h2, mul_poly hm]
      simp only [poly_cons, poly_nil, cast_neg', List.map_cons, List.prod_cons, Int.cast_natCast, Int.cast_one,
        mul_zero, add_zero, C_neg, C_1, mul_one]
      ring
    · intro hr
      have hl := mul_length hm
      have hr' := List.length_pos_iff.2 hr
      simp only [List.length_cons, List.length_nil] at hl
      rw [h3 (by rintro rfl; simp at hl; try omega), hl, List.length_cons]; omega

theorem prod_map_range (n : Nat) (f : Nat → (ZMod q)[X]) :
    ((List.range n).map f).prod = ∏ i ∈ Finset.range n, f i := by
  induction n with
  | zero => simp
  | succ n ih => rw [List.range_succ, List.map_append, List.prod_append, ih, Finset.prod_range_succ]; simp

theorem domainPolynomial_spec (n : Nat) (hn : 0 < n) : ∃ d, domainPolynomial q n = some d ∧
    poly q d = ∏ i ∈ Finset.range n, (X - C (i : ZMod q)) ∧ d.length = n + 1 ∧ (1 < q → Canon q d) := by
  obtain ⟨d, h1, h2, h3, h4⟩ := domainLoop_spec (q := q) (List.range' 1 (n - 1)) [0, 1]
  refine ⟨d, h1, ?_, ?_, fun hq => h4 (by omega) ?_⟩
  · rw [h2, ← prod_map_range]
    obtain ⟨m, rfl⟩ : ∃ m, n = m + 1 := ⟨n - 1, by omega⟩
    rw [List.range_eq_range', List.range'_succ]
    simp
  · rw [h3 (by simp)]; simp; omega
  · intro x hx
    simp only [List.mem_cons, List.not_mem_nil, or_false] at hx
    rcases hx with rfl | rfl <;> omega

/-! ### Lagrange bases -/

theorem foldl_mul_cast {α : Type*} (g : α → Int) (is : List α) : ∀ (acc : Int),
    ((is.foldl (fun acc i => Fq.mul q acc (g i)) acc : Int) : ZMod q)
      = acc * (is.map fun i => ((g i : Int) : ZMod q)).prod := by
  induction is with
  | nil => simp
  | cons i is ih => intro acc; rw [List.foldl_cons, ih]; simp [mul_assoc]

theorem facBig_cast (pos n : Nat) (h : pos < n) : ((facBig q pos n : Int) : ZMod q)
    = ∏ i ∈ (Finset.range n).erase pos, ((pos : ZMod q) - i) := by
  unfold facBig
  rw [foldl_mul_cast (fun i : Nat => (pos : Int) - (i : Int)), foldl_mul_cast (fun i : Nat => (pos : Int) - (i : Int))]
  have e : List.range n = List.range pos ++ pos :: List.range' (pos + 1) (n - (pos + 1)) := by
    rw [List.range_eq_range', List.range_eq_range']
    have h1 : n = pos + (1 + (n - (pos + 1))) := by omega
    conv_lhs => rw [h1, ← List.range'_append_1, Nat.add_comm 1, List.range'_succ]
    simp
  have e2 : (Finset.range n).erase pos
      = (List.range pos ++ List.range' (pos + 1) (n - (pos + 1))).toFinset := by
    ext i
    simp only [Finset.mem_erase, Finset.mem_range, List.toFinset_append, Finset.mem_union, List.mem_toFinset,
      List.mem_range, List.mem_range'_1]
    omega
  rw [e2, List.prod_toFinset]
  · simp
  · rw [List.nodup_append]
    refine ⟨List.nodup_range, List.nodup_range', ?_⟩
    intro a ha b hb
    simp only [List.mem_range, List.mem_range'_1] at ha hb
    omega

theorem rootsLoop_spec (pos : Nat) (is : List Nat) : ∀ (r : List Int), r ≠ [] →
    ∃ d, rootsLoop q pos r is = some d ∧
    poly q d = poly q r * ((is.filter (· ≠ pos)).map fun i : Nat => (X - C (i : ZMod q))).prod ∧
    d.length = r.length + (is.filter (· ≠ pos)).length ∧ d ≠ [] := by
  induction is with
  | nil => intro r hr; exact ⟨r, rfl, by simp, by simp, hr⟩
  | cons i is ih =>
    intro r hr
    by_cases hi : i = pos
    · obtain ⟨d, h1, h2, h3, h4⟩ := ih r hr
      exact ⟨d, by simp [rootsLoop, hi, h1], by rw [h2]; simp [hi], by rw [h3]; simp [hi], h4⟩
    · obtain ⟨m, hm⟩ := mul_isSome (q := q) (a := r) (b := [-(i : Int), 1]) (Or.inl hr)
      have hl := mul_length hm
      have hr' := List.length_pos_iff.2 hr
      simp only [List.length_cons, List.length_nil] at hl
      obtain ⟨d, h1, h2, h3, h4⟩ := ih m (by rintro rfl; simp at hl; try omega)
      refine ⟨d, by simp [rootsLoop, hi, hm, h1], ?_, ?_, h4⟩
      · rw [h2, mul_poly hm, List.filter_cons_of_pos (by simpa using hi)]
        simp only [poly_cons, poly_nil, List.map_cons, List.prod_cons, Int.cast_neg, Int.cast_natCast, Int.cast_one,
          mul_zero, add_zero, C_neg, C_1, mul_one]
        ring
      · rw [h3, List.filter_cons_of_pos (by simpa using hi), hl, List.length_cons]; omega

theorem filter_range_prod (pos n : Nat) (f : Nat → (ZMod q)[X]) :
    (((List.range n).filter (· ≠ pos)).map f).prod = ∏ i ∈ (Finset.range n).erase pos, f i := by
  have e : (Finset.range n).erase pos = ((List.range n).filter (· ≠ pos)).toFinset := by
    ext i; simp [and_comm]
  rw [e, List.prod_toFinset _ (List.nodup_range.filter _)]

theorem filter_range_length (pos n : Nat) (h : pos < n) :
    ((List.range n).filter (· ≠ pos)).length + 1 = n := by
  have e : (Finset.range n).erase pos = ((List.range n).filter (· ≠ pos)).toFinset := by
    ext i; simp [and_comm]
  have := List.toFinset_card_of_nodup ((List.nodup_range (n := n)).filter (· ≠ pos))
  rw [← e, Finset.card_erase_of_mem (by simpa using h)] at this
  simp at this
  simp; omega

theorem natCast_sub_ne [Fact q.Prime] {i j n : Nat} (hi : i < n) (hj : j < n) (hn : n ≤ q) (hij : i ≠ j) :
    (i : ZMod q) - (j : ZMod q) ≠ 0 := by
  rw [sub_ne_zero]
  intro h
  rw [ZMod.natCast_eq_natCast_iff] at h
  exact hij (Nat.ModEq.eq_of_lt_of_lt h (by omega) (by omega))

theorem facBig_ne [Fact q.Prime] {pos n : Nat} (h : pos < n) (hn : n ≤ q) : ((facBig q pos n : Int) : ZMod q) ≠ 0 := by
  rw [facBig_cast pos n h, Finset.prod_ne_zero_iff]
  intro i hi
  simp only [Finset.mem_erase, Finset.mem_range] at hi
  exact natCast_sub_ne h hi.2 hn (Ne.symm hi.1)

/-- a list denoting "value `h` at `pos` and 0 elsewhere on `0..n-1`" -/
def IsBump (q n pos : Nat) (h : ZMod q) (l : List Int) : Prop :=
  l.length = n ∧ ∀ j, j < n → (poly q l).eval (j : ZMod q) = if j = pos then h else 0

theorem newPolZeroAt_spec [Fact q.Prime] {pos n : Nat} (h : pos < n) (hn : n ≤ q) (height : Int) :
    ∃ l, newPolZeroAt q pos n height = some l ∧ IsBump q n pos (height : ZMod q) l := by
  obtain ⟨hf, hdiv⟩ := div_of_cast_ne (a := height) (facBig_ne h hn)
  obtain ⟨d, h1, h2, h3, -⟩ := rootsLoop_spec (q := q) pos (List.range n) [hf] (by simp)
  refine ⟨d, by simp [newPolZeroAt, hdiv, h1], ?_, ?_⟩
  · rw [h3]; have := filter_range_length pos n h; simp at this ⊢; omega
  · intro j hj
    rw [h2, filter_range_prod]
    simp only [poly_cons, poly_nil, mul_zero, add_zero, eval_mul, eval_C, eval_prod, eval_sub, eval_X]
    split
    · rename_i hjp; subst hjp
      rw [← facBig_cast j n h, div_cast hdiv, div_mul_cancel₀ _ (facBig_ne h hn)]
    · rename_i hjp
      rw [Finset.prod_eq_zero (i := j) (by simp [hjp, hj]) (by simp), mul_zero]

theorem computeBase_spec [Fact q.Prime] {pos n : Nat} (h : pos < n) (hn : n ≤ q) :
    ∃ l, computeBase q pos n = some l ∧ IsBump q n pos 1 l := by
  obtain ⟨hf, hinv⟩ := inverse_of_cast_ne (facBig_ne h hn)
  obtain ⟨d, h1, h2, h3, -⟩ := rootsLoop_spec (q := q) pos (List.range n) [1] (by simp)
  refine ⟨mulScalar q d hf, by simp [computeBase, hinv, h1], ?_, ?_⟩
  · rw [mulScalar_length, h3]; have := filter_range_length pos n h; simp at this ⊢; omega
  · intro j hj
    rw [mulScalar_poly, h2, filter_range_prod]
    simp only [poly_cons, poly_nil, mul_zero, add_zero, eval_mul, eval_C, eval_prod, eval_sub, eval_X,
      Int.cast_one, one_mul]
    split
    · rename_i hjp; subst hjp
      rw [← facBig_cast j n h, inverse_cast hinv, inv_mul_cancel₀ (facBig_ne h hn)]
    · rename_i hjp
      rw [Finset.prod_eq_zero (i := j) (by simp [hjp, hj]) (by simp), mul_zero]

/-- every cached polynomial is what the uncached computation yields -/
def CacheOK (q : Nat) (c : Cache) : Prop := ∀ k v, c.find k = some v → computeBase q k.1 k.2 = some v

theorem base_ok {c : Cache} (hc : CacheOK q c) (pos n : Nat) :
    (base q c pos n).map Prod.fst = computeBase q pos n ∧
    ∀ r c', base q c pos n = some (r, c') → CacheOK q c' := by
  unfold base
  split
  · rename_i v hv
    exact ⟨by simp [hc _ _ hv], by rintro r c' ⟨⟩; exact hc⟩
  · split
    · rename_i h; exact ⟨by simp [h], by simp⟩
    · rename_i r h
      refine ⟨by simp [h], ?_⟩
      rintro r' c' ⟨⟩
      intro k v hk
      unfold Cache.find at hk
      rw [List.lookup_cons] at hk
      split at hk
      · rename_i hkk
        have : k = (pos, n) := by simpa using hkk
        obtain rfl := Option.some.inj hk
        subst this; exact h
      · exact hc _ _ hk

/-- the cache-free interpolation loop, used only to express transparency of the cache -/
def pureLoop (q n : Nat) (i : Nat) (p : List Int) : List Int → Option (List Int)
  | [] => some p
  | v :: vs => if v = 0 then pureLoop q n (i+1) p vs
    else match computeBase q i n with
      | none => none
      | some b => pureLoop q n (i+1) (add q p (mulScalar q b v)) vs

theorem lagrangeLoop_pure (n : Nat) (vs : List Int) : ∀ (i : Nat) (p : List Int) (c : Cache), CacheOK q c →
    (lagrangeLoop q n i p c vs).map Prod.fst = pureLoop q n i p vs ∧
    ∀ r c', lagrangeLoop q n i p c vs = some (r, c') → CacheOK q c' := by
  induction vs with
  | nil => intro i p c hc; exact ⟨rfl, by rintro r c' ⟨⟩; exact hc⟩
  | cons v vs ih =>
    intro i p c hc
    simp only [lagrangeLoop, pureLoop]
    split
    · exact ih _ _ _ hc
    · obtain ⟨h1, h2⟩ := base_ok hc i n
      cases hb : base q c i n with
      | none => rw [hb] at h1; simp at h1; simp [← h1]
      | some rc =>
        obtain ⟨r, c'⟩ := rc
        rw [hb] at h1
        simp only [Option.map_some] at h1
        rw [← h1]
        exact ih _ _ _ (h2 r c' hb)

theorem pureLoop_spec [Fact q.Prime] (n : Nat) (hn : n ≤ q) (vs : List Int) : ∀ (i : Nat) (p : List Int),
    i + vs.length = n → p.length = n →
    ∃ r, pureLoop q n i p vs = some r ∧ r.length = n ∧ ∀ j, j < n → (poly q r).eval (j : ZMod q)
      = (poly q p).eval (j : ZMod q) + if i ≤ j then ((vs.getD (j - i) 0 : Int) : ZMod q) else 0 := by
  induction vs with
  | nil => intro i p _ hp; exact ⟨p, rfl, hp, by simp⟩
  | cons v vs ih =>
    intro i p hi hp
    simp only [List.length_cons] at hi
    have key : ∀ (j : Nat) (t : ZMod q), t = (if j = i then (v : ZMod q) else 0) →
        t + (if i + 1 ≤ j then ((vs.getD (j - (i+1)) 0 : Int) : ZMod q) else 0)
        = if i ≤ j then (((v :: vs).getD (j - i) 0 : Int) : ZMod q) else 0 := by
      intro j t ht
      rw [ht]
      rcases lt_trichotomy j i with h | h | h
      · rw [if_neg (by omega), if_neg (by omega), if_neg (by omega)]; simp
      · subst h; simp
      · rw [if_neg (by omega), if_pos (by omega), if_pos (by omega),
          show j - i = (j - (i+1)) + 1 by omega, List.getD_cons_succ, zero_add]
    simp only [pureLoop]
    split
    · rename_i hv
      obtain ⟨r, h1, h2, h3⟩ := ih (i+1) p (by omega) hp
      exact ⟨r, h1, h2, fun j hj => by rw [h3 j hj, ← key j 0 (by simp [hv]), zero_add]⟩
    · obtain ⟨b, hb, hbl, hbv⟩ := computeBase_spec (q := q) (pos := i) (n := n) (by omega) hn
      simp only [hb]
      obtain ⟨r, h1, h2, h3⟩ := ih (i+1) (add q p (mulScalar q b v)) (by omega)
        (by rw [add_length, mulScalar_length]; omega)
      refine ⟨r, h1, h2, fun j hj => ?_⟩
      rw [h3 j hj, add_poly, mulScalar_poly, eval_add, eval_mul, eval_C, hbv j hj, add_assoc]
      congr 1
      exact key j _ (by split <;> simp)

end Dense
end APS
