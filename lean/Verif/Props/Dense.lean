import Verif.Proofs.Dense
import Mathlib.LinearAlgebra.Lagrange
import Mathlib.Algebra.Polynomial.BigOperators

/-! Properties C07 - C12: dense polynomials. -/
namespace APS
open Polynomial APS.Spec

/-- C07: `Add`, `Sub`, `Mul`, `MulScalar`, `AddPolynomials` on coefficient slices of arbitrary lengths denote the
ring operations of `(ZMod q)[X]`, results are canonical, and `Mul` returns `len a + len b - 1` coefficients
(it crashes only when both slices are empty). -/
theorem C07_dense_ring_ops (q : Nat) (hq : 0 < q) (a b : List Int) (w : Int) (ps : List (List Int)) :
    poly q (Dense.add q a b) = poly q a + poly q b ∧ Canon q (Dense.add q a b) ∧
    (Dense.add q a b).length = max a.length b.length ∧
    poly q (Dense.sub q a b) = poly q a - poly q b ∧ Canon q (Dense.sub q a b) ∧
    (Dense.sub q a b).length = max a.length b.length ∧
    poly q (Dense.mulScalar q a w) = C (w : ZMod q) * poly q a ∧ (Dense.mulScalar q a w).length = a.length ∧
    poly q (Dense.addPolynomials q ps) = (ps.map (poly q)).sum ∧
    (Dense.mul q [] [] = none) ∧
    (a ≠ [] ∨ b ≠ [] → ∃ m, Dense.mul q a b = some m ∧ poly q m = poly q a * poly q b ∧ Canon q m ∧
      m.length = a.length + b.length - 1) :=
  ⟨Dense.add_poly a b, Dense.add_canon hq a b, Dense.add_length a b, Dense.sub_poly a b, Dense.sub_canon hq a b,
    Dense.sub_length a b, Dense.mulScalar_poly a w, Dense.mulScalar_length a w, Dense.addPolynomials_poly ps, rfl,
    fun h => by
      obtain ⟨m, hm⟩ := Dense.mul_isSome (q := q) h
      exact ⟨m, hm, Dense.mul_poly hm, Dense.mul_canon hq hm, Dense.mul_length hm⟩⟩

example : Dense.mul 7 [1, -2, 0] [3, 6] = some [3, 0, 2, 0] ∧ Dense.sub 7 [1] [2, 3] = [6, 4] := by decide

/-- C07: `LinearCombine ps ws` returns the list of scaled polynomials `w_i * p_i`; it crashes iff there are fewer
polynomials than weights. -/
theorem C07_linearCombine (q : Nat) : ∀ (ps : List (List Int)) (ws : List Int), ws.length ≤ ps.length →
    ∃ r, Dense.linearCombine q ps ws = some r ∧
      r.map (poly q) = List.zipWith (fun (w : Int) p => C (w : ZMod q) * poly q p) ws ps
  | _, [], _ => ⟨[], by simp [Dense.linearCombine], by simp⟩
  | [], _ :: _, h => by simp at h
  | p :: ps, w :: ws, h => by
    obtain ⟨m, hm⟩ := Dense.mul_isSome (q := q) (a := [w]) (b := p) (Or.inl (by simp))
    obtain ⟨r, h1, h2⟩ := C07_linearCombine q ps ws (by simpa using h)
    exact ⟨m :: r, by simp [Dense.linearCombine, hm, h1], by simp [Dense.mul_poly hm, h2]⟩

example : Dense.linearCombine 7 [[1, 2], [3]] [2, 3] = some [[2, 4], [2]] := by decide

theorem getD_zeros (n i : Nat) : (Dense.zeros n).getD i 0 = 0 := by
  unfold Dense.zeros
  rw [List.getD_eq_getElem?_getD, List.getElem?_replicate]
  split <;> simp

/-- C07: `MulSimple` is the componentwise product (not polynomial multiplication), for slices of equal length. -/
theorem C07_mulSimple (q : Nat) (a b : List Int) (h : a.length = b.length) (i : Nat) (hi : i < a.length) :
    (((Dense.mulSimple q a b).getD i 0 : Int) : ZMod q) = (a.getD i 0 : Int) * (b.getD i 0 : Int) := by
  unfold Dense.mulSimple
  rw [Dense.zipInto_getD _ _ _ _ (by rw [Dense.zipInto_length]; simp [Dense.zeros, hi]), if_pos (by omega),
    Dense.zipInto_getD _ _ _ _ (by simp [Dense.zeros, hi]), if_pos hi]
  have h0 : (Dense.zeros (max a.length b.length)).getD i 0 = 0 := by
    exact getD_zeros _ _
  rw [h0, cast_mul', cast_add']; simp

example : ([1, 2] : List Int).length = ([3, 4] : List Int).length ∧ 1 < 2 := by decide

/-! ### C08 division -/

/-- C08 (partial): long division is correct for every divisor whose leading coefficient is a unit.
Missing: divisors whose last slice entry is congruent to 0, see `C08_div_refuted` and `C08_div_zero_leading`. -/
theorem C08_div_partial (q : Nat) (hp : q.Prime) (a b : List Int) (hb : b ≠ [])
    (hlen : b.length ≤ a.length + 1)
    (hlead : ¬ (q : Int) ∣ b.getLast hb) :
    ∃ qt rm, Dense.div q a b = some (qt, rm) ∧ poly q a = poly q qt * poly q b + poly q rm ∧
      rm.length < b.length ∧ (poly q rm).degree < (poly q b).degree := by
  have := Fact.mk hp
  have hbl := List.length_pos_iff.2 hb
  have hl : ((b.getD (b.length - 1) 0 : Int) : ZMod q) ≠ 0 := by
    rw [List.getD_eq_getElem _ _ (by omega), ← List.getLast_eq_getElem hb]
    exact cast_ne_zero_of_not_dvd hlead
  obtain ⟨qt, rm, h1, h2, h3, h4⟩ := Dense.divLoop_spec b hb hl a.length (Dense.zeros (a.length + 1 - b.length)) a rfl
    (by simp [Dense.zeros]; omega) (fun i _ => getD_zeros _ _)
  refine ⟨qt, rm, by unfold Dense.div; rw [if_neg (by omega)]; exact h1, ?_, by omega, ?_⟩
  · rw [← h2]; simp
  · refine lt_of_lt_of_le (poly_degree_lt rm) (le_trans ?_ (le_degree_of_ne_zero (n := b.length - 1) ?_))
    · exact_mod_cast (by omega : rm.length ≤ b.length - 1)
    · rw [poly_coeff]; exact hl

example : Nat.Prime 7 ∧ ([6, 1] : List Int).length ≤ ([6, 0, 0, 1] : List Int).length + 1 ∧
    ¬ ((7 : Nat) : Int) ∣ ([6, 1] : List Int).getLast (by simp) ∧
    Dense.div 7 [6, 0, 0, 1] [6, 1] = some ([1, 1, 1], [0]) := by
  refine ⟨by norm_num, by simp, by decide, by decide +kernel⟩

theorem divLoop_zero_leading (q : Nat) (b : List Int) (hb : b ≠ []) (hlead : b.getD (b.length - 1) 0 = 0) :
    ∀ (n : Nat) (r rem : List Int), rem.length = n → (∀ i, r.getD i 0 = 0) →
    ∃ qt rm, Dense.divLoop q b r rem = some (qt, rm) ∧ (∀ i, qt.getD i 0 = 0) ∧
      rm.length = min rem.length (b.length - 1) ∧
      ∀ i, i < rm.length → ((rm.getD i 0 : Int) : ZMod q) = ((rem.getD i 0 : Int) : ZMod q) := by
  have hbl := List.length_pos_iff.2 hb
  intro n
  induction n with
  | zero =>
    intro r rem hn hr
    rw [Dense.divLoop, dif_neg (by omega), if_neg (by omega)]
    exact ⟨r, rem, rfl, hr, by omega, fun _ _ => rfl⟩
  | succ n ih =>
    intro r rem hn hr
    rw [Dense.divLoop]
    split
    · rename_i hlen
      have hl : Fq.div q (rem.getD (rem.length - 1) 0) (b.getD (b.length - 1) 0) = some 0 := by
        rw [hlead]; simp [Fq.div, Fq.inverse, Fq.mul]
      simp only [hl]
      obtain ⟨m, hm⟩ := Dense.mul_isSome (q := q) (a := b) (b := Dense.zeros (rem.length - b.length) ++ [0]) (Or.inl hb)
      simp only [hm]
      have hml : m.length = rem.length := by rw [Dense.mul_length hm]; simp [Dense.zeros]; omega
      have htk : ((Dense.sub q rem m).take (rem.length - 1)).length = n := by
        simp [Dense.sub_length]; omega
      have hm0 : poly q m = 0 := by rw [Dense.mul_poly hm, Dense.poly_single]; simp
      obtain ⟨qt, rm, h1, h2, h3, h4⟩ := ih (r.set (rem.length - b.length) 0)
        ((Dense.sub q rem m).take (rem.length - 1)) htk (by
          intro i
          by_cases hi : rem.length - b.length = i
          · subst hi
            by_cases hi' : rem.length - b.length < r.length
            · rw [List.getD_eq_getElem _ _ (by simpa using hi')]; simp
            · rw [List.getD_eq_default _ _ (by simp; omega)]
          · rw [List.getD_eq_getElem?_getD, List.getElem?_set_ne hi, ← List.getD_eq_getElem?_getD]; exact hr i)
      refine ⟨qt, rm, h1, h2, by rw [h3, htk]; omega, fun i hi => ?_⟩
      rw [h4 i hi, List.getD_eq_getElem?_getD, List.getElem?_take_of_lt (by omega), ← List.getD_eq_getElem?_getD,
        ← poly_coeff, ← poly_coeff, Dense.sub_poly, hm0, sub_zero]
    · rw [if_neg (by omega)]
      exact ⟨r, rem, rfl, hr, by omega, fun _ _ => rfl⟩

/-- C08: what `Div` really does for a divisor whose last entry is 0: it returns the zero quotient and a remainder
that is the dividend with its top coefficients silently dropped - for EVERY dividend and every such divisor. -/
theorem C08_div_zero_leading (q : Nat) (a b : List Int) (hb : b ≠ []) (hlen : b.length ≤ a.length + 1)
    (hlead : b.getLast hb = 0) :
    ∃ qt rm, Dense.div q a b = some (qt, rm) ∧ poly q qt = 0 ∧ rm.length = min a.length (b.length - 1) ∧
      ∀ i, i < rm.length → ((rm.getD i 0 : Int) : ZMod q) = ((a.getD i 0 : Int) : ZMod q) := by
  have hbl := List.length_pos_iff.2 hb
  have hl : b.getD (b.length - 1) 0 = 0 := by
    rw [List.getD_eq_getElem _ _ (by omega), ← List.getLast_eq_getElem hb]; exact hlead
  obtain ⟨qt, rm, h1, h2, h3, h4⟩ := divLoop_zero_leading q b hb hl a.length (Dense.zeros (a.length + 1 - b.length)) a rfl
    (fun i => getD_zeros _ _)
  refine ⟨qt, rm, by unfold Dense.div; rw [if_neg (by omega)]; exact h1, ?_, h3, h4⟩
  ext i; rw [poly_coeff, h2 i]; simp

example : ∃ h : ([1, 0] : List Int) ≠ [], ([1, 0] : List Int).getLast h = 0 ∧
    Dense.div 7 [0, 1] [1, 0] = some ([0], [0]) := ⟨by simp, by simp, by decide +kernel⟩

/-- C08: the full claim is false in every prime field: dividing `x` by the non-zero constant `1 + 0·x`
returns quotient 0 and remainder 0. -/
theorem C08_div_refuted (q : Nat) (hp : q.Prime) :
    ¬ ∀ a b : List Int, b ≠ [] → poly q b ≠ 0 → b.length ≤ a.length →
      ∃ qt rm, Dense.div q a b = some (qt, rm) ∧ poly q a = poly q qt * poly q b + poly q rm := by
  have := Fact.mk hp
  intro h
  obtain ⟨qt, rm, h1, h2⟩ := h [0, 1] [1, 0] (by simp) (by simp) (by simp)
  obtain ⟨qt', rm', h1', h2', h3', h4'⟩ := C08_div_zero_leading q [0, 1] [1, 0] (by simp) (by simp) (by simp)
  rw [h1'] at h1
  obtain ⟨rfl, rfl⟩ : qt' = qt ∧ rm' = rm := by simpa using h1
  rw [h2', zero_mul, zero_add] at h2
  have := congrArg (fun p => coeff p 1) h2
  simp only [poly_coeff] at this
  rw [List.getD_eq_default rm' _ (by simp [h3'])] at this
  simp at this

/-! ### C09 domain polynomial -/

/-- C09: `DomainPolynomial n` is `∏_{i<n} (X - i)`: monic, `n+1` coefficients, zero exactly on `0..n-1`. -/
theorem C09_domainPolynomial (q : Nat) (hp : q.Prime) (n : Nat) (hn : 0 < n) :
    ∃ d, Dense.domainPolynomial q n = some d ∧ poly q d = ∏ i ∈ Finset.range n, (X - C (i : ZMod q)) ∧
      d.length = n + 1 ∧ Canon q d ∧ d.getD n 0 = 1 ∧
      ∀ x : ZMod q, (poly q d).eval x = 0 ↔ ∃ i, i < n ∧ x = (i : ZMod q) := by
  have := Fact.mk hp
  obtain ⟨d, h1, h2, h3, h4⟩ := Dense.domainPolynomial_spec (q := q) n hn
  have hc := h4 hp.one_lt
  refine ⟨d, h1, h2, h3, hc, ?_, ?_⟩
  · have hm : (poly q d).coeff n = 1 := by
      rw [h2]
      have hmon : (∏ i ∈ Finset.range n, (X - C (i : ZMod q))).Monic := monic_prod_of_monic _ _ (fun i _ => monic_X_sub_C _)
      have hdeg : (∏ i ∈ Finset.range n, (X - C (i : ZMod q))).natDegree = n := by
        rw [natDegree_prod_of_monic _ _ (fun i _ => monic_X_sub_C _)]; simp only [natDegree_X_sub_C]; simp
      have := hmon.coeff_natDegree
      rwa [hdeg] at this
    rw [poly_coeff] at hm
    have hr := Dense.canon_getD hp.pos hc n
    have h1' : ((d.getD n 0 : Int) : ZMod q) = ((1 : Int) : ZMod q) := by simpa using hm
    rw [cast_eq_iff_modEq] at h1'
    exact IsRep.unique ⟨hr.1, hr.2, h1'⟩ ⟨by omega, by exact_mod_cast hp.one_lt, Int.ModEq.refl _⟩
  · intro x
    rw [h2, eval_prod, Finset.prod_eq_zero_iff]
    simp [sub_eq_zero]

example : Dense.domainPolynomial 7 3 = some [0, 2, 4, 1] := by decide

/-! ### C10 interpolation -/

/-- C10: `NewPolZeroAt pos n h` has `n` coefficients, value `h` at `pos` and 0 at the other points of `0..n-1`. -/
theorem C10_newPolZeroAt (q : Nat) (hp : q.Prime) (pos n : Nat) (h : pos < n) (hn : n ≤ q) (height : Int) :
    ∃ l, Dense.newPolZeroAt q pos n height = some l ∧ l.length = n ∧
      ∀ j, j < n → (poly q l).eval (j : ZMod q) = if j = pos then (height : ZMod q) else 0 := by
  have := Fact.mk hp
  exact Dense.newPolZeroAt_spec h hn height

example : Dense.newPolZeroAt 7 1 3 5 = some [0, 3, 2] := by decide +kernel

/-- C10: `LagrangeInterpolation v` (fresh object) returns `len v` coefficients of a polynomial with value `v_j`
at every `j < len v`, and it is the only polynomial of degree `< len v` with these values. -/
theorem C10_lagrange (q : Nat) (hp : q.Prime) (v : List Int) (hn : v.length ≤ q) :
    ∃ l c, Dense.lagrangeInterpolation q [] v = some (l, c) ∧ l.length = v.length ∧
      (∀ j, j < v.length → (poly q l).eval (j : ZMod q) = ((v.getD j 0 : Int) : ZMod q)) ∧
      ∀ p : (ZMod q)[X], p.degree < v.length →
        (∀ j, j < v.length → p.eval (j : ZMod q) = ((v.getD j 0 : Int) : ZMod q)) → p = poly q l := by
  have := Fact.mk hp
  obtain ⟨hpure, -⟩ := Dense.lagrangeLoop_pure (q := q) v.length v 0 (Dense.zeros v.length) [] (by
    intro k v h; simp [Dense.Cache.find] at h)
  obtain ⟨r, h1, h2, h3⟩ := Dense.pureLoop_spec (q := q) v.length hn v 0 (Dense.zeros v.length) (by simp)
    (by simp [Dense.zeros])
  rw [h1, Option.map_eq_some_iff] at hpure
  obtain ⟨⟨l, c⟩, hl, rfl⟩ := hpure
  have hval : ∀ j, j < v.length → (poly q l).eval (j : ZMod q) = ((v.getD j 0 : Int) : ZMod q) := by
    intro j hj; rw [h3 j hj]; simp
  refine ⟨l, c, hl, h2, hval, fun p hdeg hpv => ?_⟩
  refine Polynomial.eq_of_degrees_lt_of_eval_index_eq (s := Finset.range v.length) (v := fun i : Nat => (i : ZMod q))
    ?_ ?_ ?_ ?_
  · intro i hi j hj hij
    by_contra hne
    exact Dense.natCast_sub_ne (q := q) (n := v.length) (by simpa using hi) (by simpa using hj) hn hne (sub_eq_zero.2 hij)
  · simpa using hdeg
  · have := poly_degree_lt (q := q) l
    rw [h2] at this; simpa using this
  · intro i hi
    rw [hpv i (by simpa using hi), hval i (by simpa using hi)]

example : (Dense.lagrangeInterpolation 7 [] [0, 5, -1]).map Prod.fst = some [0, 0, 5] := by decide +kernel

/-! ### C11 cache transparency -/

/-- the cache after a history of interpolation calls on one field object (a crash ends the history) -/
def Dense.runHistory (q : Nat) : Dense.Cache → List (List Int) → Option Dense.Cache
  | c, [] => some c
  | c, v :: vs => match Dense.lagrangeInterpolation q c v with
    | none => none
    | some (_, c') => Dense.runHistory q c' vs

/-- C11: after any history of earlier interpolation calls, interpolation returns exactly what a fresh object returns
(including crashing exactly when a fresh object crashes). -/
theorem C11_cache_transparent (q : Nat) (hist : List (List Int)) (c : Dense.Cache)
    (h : Dense.runHistory q [] hist = some c) (v : List Int) :
    (Dense.lagrangeInterpolation q c v).map Prod.fst = (Dense.lagrangeInterpolation q [] v).map Prod.fst := by
  have hgen : ∀ (hist : List (List Int)) (c0 c : Dense.Cache), Dense.CacheOK q c0 →
      Dense.runHistory q c0 hist = some c → Dense.CacheOK q c := by
    intro hist
    induction hist with
    | nil => rintro c0 c h ⟨⟩; exact h
    | cons v vs ih =>
      intro c0 c h hr
      simp only [Dense.runHistory] at hr
      split at hr
      · exact absurd hr (by simp)
      · rename_i r c' hl
        exact ih c' c ((Dense.lagrangeLoop_pure _ _ _ _ _ h).2 _ _ hl) hr
  have h0 : Dense.CacheOK q [] := by intro k v h; simp [Dense.Cache.find] at h
  have hc := hgen hist [] c h0 h
  unfold Dense.lagrangeInterpolation
  rw [(Dense.lagrangeLoop_pure _ _ _ _ _ hc).1, (Dense.lagrangeLoop_pure _ _ _ _ _ h0).1]

example : ∃ c, Dense.runHistory 7 [] [[1, 2], [0, 3, 4]] = some c ∧ c.length = 4 := by
  refine ⟨_, rfl, ?_⟩; decide +kernel

/-! ### C12 transpose -/

/-- C12: `Transpose` of a rectangular matrix with at least one row. -/
theorem C12_transpose (m : List (List Int)) (c : Nat) (hm : m ≠ []) (hrect : ∀ s ∈ m, s.length = c) :
    ∃ t : List (List Int), Dense.transpose m = some (t.map (·.map some)) ∧ t.length = c ∧
      (∀ s ∈ t, s.length = m.length) ∧
      (∀ i j, i < m.length → j < c → (t.getD j []).getD i 0 = (m.getD i []).getD j 0) ∧
      (0 < c → Dense.transpose t = some (m.map (·.map some))) := by
  have hgen : ∀ (m : List (List Int)) (c : Nat), m ≠ [] → (∀ s ∈ m, s.length = c) →
      Dense.transpose m = some (((List.range c).map fun x => m.map fun s => s.getD x 0).map (·.map some)) := by
    intro m c hm hrect
    cases m with
    | nil => exact absurd rfl hm
    | cons r0 m =>
      have h0 : r0.length = c := hrect r0 (by simp)
      unfold Dense.transpose
      simp only
      rw [if_pos (by rw [List.all_eq_true]; intro s hs; simp [hrect s hs, h0])]
      rw [h0, List.map_map]
      congr 1
      apply List.map_congr_left
      intro x hx
      simp only [List.mem_range] at hx
      simp only [Function.comp_def]
      rw [List.map_map]
      apply List.map_congr_left
      intro s hs
      have := hrect s hs
      simp [List.getElem?_eq_getElem (by omega : x < s.length)]
  refine ⟨(List.range c).map fun x => m.map fun s => s.getD x 0, hgen m c hm hrect, by simp, ?_, ?_, ?_⟩
  · intro s hs
    simp only [List.mem_map] at hs
    obtain ⟨x, -, rfl⟩ := hs; simp
  · intro i j hi hj
    rw [List.getD_eq_getElem (l := List.map _ (List.range c)) _ (by simpa using hj)]
    simp only [List.getElem_map, List.getElem_range]
    rw [List.getD_eq_getElem (l := List.map _ m) _ (by simpa using hi), List.getElem_map,
      List.getD_eq_getElem (l := m) _ hi]
  · intro hc
    rw [hgen _ m.length]
    · congr 1
      have : ((List.range m.length).map fun x => ((List.range c).map fun y => m.map fun s => s.getD y 0).map
          fun s => s.getD x 0) = m := by
        apply List.ext_getElem
        · simp
        · intro i h1 h2
          simp only [List.getElem_map, List.getElem_range, List.map_map, Function.comp_def]
          have hl := hrect _ (List.getElem_mem h2)
          apply List.ext_getElem
          · simp [hl]
          · intro j h3 h4
            simp only [List.getElem_map, List.getElem_range]
            rw [List.getD_eq_getElem _ _ (by simpa using h2), List.getElem_map, List.getD_eq_getElem _ _ h4]
      rw [this]
    · simp; omega
    · intro s hs
      simp only [List.mem_map] at hs
      obtain ⟨x, -, rfl⟩ := hs; simp

example : Dense.transpose [[1, 2, 3], [4, 5, 6]] =
    some ([[1, 4], [2, 5], [3, 6]].map (·.map some)) := by decide

end APS
