import Verif.Proofs.Sparse
import Verif.Props.Avl

/-! Properties C20 - C26: sparse polynomials.

`Inv t` (keys strictly ascending in traversal order, no zero stored) holds of every array the API can produce
(`Avl.Reachable.inv`).  `t.val k` is what `Get(k)` returns, with 0 for "not found". -/
namespace APS
open Polynomial APS.Spec APS.Avl APS.Avl.Tree APS.Sparse

/-! ### C20 polynomial algebra -/

/-- C20a: `Clone` returns an array with the same content. -/
theorem C20_clone {a : Tree} (ha : Inv a) : ∃ r, clone a = some r ∧ Inv r ∧ ∀ k, r.get k = a.get k := by
  obtain ⟨r, e1, e2, e3⟩ := clone_spec ha
  exact ⟨r, e1, e2, fun k => by rw [get_eq_val e2, get_eq_val ha, e3]⟩

/-- C20b: `MulSparse` is polynomial multiplication, and all coefficients it stores are reduced. -/
theorem C20_mul (q : Nat) (hq : 0 < q) {a b : Tree} (ha : Inv a) (hb : Inv b) {A B : (ZMod q)[X]}
    (hA : Denotes q a.val A) (hB : Denotes q b.val B) :
    ∃ r, mulSparse q a b = some r ∧ Inv r ∧ Denotes q r.val (A * B) ∧ Reduced q r.val := by
  obtain ⟨r, e1, e2, e3, e4, -⟩ := mulSparse_spec hq ha hb hA hB
  exact ⟨r, e1, e2, e3, e4⟩

/-- C20c: `MulSparseScalar` is multiplication by a constant, and all coefficients it stores are reduced. -/
theorem C20_scalar (q : Nat) (hq : 0 < q) {a : Tree} (ha : Inv a) (s : Int) {A : (ZMod q)[X]}
    (hA : Denotes q a.val A) :
    ∃ r, mulSparseScalar q a s = some r ∧ Inv r ∧ Denotes q r.val (C (s : ZMod q) * A) ∧ Reduced q r.val := by
  obtain ⟨r, e1, e2, e3⟩ := mulSparseScalar_denotes ha hA s
  exact ⟨r, e1, e2, e3, mulSparseScalar_reduced hq ha e1⟩

/-- C20d: `AddToSparse` is addition. -/
theorem C20_add (q : Nat) (hq : 0 < q) {a b : Tree} (ha : Inv a) (hb : Inv b) {A B : (ZMod q)[X]}
    (hA : Denotes q a.val A) (hB : Denotes q b.val B) :
    ∃ r, addToSparse q a b = some r ∧ Inv r ∧ Denotes q r.val (A + B) := by
  obtain ⟨r, e1, e2, e3, -⟩ := addToSparse_spec hq ha hb hA hB
  exact ⟨r, e1, e2, e3⟩

/-- C20e: `SubToSparse` is subtraction. -/
theorem C20_sub (q : Nat) (hq : 0 < q) {a b : Tree} (ha : Inv a) (hb : Inv b) {A B : (ZMod q)[X]}
    (hA : Denotes q a.val A) (hB : Denotes q b.val B) :
    ∃ r, subToSparse q a b = some r ∧ Inv r ∧ Denotes q r.val (A - B) := by
  obtain ⟨r, e1, e2, e3, -⟩ := subToSparse_spec hq ha hb hA hB
  exact ⟨r, e1, e2, e3⟩

/-- C20f: `AddPolynomials` is the sum of all members. -/
theorem C20_sum (q : Nat) (hq : 0 < q) (ps : List Tree) (Ps : List ((ZMod q)[X]))
    (h : List.Forall₂ (fun p P => Inv p ∧ Denotes q p.val P) ps Ps) :
    ∃ r, Sparse.addPolynomials q ps = some r ∧ Inv r ∧ Denotes q r.val Ps.sum := by
  obtain ⟨r, e1, e2, e3, -⟩ := addPolynomials_spec hq ps Ps h
  exact ⟨r, e1, e2, e3⟩

/-- C20g: `LinearCombine` scales the i-th polynomial by the i-th weight; it aborts when there are more weights than
polynomials. -/
theorem C20_linearCombine (q : Nat) (ps : List Tree) (Ps : List ((ZMod q)[X])) (w : List Int)
    (h : List.Forall₂ (fun p P => Inv p ∧ Denotes q p.val P) ps Ps) :
    (w.length ≤ ps.length → ∃ rs, linearCombine q ps w = some rs ∧
      List.Forall₂ (fun r P => Inv r ∧ Denotes q r.val P) rs (List.zipWith (fun (s : Int) P => C (s : ZMod q) * P) w Ps)) ∧
    (ps.length < w.length → linearCombine q ps w = none) := by
  induction h generalizing w with
  | nil =>
    cases w with
    | nil => exact ⟨fun _ => ⟨[], rfl, .nil⟩, by simp⟩
    | cons s w => exact ⟨by simp, fun _ => rfl⟩
  | @cons p P ps Ps hp _ ih =>
    cases w with
    | nil => exact ⟨fun _ => ⟨[], rfl, .nil⟩, by simp⟩
    | cons s w =>
      obtain ⟨m, m1, m2, m3⟩ := mulSparseScalar_denotes hp.1 hp.2 s
      obtain ⟨h1, h2⟩ := ih w
      refine ⟨fun hl => ?_, fun hl => ?_⟩
      · obtain ⟨rs, e1, e2⟩ := h1 (by simpa using hl)
        exact ⟨m :: rs, by simp [linearCombine, m1, e1], .cons ⟨m2, m3⟩ e2⟩
      · simp [linearCombine, h2 (by simpa using hl)]

/-- every well-formed array denotes exactly one polynomial -/
theorem C20_denotation (q : Nat) {a : Tree} (ha : Inv a) : ∃! A : (ZMod q)[X], Denotes q a.val A :=
  ⟨_, denotes_lpoly ha, fun _ h => denotes_unique h (denotes_lpoly ha)⟩

example : ∃ a b r, fromArray [6, 1] = some a ∧ fromArray [1, 1, 1] = some b ∧ Inv a ∧ Inv b ∧
    mulSparse 7 a b = some r ∧ r.toArray 4 = some [6, 0, 0, 1] := by
  refine ⟨_, _, _, rfl, rfl, ⟨by unfold BST; decide +kernel, by decide +kernel⟩,
    ⟨by unfold BST; decide +kernel, by decide +kernel⟩, rfl, by decide +kernel⟩

/-! ### C21 evaluation -/

/-- C21: `EvalSparsePoly` returns the value of the polynomial at the point, reduced, for every point that is 0 or
not a multiple of `q` (for the point 0 the stored constant term is returned as it is). -/
theorem C21_eval (q : Nat) (hp : q.Prime) {p : Tree} (h : Inv p) {P : (ZMod q)[X]} (hP : Denotes q p.val P) (x : Int)
    (hx : x = 0 ∨ ¬ (q : Int) ∣ x) :
    ∃ r, evalSparsePoly q p x = some r ∧ (r : ZMod q) = P.eval (x : ZMod q) ∧ (x ≠ 0 → 0 ≤ r ∧ r < q) := by
  have := Fact.mk hp
  by_cases h0 : x = 0
  · subst h0
    refine ⟨p.val 0, by simp [evalSparsePoly, val], ?_, by simp⟩
    rw [← hP 0, Int.cast_zero, coeff_zero_eq_eval_zero]
  · obtain ⟨r, e1, e2, e3⟩ := evalSparsePoly_spec h (cast_ne_zero_of_not_dvd (hx.resolve_left h0)) hP
    exact ⟨r, e1, e2, fun _ => e3⟩

example : ∃ p, fromArray [3, 0, 1, 0, 0, 2] = some p ∧ evalSparsePoly 13 p 2 = some 6 ∧ ¬ ((13 : Nat) : Int) ∣ 2 :=
  ⟨_, rfl, by decide +kernel, by decide⟩

/-- C21, outside its domain: at a point that is a non-zero multiple of `q` the evaluation can crash
(division by the memoised exponent 0): `1 + X + X^2` at 7 over `F_7`. -/
theorem C21_unreduced_point_crashes : ∃ p, fromArray [1, 1, 1] = some p ∧ evalSparsePoly 7 p 7 = none :=
  ⟨_, rfl, by decide +kernel⟩

/-! ### C22, C23 division -/

/-- C22: quotient and remainder, for every reduced dividend and every divisor with highest key ≥ 1 and invertible
leading coefficient.  The loop ends within `MaxPower(a)+1` tests. -/
theorem C22_div (q : Nat) (hp : q.Prime) {a b : Tree} (ha : Inv a) (hb : Inv b) (hred : Reduced q a.val)
    (hlead : ¬ (q : Int) ∣ b.val b.maxPower) (hb1 : 0 < b.maxPower) {A B : (ZMod q)[X]}
    (hA : Denotes q a.val A) (hB : Denotes q b.val B) (fuel : Nat) (hf : a.maxPower < fuel) :
    ∃ d r D R, divideSparse q fuel a b = .done (d, r) ∧ Inv d ∧ Inv r ∧ Denotes q d.val D ∧ Denotes q r.val R ∧
      A = D * B + R ∧ R.degree < B.degree := by
  have := Fact.mk hp
  obtain ⟨c, c1, c2, c3⟩ := clone_spec ha
  have hl := cast_ne_zero_of_not_dvd hlead
  have hmax : c.maxPower ≤ a.maxPower := by
    rcases Nat.eq_zero_or_pos a.maxPower with h0 | h0
    · by_contra hc
      have hne : c ≠ nil := by rintro rfl; simp [maxPower, maxNode] at hc
      have := maxPower_mem c2 hne
      rw [c3] at this; exact hc (le_maxPower ha this)
    · refine Nat.lt_succ_iff.1 (maxPower_lt c2 (Nat.succ_pos _) fun k hk => ?_)
      rw [c3] at hk; exact Nat.lt_succ_of_le (le_maxPower ha hk)
  obtain ⟨d, r, D, R, e1, e2, e3, e4, e5, e6, e7⟩ := divideLoop_spec hb hl hb1 hB fuel nil c 0 A inv_nil c2
    (by rw [c3]; exact hred) (fun k hk => absurd (by simp [val, Tree.get]) hk) denotes_nil (by rw [c3]; exact hA)
    (by omega)
  refine ⟨d, r, D, R, by simp [divideSparse, c1, e1], e2, e3, e4, e5, by rw [e6]; ring, ?_⟩
  refine lt_of_lt_of_le ((degree_lt_iff_coeff_zero R b.maxPower).2 fun k hk => ?_)
    (le_degree_of_ne_zero (n := b.maxPower) (by rw [hB]; exact hl))
  rw [e5 k]
  have : r.val k = 0 := by
    by_contra h; have := le_maxPower e3 h; omega
  rw [this]; simp

example : (do
    let a ← fromArray [6, 0, 0, 1]
    let b ← fromArray [6, 1]
    match divideSparse 7 4 a b with
    | .done (d, r) => some (d.ascendingNodes, r.ascendingNodes, b.maxPower, b.val b.maxPower, a.maxPower)
    | _ => none) = some ([(0, 1), (1, 1), (2, 1)], [], 1, 1, 3) := by decide +kernel

/-- C23 (partial): division terminates for every divisor of degree at least 1 (invertible leading coefficient) and
every reduced dividend.  Missing: constant divisors, for which the claim is false (`C23_constant_divisor_refuted`). -/
theorem C23_div_terminates_partial (q : Nat) (hp : q.Prime) {a b : Tree} (ha : Inv a) (hb : Inv b)
    (hred : Reduced q a.val) (hlead : ¬ (q : Int) ∣ b.val b.maxPower) (hb1 : 0 < b.maxPower) :
    ∃ x, ∀ fuel, a.maxPower < fuel → divideSparse q fuel a b = .done x := by
  obtain ⟨d, r, -, -, e, -⟩ := C22_div q hp ha hb hred hlead hb1 (denotes_lpoly ha) (denotes_lpoly hb)
    (a.maxPower + 1) (by omega)
  refine ⟨(d, r), fun fuel hf => ?_⟩
  have mono : ∀ n res rem x, divideLoop q b n res rem = .done x → ∀ m, n ≤ m → divideLoop q b m res rem = .done x := by
    intro n
    induction n with
    | zero => intro res rem x h; simp [divideLoop] at h
    | succ n ih =>
      intro res rem x h m hm
      obtain ⟨m, rfl⟩ : ∃ k, m = k + 1 := ⟨m - 1, by omega⟩
      unfold divideLoop at h ⊢
      split
      · rename_i hc
        rw [if_pos hc] at h
        split
        · rename_i hn; rw [hn] at h; exact absurd h (by simp)
        · rename_i hn; rw [hn] at h; exact ih _ _ _ h m (by omega)
      · rename_i hc; rw [if_neg hc] at h; exact h
  unfold divideSparse at e ⊢
  split at e
  · exact absurd e (by simp)
  · exact mono _ _ _ _ e fuel (by omega)

/-- C23: the full claim is false: a division by a constant polynomial (highest key 0) never returns normally,
whatever the dividend: the loop condition `maxA.Key() >= maxB.Key()` is always true. -/
theorem C23_constant_divisor_refuted (q : Nat) (a b : Tree) (hb : b.maxPower = 0) (fuel : Nat) (x : Tree × Tree) :
    divideSparse q fuel a b ≠ .done x := by
  unfold divideSparse
  split
  · simp
  · exact divideLoop_never hb fuel _ _ x

/-- C23: and it may really loop for ever: dividing the zero polynomial by the constant 1 is still running after any
number of rounds, in every prime field. -/
theorem C23_zero_by_one_hangs (q : Nat) (hp : q.Prime) (fuel : Nat) :
    ∃ b, newWith 0 1 = some b ∧ divideSparse q fuel nil b = .running := by
  have := Fact.mk hp
  have hqp := hp.pos
  obtain ⟨b, b1, b2, b3⟩ := newWith_spec 0 1
  refine ⟨b, b1, ?_⟩
  have hbm : b.maxPower = 0 := by
    have := maxPower_lt b2 (m := 1) (by omega) (fun k hk => by
      rw [b3] at hk; by_contra h; rw [if_neg (by omega)] at hk; exact hk rfl)
    omega
  obtain ⟨i, hi⟩ := inverse_of_cast_ne (q := q) (a := 1) (by simp)
  have nil_of : ∀ t : Tree, Inv t → (∀ k, t.val k = 0) → t = nil := by
    intro t ht h
    by_contra hne
    exact maxPower_mem ht hne (h _)
  have round : divideRound q b nil nil = some (nil, nil) := by
    obtain ⟨n, n1, n2, n3⟩ := newWith_spec 0 0
    have : n = nil := nil_of n n2 (fun k => by rw [n3]; simp)
    subst this
    obtain ⟨m, m1, m2, -, -, m5⟩ := mulSparse_spec hqp b2 inv_nil (denotes_lpoly (q := q) b2) denotes_nil
    have : m = nil := nil_of m m2 (fun k => by
      by_contra h
      obtain ⟨i, j, -, hj, -⟩ := m5 k h
      exact hj (by simp [val, Tree.get]))
    subst this
    obtain ⟨s, s1, s2, -, -, s5⟩ := subToSparse_spec hqp inv_nil inv_nil (denotes_nil (q := q)) denotes_nil
    have : s = nil := nil_of s s2 (fun k => by
      by_contra h
      rcases s5 k h with h | h <;> exact h (by simp [val, Tree.get]))
    subst this
    have hv1 : b.val 0 = 1 := by rw [b3]; rfl
    have hdiv : Fq.div q 0 (b.val 0) = some 0 := by
      rw [hv1]; simp [Fq.div, hi, Fq.mul]
    have hnm : nil.maxNode = (0, 0) := rfl
    simp only [divideRound, hnm, maxNode_val b2, hbm, hdiv, n1, m1, s1, Option.bind_eq_bind,
      Option.bind_some, Option.pure_def, Nat.sub_self]
  have loop : ∀ n, divideLoop q b n nil nil = .running := by
    intro n
    induction n with
    | zero => rfl
    | succ n ih =>
      unfold divideLoop
      rw [if_pos (by have : b.maxNode.1 = 0 := hbm; omega), round]
      exact ih
  have hc : clone nil = some nil := rfl
  simp [divideSparse, hc, loop]

/-! ### C24 interpolation -/

/-- caches that some sequence of interpolation calls can produce (starting from the empty cache) -/
inductive Sparse.CacheReachable (q : Nat) : Cache → Prop
  | empty : CacheReachable q []
  | call {c c' : Cache} {data r : Tree} {n : Nat} : CacheReachable q c → Inv data →
      interpolate q c data n = some (r, c') → CacheReachable q c'

theorem Sparse.interpLoop_cacheOK {q : Nat} (n : Nat) (vs : List (Nat × Int)) : ∀ (p r : Tree) (c c' : Cache),
    CacheOK q c → interpLoop q n p c vs = some (r, c') → CacheOK q c' := by
  induction vs with
  | nil => intro p r c c' hc h; simp only [interpLoop, Option.some.injEq, Prod.mk.injEq] at h; rw [← h.2]; exact hc
  | cons v vs ih =>
    intro p r c c' hc h
    simp only [interpLoop] at h
    split at h
    · exact absurd h (by simp)
    · rename_i b c1 hb
      split at h
      · exact absurd h (by simp)
      · split at h
        · exact absurd h (by simp)
        · exact ih _ _ _ _ ((base_ok hc _ _).2 _ _ hb) h

theorem Sparse.CacheReachable.ok {q : Nat} {c : Cache} (h : CacheReachable q c) : CacheOK q c := by
  induction h with
  | empty => intro k v hv; simp at hv
  | call _ _ hi ih =>
    unfold interpolate at hi
    split at hi
    · exact absurd hi (by simp)
    · exact interpLoop_cacheOK _ _ _ _ _ _ ih hi

/-- C24: whatever was interpolated earlier on the same field object (any reachable cache), interpolation over
`n ≤ q` points with all keys below `n` returns the polynomial of degree `< n` through all points (absent keys count as
value 0), and it aborts exactly when the highest key is not below `n`. -/
theorem C24_interpolate (q : Nat) (hp : q.Prime) {c : Cache} (hc : Sparse.CacheReachable q c) {data : Tree}
    (hd : Inv data) (n : Nat) (hn : n ≤ q) :
    (data.maxPower < n → ∃ r c' R, interpolate q c data n = some (r, c') ∧ Sparse.CacheReachable q c' ∧ Inv r ∧
      Denotes q r.val R ∧ R.degree < n ∧ ∀ j, j < n → R.eval (j : ZMod q) = (data.val j : ZMod q)) ∧
    (n ≤ data.maxPower → interpolate q c data n = none) := by
  have := Fact.mk hp
  refine ⟨fun h => ?_, fun h => by simp [interpolate, h]⟩
  obtain ⟨r, c', R, e1, e2, e3, e4, e5, e6⟩ := interpLoop_spec (q := q) n hn data.ascendingNodes nil 0 c hc.ok
    (by
      rintro ⟨k, v⟩ he
      have := (mem_toList_iff hd k v).1 he
      have := le_maxPower hd (k := k) (by rw [this.2]; exact this.1)
      show k < n
      omega) inv_nil denotes_nil (by rw [degree_zero]; exact WithBot.bot_lt_coe n)
  have hi : interpolate q c data n = some (r, c') := by
    unfold interpolate; rw [if_neg (by omega)]; exact e1
  refine ⟨r, c', R, hi, .call hc hd hi, e3, e4, e5, fun j hj => ?_⟩
  rw [e6 j hj, sum_single (distinct_asc hd), val, get_eq_lookup hd.1]
  simp

example : (do
    let data ← fromArray [0, 5, 0, 2]
    let (r, _) ← interpolate 13 [] data 4
    some (evalSparsePoly 13 r 3, evalSparsePoly 13 r 2, evalSparsePoly 13 r 1, data.maxPower))
      = some (some 2, some 0, some 5, 3) := by decide +kernel

/-! ### C25 transposition -/

/-- C25: transposition: with all keys below `w`, the result consists of `w` arrays and entry `i` of column `j` is entry
`j` of row `i` (0 when there is no such row). -/
theorem C25_transpose (m : List Tree) (w : Nat) (hm : ∀ t ∈ m, Inv t) (hk : ∀ t ∈ m, ∀ k, t.val k ≠ 0 → k < w) :
    ∃ cols, transposeSparse m w = some cols ∧ cols.length = w ∧
      ∀ j, j < w → ∀ i, (cols.getD j nil).val i = (m.getD i nil).val j := by
  obtain ⟨cols, e1, e2, -, e4⟩ := transposeLoop_spec m 0 (List.replicate w nil) hm (by simpa using hk)
    (by intro c hc; rw [List.eq_of_mem_replicate hc]; exact inv_nil)
    (by intro c hc i _; rw [List.eq_of_mem_replicate hc]; simp [val, Tree.get])
  rw [List.length_replicate] at e2
  refine ⟨cols, e1, e2, fun j hj i => ?_⟩
  have hj' : j < cols.length := by omega
  have := e4 j nil (cols[j]) (by simp [hj]) (List.getElem?_eq_getElem hj') i
  rw [List.getD_eq_getElem _ _ hj', this, if_neg (by omega), List.getD_eq_getElem?_getD, Nat.sub_zero]

/-- C25: a stored key that is not below `w` aborts the transposition. -/
theorem C25_transpose_out_of_range (t : Tree) (m : List Tree) (w k : Nat) (ht : Inv t) (hk : t.val k ≠ 0)
    (hw : w ≤ k) : transposeSparse (t :: m) w = none := by
  have gen : ∀ (row : List (Nat × Int)) (cols : List Tree), cols.length ≤ k → (∃ v, (k, v) ∈ row) →
      transposeRow 0 cols row = none := by
    intro row
    induction row with
    | nil => rintro cols _ ⟨v, hv⟩; simp at hv
    | cons e row ih =>
      rintro cols hc ⟨v, hv⟩
      unfold transposeRow
      rw [List.foldlM_cons]
      rcases List.mem_cons.1 hv with rfl | hv
      · rw [List.getElem?_eq_none (by simpa using hc)]; rfl
      · cases hg : cols[e.1]? with
        | none => rfl
        | some c =>
          cases hi : c.insertNoOverwrite 0 e.2 with
          | none => simp [hi]
          | some c' =>
            simp only [hi, Option.map_some, Option.bind_eq_bind, Option.bind_some]
            exact ih _ (by simpa using hc) ⟨v, hv⟩
  have := gen t.ascendingNodes (List.replicate w nil) (by simpa using hw) ⟨_, (mem_toList_iff ht _ _).2 ⟨hk, rfl⟩⟩
  simp [transposeSparse, transposeLoop, this]

example : ∃ a b cols, fromArray [5, 0, 7] = some a ∧ fromArray [0, 0, 9] = some b ∧
    transposeSparse [a, b] 3 = some cols ∧ cols.map ascendingNodes = [[(0, 5)], [], [(0, 7), (1, 9)]] :=
  ⟨_, _, _, rfl, rfl, rfl, by decide +kernel⟩

/-! ### C26 scalar product -/

/-- C26: `SparseScalarProduct` is congruent to the inner product (sum over the stored keys); it aborts exactly when a
stored key is not an index of the vector. -/
theorem C26_scalarProduct (q : Nat) {a : Tree} (ha : Inv a) (b : List Int) :
    ((∀ k, a.val k ≠ 0 → k < b.length) → ∃ r, sparseScalarProduct q a b = some r ∧
      (r : ZMod q) = ∑ k ∈ Finset.range b.length, (a.val k : ZMod q) * ((b.getD k 0 : Int) : ZMod q)) ∧
    ((∃ k, a.val k ≠ 0 ∧ b.length ≤ k) → sparseScalarProduct q a b = none) := by
  obtain ⟨h1, h2⟩ := ssp_spec (q := q) b a.ascendingNodes 0
  refine ⟨fun h => ⟨_, h1 ?_, ?_⟩, fun ⟨k, hk, hb⟩ => h2 ⟨(k, a.val k), (mem_toList_iff ha _ _).2 ⟨hk, rfl⟩, hb⟩⟩
  · rintro ⟨k, v⟩ he
    have := (mem_toList_iff ha k v).1 he
    exact h k (by rw [this.2]; exact this.1)
  · rw [zero_add, show ∀ z : Int, (z : ZMod q) = Int.castAddHom (ZMod q) z from fun _ => rfl, map_list_sum, List.map_map]
    have hnd : (a.ascendingNodes.map Prod.fst).Nodup := by
      rw [List.nodup_iff_pairwise_ne, List.pairwise_map]; exact distinct_asc ha
    have e : (a.ascendingNodes.map ((Int.castAddHom (ZMod q)) ∘ fun e => Fq.mul q e.2 (b.getD e.1 0)))
        = (a.ascendingNodes.map Prod.fst).map fun k => (a.val k : ZMod q) * ((b.getD k 0 : Int) : ZMod q) := by
      rw [List.map_map]
      apply List.map_congr_left
      rintro ⟨k, v⟩ he
      have := (mem_toList_iff ha k v).1 he
      simp only [Function.comp, Int.coe_castAddHom, cast_mul']
      rw [this.2]
    rw [e, ← List.sum_toFinset _ hnd]
    apply Finset.sum_subset
    · intro k hk
      simp only [List.mem_toFinset, List.mem_map] at hk
      obtain ⟨⟨k', v⟩, he, rfl⟩ := hk
      have := (mem_toList_iff ha k' v).1 he
      simp only [Finset.mem_range]
      exact h k' (by rw [this.2]; exact this.1)
    · intro k _ hk
      have : a.val k = 0 := by
        by_contra hne
        exact hk (by
          simp only [List.mem_toFinset, List.mem_map]
          exact ⟨(k, a.val k), (mem_toList_iff ha _ _).2 ⟨hne, rfl⟩, rfl⟩)
      simp [this]

/-- C26: the result is NOT reduced: over every field with `q ≥ 2` the inner product of two suitable vectors is returned
as a number `≥ q` (here `(q-1)+(q-1)`), so it is not a canonical field element. -/
theorem C26_not_reduced (q : Nat) (hq : 2 ≤ q) : ∃ a, Inv a ∧
    sparseScalarProduct q a [(q : Int) - 1, (q : Int) - 1] = some (2 * ((q : Int) - 1)) ∧ (q : Int) ≤ 2 * ((q : Int) - 1) := by
  refine ⟨node nil 0 1 2 (node nil 1 1 1 nil), ⟨by simp [BST], by simp⟩, ?_, by omega⟩
  have h : Fq.mul q 1 ((q : Int) - 1) = (q : Int) - 1 := by
    unfold Fq.mul; rw [one_mul]; exact Int.emod_eq_of_lt (by omega) (by omega)
  simp [sparseScalarProduct, ascendingNodes, h]; ring

example : ∃ a, fromArray [2, 0, 3] = some a ∧ sparseScalarProduct 7 a [1, 100, 5] = some 3 ∧
    sparseScalarProduct 7 a [1, 100] = none := ⟨_, rfl, by decide +kernel, by decide +kernel⟩

end APS
