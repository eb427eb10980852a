import Verif.Proofs.SnarkModel
import Verif.Spec.Witness

/-! The dense pipeline: setup, combined polynomial, division. -/
namespace APS.Snark
open Polynomial APS.Spec APS.Circuit

variable {q : Nat} [Fact q.Prime]
variable {G1 G2 GT : Type} [AddCommGroup G1] [AddCommGroup G2] [AddCommGroup GT] {api : Api G1 G2 GT}
  {g1 : G1} {g2 : G2}

/-- entries of a matrix given by rows -/
abbrev entryOf (m : List (List Int)) (j i : Nat) : Int := denseEntry (m.getD j []) i

theorem transposeR1CS_spec (r : R1CS (List Int)) (hr : r.rows ≠ []) (hrect : Rectangular List.length r.index.length r.rows) :
    transposeR1CS r = some ⟨r.index.length, r.rows.length,
      (List.range r.index.length).map fun i => (List.range r.rows.length).map fun j => entryOf (r.rows.map Row.L) j i,
      (List.range r.index.length).map fun i => (List.range r.rows.length).map fun j => entryOf (r.rows.map Row.R) j i,
      (List.range r.index.length).map fun i => (List.range r.rows.length).map fun j => entryOf (r.rows.map Row.E) j i,
      (List.range r.index.length).map fun i => (List.range r.rows.length).map fun j => entryOf (r.rows.map Row.O) j i⟩ := by
  have h : ∀ f : Row (List Int) → List Int, (∀ row ∈ r.rows, (f row).length = r.index.length) →
      transposeMatrix (r.rows.map f) = some ((List.range r.index.length).map fun i => (List.range r.rows.length).map fun j =>
        entryOf (r.rows.map f) j i) := by
    intro f hf
    rw [transposeMatrix_spec (r.rows.map f) r.index.length (by simpa using hr) (by simpa using hf)]
    simp only [List.length_map, entryOf, denseEntry]
  unfold transposeR1CS
  rw [h Row.L fun row hrow => (hrect row hrow).1, h Row.R fun row hrow => (hrect row hrow).2.1,
    h Row.E fun row hrow => (hrect row hrow).2.2.1, h Row.O fun row hrow => (hrect row hrow).2.2.2]
  rfl

theorem trustedSetup_spec (H : Laws api q g1 g2) (r : R1CS (List Int)) (hr : r.rows ≠ [])
    (hn : r.rows.length ≤ q) (hrect : Rectangular List.length r.index.length r.rows) (pub : Nat) (hpub : pub < r.index.length)
    {tox : Toxic} (ht : ToxicOK q tox) :
    ∃ tr pk, transposeR1CS r = some tr ∧ trustedSetup api q pub tr tox = some pk ∧
      PkOK H (denseSys q r) pub (secretsOf q tox) pk := by
  have hl := List.length_pos_iff.2 hr
  obtain ⟨cols, c1, c2⟩ := eapLoop_spec (q := q) r.rows.length hn (entryOf (r.rows.map Row.L)) (entryOf (r.rows.map Row.R))
    (entryOf (r.rows.map Row.E)) (entryOf (r.rows.map Row.O)) (List.range r.index.length)
  have hcl : cols.length = r.index.length := by rw [← c2.length_eq]; simp
  obtain ⟨vals, v1, v2⟩ := mapM_forall₂ (f := evalQuad q tox.x)
    (Q := fun i v => QuadOK (((denseSys q r).col (denseSys q r).L i).eval (secretsOf q tox).x)
      (((denseSys q r).col (denseSys q r).R i).eval (secretsOf q tox).x)
      (((denseSys q r).col (denseSys q r).E i).eval (secretsOf q tox).x)
      (((denseSys q r).col (denseSys q r).O i).eval (secretsOf q tox).x) v) (by
    rintro i c ⟨⟨a1, a2, a3⟩, ⟨b1, b2, b3⟩, ⟨d1, d2, d3⟩, ⟨e1, e2, e3⟩⟩
    obtain ⟨v, w1, w2⟩ := evalQuad_spec (q := q) hl ⟨a1, a2⟩ ⟨b1, b2⟩ ⟨d1, d2⟩ ⟨e1, e2⟩ tox.x
    refine ⟨v, w1, ?_⟩
    rw [a3, b3, d3, e3] at w2
    exact w2) c2
  obtain ⟨pk, p1, p2⟩ := setupFrom_spec H (denseSys q r) hl pub (le_of_lt hpub) ht (vals := vals) v2
  refine ⟨_, pk, transposeR1CS_spec r hr hrect, ?_, p2⟩
  unfold trustedSetup er1csToEAP
  simp only [Option.bind_eq_bind]
  rw [c1, Option.bind_some, if_neg (by omega), if_neg (by omega), ← hcl, List.take_length, v1, Option.bind_some]
  exact p1

theorem linearCombine_length : ∀ (ps : List (List Int)) (ws : List Int) (r : List (List Int)),
    Dense.linearCombine q ps ws = some r → ∀ n, (∀ p ∈ ps, p.length = n) → (∀ p ∈ r, p.length = n) ∧ r.length = ws.length
  | _, [], r, h, n, _ => by simp [Dense.linearCombine] at h; subst h; simp
  | [], _ :: _, r, h, n, _ => by simp [Dense.linearCombine] at h
  | p :: ps, w :: ws, r, h, n, hp => by
    simp only [Dense.linearCombine] at h
    split at h
    · exact absurd h (by simp)
    · rename_i m hm
      obtain ⟨r', hr', rfl⟩ := Option.map_eq_some_iff.1 h
      obtain ⟨h1, h2⟩ := linearCombine_length ps ws r' hr' n (fun p hp' => hp p (by simp [hp']))
      refine ⟨?_, by simp [h2]⟩
      intro p' hp'
      rcases List.mem_cons.1 hp' with rfl | hp'
      · rw [Dense.mul_length hm, hp p (by simp)]; simp
      · exact h1 p' hp'

theorem addPolynomials_length (n : Nat) (ps : List (List Int)) (h : ∀ p ∈ ps, p.length = n) (hne : ps ≠ []) :
    (Dense.addPolynomials q ps).length = n ∧ Canon q (Dense.addPolynomials q ps) := by
  have hq : 0 < q := (Fact.out : q.Prime).pos
  have key : ∀ (ps : List (List Int)) (acc : List Int), (∀ p ∈ ps, p.length = n) → acc.length = n → Canon q acc →
      (ps.foldl (Dense.add q) acc).length = n ∧ Canon q (ps.foldl (Dense.add q) acc) := by
    intro ps
    induction ps with
    | nil => intro acc _ h h'; exact ⟨h, h'⟩
    | cons p ps ih =>
      intro acc hp ha _
      refine ih _ (fun p hp' => hp p (by simp [hp'])) ?_ (Dense.add_canon hq _ _)
      rw [Dense.add_length, ha, hp p (by simp)]; simp
  cases ps with
  | nil => exact absurd rfl hne
  | cons p ps =>
    refine key ps _ (fun p hp' => h p (by simp [hp'])) ?_ (Dense.add_canon hq _ _)
    rw [Dense.add_length, h p (by simp)]; simp

theorem list_sum_range {M : Type} [AddCommMonoid M] (m : Nat) (f : Nat → M) :
    ((List.range m).map f).sum = ∑ i ∈ Finset.range m, f i := by
  induction m with
  | zero => simp
  | succ m ih => rw [List.range_succ, List.map_append, List.sum_append, ih, Finset.sum_range_succ]; simp

theorem columnSum_spec (n m : Nat) (M : Nat → Nat → Int) (w : List Int) (hw : w.length = m) (hm : 0 < m) :
    ∃ v, columnSum q ((List.range m).map fun i => (List.range n).map fun j => M j i) w = some v ∧ v.length = n ∧ Canon q v ∧
      ∀ j < n, ((v.getD j 0 : Int) : ZMod q) = rowVal m (fun j i => ((M j i : Int) : ZMod q)) (assign q w) j := by
  obtain ⟨r, r1, r2⟩ := C07_linearCombine q ((List.range m).map fun i => (List.range n).map fun j => M j i) w (by simp [hw])
  obtain ⟨l1, l2⟩ := linearCombine_length _ _ _ r1 n (by simp)
  have hne : r ≠ [] := by rintro rfl; simp at l2; omega
  obtain ⟨l3, l4⟩ := addPolynomials_length (q := q) n r l1 hne
  refine ⟨Dense.addPolynomials q r, by simp [columnSum, r1], l3, l4, fun j hj => ?_⟩
  rw [← poly_coeff, Dense.addPolynomials_poly, r2]
  have : List.zipWith (fun (w : Int) p => C (w : ZMod q) * poly q p) w
      ((List.range m).map fun i => (List.range n).map fun j => M j i) =
      (List.range m).map fun i => C (assign q w i) * poly q ((List.range n).map fun j => M j i) := by
    refine List.ext_getElem (by simp [hw]) fun i h1 h2 => ?_
    have hi : i < w.length := by simp at h1; omega
    simp [assign, List.getD_eq_getElem _ _ hi, hi]
  rw [this, list_sum_range, finset_sum_coeff]
  refine Finset.sum_congr rfl fun i _ => ?_
  rw [coeff_C_mul, poly_coeff, List.getD_eq_getElem _ _ (by simpa using hj)]; simp

theorem gPoints_spec (H : Laws api q g1 g2) {v : List Int} (hv : Canon q v) (j : Nat) (hj : j < v.length) :
    (((gPoints api v).getD j 0 : Int) : ZMod q) = gxOf api q g1 ((v.getD j 0 : Int) : ZMod q) := by
  have hj' : j < (gPoints api v).length := by simpa [gPoints] using hj
  rw [List.getD_eq_getElem _ _ hj', List.getD_eq_getElem _ _ hj]
  have hc := hv _ (List.getElem_mem hj)
  simp only [gPoints, List.getElem_map, gxOf]
  rw [H.base1 _ hc.1]
  have : (((v[j] : Int) : ZMod q).val : Int) = v[j] := by
    rw [ZMod.val_intCast, Int.emod_eq_of_lt hc.1 hc.2]
  congr 2
  conv_lhs => rw [← this]
  exact natCast_zsmul _ _

theorem combine_spec (H : Laws api q g1 g2) (r : R1CS (List Int)) (hr : r.rows ≠ [])
    (hn : r.rows.length ≤ q) (hm : 0 < r.index.length) (hrect : Rectangular List.length r.index.length r.rows)
    (w : List Int) (hw : w.length = r.index.length) :
    ∃ tr px, transposeR1CS r = some tr ∧ combinePolynomials api q w tr = some px ∧
      poly q px = (denseSys q r).comb (gxOf api q g1) (assign q w) ∧ px.length = 2 * r.rows.length - 1 ∧ Canon q px := by
  have hq : 0 < q := (Fact.out : q.Prime).pos
  have hl := List.length_pos_iff.2 hr
  have key : ∀ M : Nat → Nat → Int, ∃ l, ((columnSum q ((List.range r.index.length).map fun i =>
      (List.range r.rows.length).map fun j => M j i) w).bind (interp q)) = some l ∧ l.length = r.rows.length ∧
      poly q l = ∑ i ∈ Finset.range r.index.length, C (assign q w i) * through r.rows.length (fun j => ((M j i : Int) : ZMod q)) := by
    intro M
    obtain ⟨v, v1, v2, v3, v4⟩ := columnSum_spec (q := q) r.rows.length r.index.length M w hw hm
    obtain ⟨l, l1, l2, -, l3⟩ := interp_spec (q := q) v (by omega)
    refine ⟨l, by rw [v1, Option.bind_some, l1], by omega, ?_⟩
    rw [l3, through_sum, v2]
    exact through_congr fun j hj => v4 j hj
  obtain ⟨l, l1, l2, l3⟩ := key (entryOf (r.rows.map Row.L))
  obtain ⟨rr, r1, r2, r3⟩ := key (entryOf (r.rows.map Row.R))
  obtain ⟨o, o1, o2, o3⟩ := key (entryOf (r.rows.map Row.O))
  obtain ⟨e, e1, e2, e3, e4⟩ := columnSum_spec (q := q) r.rows.length r.index.length (entryOf (r.rows.map Row.E)) w hw hm
  have hgl : (gPoints api e).length = r.rows.length := by simp [gPoints, e2]
  obtain ⟨g, h1, h2, -, h3⟩ := interp_spec (q := q) (gPoints api e) (by omega)
  obtain ⟨a, a1⟩ := Dense.mul_isSome (q := q) (a := l) (b := rr) (Or.inl (by rintro rfl; simp at l2; omega))
  refine ⟨_, Dense.sub q (Dense.add q a g) o, transposeR1CS_spec r hr hrect, ?_, ?_, ?_, Dense.sub_canon hq _ _⟩
  · unfold combinePolynomials
    simp only [Option.bind_eq_bind]
    rw [l1, Option.bind_some, r1, Option.bind_some, e1, Option.bind_some, o1, Option.bind_some, h1, Option.bind_some, a1]
    rfl
  · rw [Dense.sub_poly, Dense.add_poly, Dense.mul_poly a1, l3, r3, o3, h3]
    unfold Sys.comb Sys.col
    congr 2
    rw [hgl]
    refine through_congr fun j hj => ?_
    rw [gPoints_spec H e3 j (by omega), e4 j hj]; rfl
  · rw [Dense.sub_length, Dense.add_length, Dense.mul_length a1, l2, r2, o2, h2, hgl]; omega

theorem divLoop_canon (b : List Int) : ∀ (n : Nat) (r rem : List Int) (x : List Int × List Int), rem.length = n →
    Canon q r → Canon q rem → Dense.divLoop q b r rem = some x → Canon q x.1 ∧ Canon q x.2 := by
  have hq : 0 < q := (Fact.out : q.Prime).pos
  intro n
  induction n with
  | zero =>
    intro r rem x hn h1 h2 h
    rw [Dense.divLoop, dif_neg (by omega)] at h
    split at h
    · exact absurd h (by simp)
    · obtain rfl := Option.some.inj h; exact ⟨h1, h2⟩
  | succ n ih =>
    intro r rem x hn h1 h2 h
    rw [Dense.divLoop] at h
    split at h
    · rename_i hlen
      split at h
      · exact absurd h (by simp)
      · rename_i l hl
        simp only [] at h
        split at h
        · exact absurd h (by simp)
        · rename_i m hm
          refine ih _ _ x ?_ ?_ ?_ h
          · have hml : m.length = rem.length := by rw [Dense.mul_length hm]; simp [Dense.zeros]; omega
            simp [Dense.sub_length, hml]; omega
          · exact Dense.canon_set h1 _ _ (div_range hq hl)
          · intro y hy
            exact Dense.sub_canon hq _ _ y (List.mem_of_mem_take hy)
    · split at h
      · exact absurd h (by simp)
      · obtain rfl := Option.some.inj h; exact ⟨h1, h2⟩

theorem div_vanish {n : Nat} {d px : List Int} (hd : poly q d = vanish q n) (hdl : d.length = n + 1)
    (hlead : d.getD n 0 = 1) (hpx : n ≤ px.length) (hc : Canon q px) :
    ∃ qt rm, Dense.div q px d = some (qt, rm) ∧ poly q qt = poly q px /ₘ vanish q n ∧
      poly q rm = poly q px %ₘ vanish q n ∧ qt.length = px.length - n ∧ Canon q qt ∧ Canon q rm := by
  have hq : 0 < q := (Fact.out : q.Prime).pos
  have hdne : d ≠ [] := by rintro rfl; simp at hdl
  have hl : ((d.getD (d.length - 1) 0 : Int) : ZMod q) ≠ 0 := by rw [hdl, Nat.add_sub_cancel, hlead]; simp
  obtain ⟨qt, rm, h1, h2, h3, h4⟩ := Dense.divLoop_spec d hdne hl px.length (Dense.zeros (px.length + 1 - d.length)) px rfl
    (by simp [Dense.zeros]; omega) (fun i _ => getD_zeros _ _)
  have hdiv : Dense.div q px d = some (qt, rm) := by unfold Dense.div; rw [if_neg (by omega)]; exact h1
  obtain ⟨c1, c2⟩ := divLoop_canon d px.length _ px (qt, rm) rfl (Dense.canon_zeros hq _) hc h1
  have hdeg : (poly q rm).degree < (vanish q n).degree := by
    rw [degree_eq_natDegree (vanish_monic n).ne_zero, vanish_natDegree]
    refine lt_of_lt_of_le (poly_degree_lt rm) ?_
    exact_mod_cast (by omega : rm.length ≤ n)
  have huni := div_modByMonic_unique (f := poly q px) (g := vanish q n) (poly q qt) (poly q rm) (vanish_monic n) ⟨by
    rw [← hd, add_comm, mul_comm]
    have : poly q (Dense.zeros (px.length + 1 - d.length)) = 0 := poly_zeros _
    rw [this, zero_mul, zero_add] at h2
    exact h2.symm, hdeg⟩
  exact ⟨qt, rm, hdiv, huni.1.symm, huni.2.symm, by rw [h4]; simp [Dense.zeros]; omega, c1, c2⟩

theorem isZeroArray_iff {v : List Int} (hc : Canon q v) : Dense.isZeroArray v = true ↔ poly q v = 0 := by
  unfold Dense.isZeroArray
  rw [List.all_eq_true]
  constructor
  · intro h
    ext i
    rw [poly_coeff]
    by_cases hi : i < v.length
    · rw [List.getD_eq_getElem _ _ hi]
      have := h _ (List.getElem_mem hi)
      simp at this; simp [this]
    · rw [List.getD_eq_default _ _ (by omega)]; simp
  · intro h x hx
    obtain ⟨i, hi, rfl⟩ := List.getElem_of_mem hx
    have : (poly q v).coeff i = 0 := by rw [h]; simp
    rw [poly_coeff, List.getD_eq_getElem _ _ hi, ZMod.intCast_zmod_eq_zero_iff_dvd] at this
    have hb := hc _ (List.getElem_mem hi)
    simp only [beq_iff_eq]
    exact Int.eq_zero_of_dvd_of_nonneg_of_lt hb.1 hb.2 this

end APS.Snark
