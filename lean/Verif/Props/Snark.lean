import Verif.Proofs.SnarkForge

/-! Properties C49 - C54, C56: the proof system (zkSNARK/wol19.go), dense pipeline. -/
namespace APS
open Polynomial APS.Spec APS.Snark APS.Circuit

/-! ### a concrete API: all groups are `ZMod q`, the pairing is multiplication, `X(k) = k²` -/

/-- a toy instance of the group interface -/
def toyApi (q : Nat) : Api (ZMod q) (ZMod q) (ZMod q) where
  base1 k := k
  base2 k := k
  mul1 a k := k * a
  mul2 a k := k * a
  mulT a k := k * a
  addTo1 a b := a + b
  addTo2 a b := a + b
  addFresh2 a b := a + b
  addT a b := a + b
  x1 a := ((a * a).val : Int)
  pair a b := a * b
  eqT a b := decide (a = b)

/-- the same, but adding a point to itself in place gives the neutral element -/
def brokenApi (q : Nat) : Api (ZMod q) (ZMod q) (ZMod q) :=
  { toyApi q with addTo1 := fun a b => if a = b then 0 else a + b }

theorem toy_laws (q : Nat) [NeZero q] : Laws (toyApi q) q (1 : ZMod q) (1 : ZMod q) where
  order1 := by simp
  order2 := by simp
  base1 k _ := by simp [toyApi]
  base2 k _ := by simp [toyApi]
  mul1 a k _ := by simp [toyApi]
  mul2 a k _ := by simp [toyApi]
  mulT a k _ := by simp [toyApi]
  addTo1 a b _ := rfl
  addTo2 a b _ := rfl
  addFresh2 a b := rfl
  addT a b := rfl
  x1_zero := by simp [toyApi]
  x1_nonneg a := Int.natCast_nonneg _
  pair k l := by simp [toyApi]
  orderT := by simp [toyApi, ZMod.addOrderOf_one]
  eqT a b := by simp [toyApi]

theorem broken_laws (q : Nat) [NeZero q] : Laws (brokenApi q) q (1 : ZMod q) (1 : ZMod q) :=
  { toy_laws q with
    addTo1 := by
      intro a b h
      simp only [brokenApi]
      by_cases e : a = b
      · rw [if_pos e]; rcases h with h | h
        · exact absurd e h
        · rw [← e, h]; simp
      · rw [if_neg e] }

variable {G1 G2 GT : Type} [AddCommGroup G1] [AddCommGroup G2] [AddCommGroup GT]

theorem usable_rect {q pub : Nat} {r : R1CS (List Int)} {w : List Int} (h : Usable q pub r w) :
    Rectangular List.length r.index.length r.rows := h.rect

theorem usable_ne {q pub : Nat} {r : R1CS (List Int)} {w : List Int} (h : Usable q pub r w) : r.rows ≠ [] :=
  List.length_pos_iff.1 h.rows

theorem secrets_ne {q : Nat} (t : Toxic) (h : ToxicOK q t) : (secretsOf q t).gamma ≠ 0 ∧ (secretsOf q t).delta ≠ 0 := by
  have hnz : ∀ a : Int, 0 < a ∧ a < q → (a : ZMod q) ≠ 0 := fun a ha =>
    cast_ne_zero_of_not_dvd (fun hd => by have := Int.le_of_dvd ha.1 hd; omega)
  exact ⟨hnz _ h.gamma, hnz _ h.delta⟩

/-! ### C49 -/

/-- C49: the combined polynomial computed by `CombinePolynomials2` is divisible by `X(X-1)..(X-(n-1))` exactly when the
witness satisfies every constraint; `Div` by the domain polynomial of the key then leaves an all-zero remainder slice, and
otherwise a remainder that is not all zero. -/
theorem C49_divisible {q : Nat} (hp : q.Prime) {api : Api G1 G2 GT} {g1 : G1} {g2 : G2} (H : Laws api q g1 g2)
    {pub : Nat} {r : R1CS (List Int)} {w : List Int} (hu : Usable q pub r w) :
    ∃ tr px dom qx rem, transposeR1CS r = some tr ∧ combinePolynomials api q w tr = some px ∧
      Dense.domainPolynomial q r.rows.length = some dom ∧ Dense.div q px dom = some (qx, rem) ∧
      ((∀ row ∈ r.rows, SatD q (gxOf api q g1) w row) ↔ (∏ j ∈ Finset.range r.rows.length, (X - C (j : ZMod q))) ∣ poly q px) ∧
      ((∀ row ∈ r.rows, SatD q (gxOf api q g1) w row) ↔ Dense.isZeroArray rem = true) := by
  have := Fact.mk hp
  have hm : 0 < r.index.length := lt_of_le_of_lt (Nat.zero_le _) hu.pub
  obtain ⟨tr, px, t1, t2, t3, t4, t5⟩ := combine_spec (q := q) H r (usable_ne hu) hu.small hm (usable_rect hu) w hu.wlen
  obtain ⟨d, d1, d2, d3, -, d5, -⟩ := C09_domainPolynomial q hp r.rows.length hu.rows
  obtain ⟨qt, rm, e1, e2, e3, e4, e5, e6⟩ := div_vanish (q := q) (n := r.rows.length) d2 d3 d5
    (by have := hu.rows; omega) t5
  refine ⟨tr, px, d, qt, rm, t1, t2, d1, e1, ?_, ?_⟩
  · rw [sat_dense r _ w hu.wlen, ← comb_dvd_iff (denseSys q r) hu.small, t3]; rfl
  · rw [sat_dense r _ w hu.wlen, ← comb_dvd_iff (denseSys q r) hu.small, isZeroArray_iff e6, e3, t3,
      modByMonic_eq_zero_iff_dvd (vanish_monic _)]; rfl

/-! ### the honest run -/

/-- C54 (partial): with at least two gates `GenerateProofs` returns a proof exactly for the satisfying witnesses (and
refuses, by panic, all others).  Missing: systems with one gate, see `C54_single_gate_refuted`. -/
theorem C54_total_partial {q : Nat} (hp : q.Prime) {api : Api G1 G2 GT} {g1 : G1} {g2 : G2} (H : Laws api q g1 g2)
    {pub : Nat} {r : R1CS (List Int)} {w : List Int} (hu : Usable q pub r w) (h2 : 2 ≤ r.rows.length) (tox : Toxic)
    (ht : ToxicOK q tox) :
    (∃ res, honestRun api q pub r tox w = some res) ↔ ∀ row ∈ r.rows, SatD q (gxOf api q g1) w row := by
  have := Fact.mk hp
  have hm : 0 < r.index.length := lt_of_le_of_lt (Nat.zero_le _) hu.pub
  obtain ⟨tr, px, t1, t2, t3, t4, t5⟩ := combine_spec (q := q) H r (usable_ne hu) hu.small hm (usable_rect hu) w hu.wlen
  obtain ⟨tr', pk, s1, s2, s3⟩ := trustedSetup_spec (q := q) H r (usable_ne hu) hu.small (usable_rect hu) pub hu.pub ht
  obtain rfl : tr = tr' := by rw [t1] at s1; exact Option.some.inj s1
  obtain ⟨⟨k1, k2⟩, -⟩ := honest_core H s3 h2 hu.small hu.pub0 hu.pub (secrets_ne tox ht).1 (secrets_ne tox ht).2 w hu.wlen
    hu.wnonneg px t3 t4 t5
  rw [sat_dense r _ w hu.wlen]
  have hrun : honestRun api q pub r tox w = (generateProofs api q pub pk w px).bind fun pf => some (pk, pf) := by
    unfold honestRun
    simp only [Option.bind_eq_bind]
    rw [t1, Option.bind_some, s2, Option.bind_some, t2, Option.bind_some]; rfl
  constructor
  · rintro ⟨res, hres⟩
    by_contra hs
    rw [hrun, k2 hs] at hres; simp at hres
  · intro hs
    obtain ⟨pf, hpf⟩ := k1 hs
    exact ⟨(pk, pf), by rw [hrun, hpf]; rfl⟩

/-- C51: what happens with the honest proof of a satisfying witness, for every system, witness and setup randomness (at
least two gates, no coincidences in the in-place additions): it is accepted if and only if the x-coordinate of
`g^(E(x))` happens to equal `G(x)`, where `E` interpolates the exponents and `G` interpolates the x-coordinates. -/
theorem C51_exact {q : Nat} [Fact q.Prime] {api : Api G1 G2 GT} {g1 : G1} {g2 : G2} (H : Laws api q g1 g2)
    {pub : Nat} {r : R1CS (List Int)} {w : List Int} (hu : Usable q pub r w) (h2 : 2 ≤ r.rows.length) (tox : Toxic)
    (ht : ToxicOK q tox) (hsat : ∀ row ∈ r.rows, SatD q (gxOf api q g1) w row)
    (hsafe : (denseSys q r).Safe (gxOf api q g1) pub (secretsOf q tox) (assign q w)) :
    ∃ pk pf, honestRun api q pub r tox w = some (pk, pf) ∧
      verifyProof api pk pf (w.take pub) = some (decide (
        gxOf api q g1 ((denseSys q r).expAt (assign q w) tox.x) =
        (through r.rows.length (fun j => gxOf api q g1 (rowVal r.index.length (denseSys q r).E (assign q w) j))).eval
          (tox.x : ZMod q))) := by
  have hm : 0 < r.index.length := lt_of_le_of_lt (Nat.zero_le _) hu.pub
  obtain ⟨tr, px, t1, t2, t3, t4, t5⟩ := combine_spec (q := q) H r (usable_ne hu) hu.small hm (usable_rect hu) w hu.wlen
  obtain ⟨tr', pk, s1, s2, s3⟩ := trustedSetup_spec (q := q) H r (usable_ne hu) hu.small (usable_rect hu) pub hu.pub ht
  obtain rfl : tr = tr' := by rw [t1] at s1; exact Option.some.inj s1
  obtain ⟨-, k3⟩ := honest_core H s3 h2 hu.small hu.pub0 hu.pub (secrets_ne tox ht).1 (secrets_ne tox ht).2 w hu.wlen
    hu.wnonneg px t3 t4 t5
  obtain ⟨pf, p1, p2, -⟩ := k3 ((sat_dense r _ w hu.wlen).1 hsat) hsafe
  refine ⟨pk, pf, ?_, p2⟩
  unfold honestRun
  simp only [Option.bind_eq_bind]
  rw [t1, Option.bind_some, s2, Option.bind_some, t2, Option.bind_some, p1]; rfl

theorem noExp_zero {q : Nat} {r : R1CS (List Int)} (hE : NoExp q r) : ∀ j i, (denseSys q r).E j i = 0 := by
  intro j i
  simp only [denseSys, denseEntry]
  by_cases hj : j < r.rows.length
  · rw [List.getD_eq_getElem (r.rows.map Row.E) _ (by simpa using hj)]
    by_cases hi : i < (r.rows[j]).E.length
    · rw [List.getD_eq_getElem _ _ (by simpa using hi)]
      simp only [List.getElem_map]
      exact (ZMod.intCast_zmod_eq_zero_iff_dvd _ _).2 (hE _ (List.getElem_mem hj) _ (List.getElem_mem hi))
    · rw [List.getD_eq_default _ _ (by simpa using hi)]; simp
  · rw [List.getD_eq_default (r.rows.map Row.E) _ (by simpa using hj)]; simp

/-- C50 (partial): a system without base multiplication, at least two gates, any satisfying witness, any setup
randomness: the honest proof is accepted - provided none of the in-place point additions adds a point to itself.
Missing: those coincidences, see `C50_in_place_addition_refuted`. -/
theorem C50_complete_partial {q : Nat} [Fact q.Prime] {api : Api G1 G2 GT} {g1 : G1} {g2 : G2} (H : Laws api q g1 g2)
    {pub : Nat} {r : R1CS (List Int)} {w : List Int} (hu : Usable q pub r w) (h2 : 2 ≤ r.rows.length) (hE : NoExp q r)
    (tox : Toxic) (ht : ToxicOK q tox) (hsat : ∀ row ∈ r.rows, SatD q (gxOf api q g1) w row)
    (hsafe : (denseSys q r).Safe (gxOf api q g1) pub (secretsOf q tox) (assign q w)) :
    ∃ pk pf, honestRun api q pub r tox w = some (pk, pf) ∧ verifyProof api pk pf (w.take pub) = some true := by
  obtain ⟨pk, pf, h1, h2⟩ := C51_exact H hu h2 tox ht hsat hsafe
  refine ⟨pk, pf, h1, ?_⟩
  rw [h2]
  have hz : ∀ j i, (denseSys q r).E j i = 0 := noExp_zero hE
  have hr0 : ∀ j, rowVal r.index.length (denseSys q r).E (assign q w) j = 0 := fun j => by simp [rowVal, hz]
  have ht0 : through (q := q) r.rows.length (fun _ => 0) = 0 := by
    have := (Lagrange.interpolate (Finset.range r.rows.length) (fun j : Nat => (j : ZMod q))).map_zero
    exact this
  have he : (denseSys q r).expAt (assign q w) tox.x = 0 := by
    unfold Sys.expAt Sys.col
    refine Finset.sum_eq_zero fun i _ => ?_
    have : (fun j => (denseSys q r).E j i) = fun _ => 0 := by funext j; exact hz j i
    rw [this]
    have hn : (denseSys q r).n = r.rows.length := rfl
    rw [hn, ht0]; simp
  simp only [hr0, he, gxOf_zero H, ht0]; simp

/-! ### concrete systems with two gates -/

theorem safeSeq_iff {q : Nat} (l : List (ZMod q)) :
    SafeSeq l ↔ ∀ k < l.length, 0 < k → (l.take k).sum = l.getD k 0 → (l.take k).sum = 0 :=
  ⟨fun h k hk h0 => h k h0 hk, fun h k h0 hk => h k hk h0⟩

instance {q : Nat} (l : List (ZMod q)) : Decidable (SafeSeq l) := decidable_of_iff _ (safeSeq_iff l).symm

theorem through_two {q : Nat} [Fact q.Prime] (v : Nat → ZMod q) (x : ZMod q) :
    (through 2 v).eval x = v 0 + (v 1 - v 0) * x := by
  have hp : q.Prime := Fact.out
  have : C (v 0) + C (v 1 - v 0) * X = through 2 v := by
    refine through_unique hp.two_le ?_ ?_
    · refine lt_of_le_of_lt (degree_add_le _ _) (max_lt ?_ ?_)
      · exact lt_of_le_of_lt degree_C_le (by norm_num)
      · exact lt_of_le_of_lt (degree_C_mul_X_le _) (by norm_num)
    · intro j hj
      interval_cases j <;> simp
  rw [← this]; simp

theorem safe_two {q : Nat} [Fact q.Prime] (S : Sys q) (hn : S.n = 2) (gx : ZMod q → ZMod q) (pub : Nat) (t : Secrets q)
    (w : Nat → ZMod q) (hs : S.Sat gx w)
    (hA : SafeSeq (S.seqA t w)) (hB : SafeSeq (S.seqB t w)) (hF : SafeSeq (S.seqF t w)) (hP : SafeSeq (S.seqPub pub t w))
    (hC : SafeSeq ((List.range' pub (S.m - pub)).map (fun i => w i * (t.delta⁻¹ * S.mix t i)) ++
      [t.delta⁻¹ * (S.comb gx w).eval t.x])) : S.Safe gx pub t w where
  A := hA
  B := hB
  F := hF
  pub := hP
  Q := by
    rw [hn]
    intro k h0 hk
    simp [seqQ] at hk
    omega
  C := by
    have hdvd := (comb_dvd_iff S (by rw [hn]; exact (Fact.out : q.Prime).two_le) gx w).2 hs
    have h2 := modByMonic_add_div (S.comb gx w) (vanish q S.n)
    rw [(modByMonic_eq_zero_iff_dvd (vanish_monic _)).2 hdvd, zero_add] at h2
    have h3 := congrArg (eval t.x) h2
    rw [eval_mul] at h3
    unfold Sys.seqC
    have : (S.comb gx w /ₘ vanish q S.n).eval t.x * (t.delta⁻¹ * (vanish q S.n).eval t.x) =
        t.delta⁻¹ * (S.comb gx w).eval t.x := by rw [← h3]; ring
    rw [this]; exact hC

theorem col_two {q : Nat} [Fact q.Prime] (S : Sys q) (hn : S.n = 2) (M : Nat → Nat → ZMod q) (i : Nat) (x : ZMod q) :
    (S.col M i).eval x = M 0 i + (M 1 i - M 0 i) * x := by
  unfold Sys.col; rw [hn, through_two]

/-- decidable form of `Safe` for two gates -/
theorem safe_two' {q : Nat} [Fact q.Prime] (S : Sys q) (hn : S.n = 2) (gx : ZMod q → ZMod q) (pub : Nat) (t : Secrets q)
    (w : Nat → ZMod q) (hs : S.Sat gx w) (hd : t.delta = 1) (hg : t.gamma = 1) (v : (Nat → Nat → ZMod q) → Nat → ZMod q)
    (hv : ∀ M i, v M i = M 0 i + (M 1 i - M 0 i) * t.x)
    (mix : Nat → ZMod q) (hmix : ∀ i, mix i = t.alpha * v S.R i + t.beta * v S.L i + t.beta * v S.E i + v S.O i)
    (hA : SafeSeq ((List.range S.m).map (fun i => w i * (v S.E i + v S.L i)) ++ [t.alpha]))
    (hB : SafeSeq ((List.range S.m).map (fun i => w i * v S.R i)))
    (hF : SafeSeq ((List.range S.m).map (fun i => w i * v S.E i)))
    (hP : SafeSeq ((List.range pub).map (fun i => w i * mix i)))
    (hC : SafeSeq ((List.range' pub (S.m - pub)).map (fun i => w i * mix i) ++
      [(∑ i ∈ Finset.range S.m, w i * v S.L i) * (∑ i ∈ Finset.range S.m, w i * v S.R i) +
        (gx (rowVal S.m S.E w 0) + (gx (rowVal S.m S.E w 1) - gx (rowVal S.m S.E w 0)) * t.x) -
        ∑ i ∈ Finset.range S.m, w i * v S.O i])) : S.Safe gx pub t w := by
  have hcol : ∀ M i, (S.col M i).eval t.x = v M i := fun M i => by rw [col_two S hn, hv]
  have hm : ∀ i, S.mix t i = mix i := fun i => by rw [hmix]; simp [Sys.mix, hcol]
  refine safe_two S hn gx pub t w hs ?_ ?_ ?_ ?_ ?_
  · simpa only [Sys.seqA, hcol] using hA
  · simpa only [Sys.seqB, hcol] using hB
  · simpa only [Sys.seqF, hcol] using hF
  · simpa only [Sys.seqPub, hm, hg, inv_one, one_mul] using hP
  · rw [comb_eval_secret, hn, through_two]
    simpa only [Sys_val, hcol, hm, hd, inv_one, one_mul] using hC

instance snarkPrime101 : Fact (Nat.Prime 101) := ⟨by norm_num⟩

/-- `z = x*x; y = z*x`: wires one, y (public), x, z -/
def cubeSys : R1CS (List Int) where
  index := [(['o'], 0), (['y'], 1), (['x'], 2), (['z'], 3)]
  split := []
  rows := [⟨[0, 0, 1, 0], [0, 0, 1, 0], [0, 0, 0, 0], [0, 0, 0, 1]⟩, ⟨[0, 0, 0, 1], [0, 0, 1, 0], [0, 0, 0, 0], [0, 1, 0, 0]⟩]

/-- setup randomness of the examples -/
def toxEx : Toxic := ⟨5, 7, 11, 1, 1⟩

theorem cube_usable : Usable 101 2 cubeSys [1, 27, 3, 9] := by
  constructor <;> decide

theorem cube_sat (gx : ZMod 101 → ZMod 101) (h0 : gx 0 = 0) :
    ∀ row ∈ cubeSys.rows, SatD 101 gx [1, 27, 3, 9] row := by
  have h1 : ∀ row ∈ cubeSys.rows, dot 101 (denseEntry row.E) [1, 27, 3, 9] = 0 := by decide
  have h2 : ∀ row ∈ cubeSys.rows, dot 101 (denseEntry row.L) [1, 27, 3, 9] * dot 101 (denseEntry row.R) [1, 27, 3, 9] =
    dot 101 (denseEntry row.O) [1, 27, 3, 9] := by decide
  intro row hrow
  unfold SatD RowSat
  rw [h1 row hrow, h0, add_zero, h2 row hrow]

theorem toxEx_ok : ToxicOK 101 toxEx := by constructor <;> decide

theorem cube_safe : (denseSys 101 cubeSys).Safe (gxOf (toyApi 101) 101 (1 : ZMod 101)) 2 (secretsOf 101 toxEx)
    (assign 101 [1, 27, 3, 9]) := by
  refine safe_two' _ rfl _ _ _ _ ?_ (by decide) (by decide)
    (fun M i => M 0 i + (M 1 i - M 0 i) * 5) (fun _ _ => rfl)
    (fun i => 7 * ((denseSys 101 cubeSys).R 0 i + ((denseSys 101 cubeSys).R 1 i - (denseSys 101 cubeSys).R 0 i) * 5) +
      11 * ((denseSys 101 cubeSys).L 0 i + ((denseSys 101 cubeSys).L 1 i - (denseSys 101 cubeSys).L 0 i) * 5) +
      11 * ((denseSys 101 cubeSys).E 0 i + ((denseSys 101 cubeSys).E 1 i - (denseSys 101 cubeSys).E 0 i) * 5) +
      ((denseSys 101 cubeSys).O 0 i + ((denseSys 101 cubeSys).O 1 i - (denseSys 101 cubeSys).O 0 i) * 5)) (fun _ => rfl)
    (by decide) (by decide) (by decide) (by decide) (by decide +kernel)
  exact (sat_dense cubeSys _ _ rfl).1 (cube_sat _ (by decide))

/-- the hypotheses of C49, C50, C51 and C54 hold for a concrete system, and the run can be computed -/
example : Usable 101 2 cubeSys [1, 27, 3, 9] ∧ 2 ≤ cubeSys.rows.length ∧ NoExp 101 cubeSys ∧ ToxicOK 101 toxEx ∧
    Laws (toyApi 101) 101 (1 : ZMod 101) (1 : ZMod 101) ∧
    (∀ row ∈ cubeSys.rows, SatD 101 (gxOf (toyApi 101) 101 (1 : ZMod 101)) [1, 27, 3, 9] row) ∧
    (denseSys 101 cubeSys).Safe (gxOf (toyApi 101) 101 (1 : ZMod 101)) 2 (secretsOf 101 toxEx) (assign 101 [1, 27, 3, 9]) :=
  ⟨cube_usable, by decide, by unfold NoExp; decide, toxEx_ok, toy_laws 101, cube_sat _ (by decide), cube_safe⟩

example : ((honestRun (toyApi 101) 101 2 cubeSys toxEx [1, 27, 3, 9]).bind fun x =>
    verifyProof (toyApi 101) x.1 x.2 [1, 27]) = some true := by decide +kernel
example : ((honestRun (toyApi 101) 101 2 cubeSys toxEx [1, 27, 3, 9]).bind fun x =>
    verifyProof (toyApi 101) x.1 x.2 [1, 28]) = some false := by decide +kernel
example : (honestRun (toyApi 101) 101 2 cubeSys toxEx [1, 28, 3, 9]).isNone = true := by decide +kernel

/-! ### C50: coincidences in the in-place addition -/

/-- `(1+x)*y = z; (1+x)*1 = 2` with `x = 1`: wires one, z (public), x, y -/
def twiceSys : R1CS (List Int) where
  index := [(['o'], 0), (['z'], 1), (['x'], 2), (['y'], 3)]
  split := []
  rows := [⟨[1, 0, 1, 0], [0, 0, 0, 1], [0, 0, 0, 0], [0, 1, 0, 0]⟩, ⟨[1, 0, 1, 0], [1, 0, 0, 0], [0, 0, 0, 0], [2, 0, 0, 0]⟩]

/-- C50: without the proviso about in-place additions completeness fails: for a group API that satisfies all the laws
(but mishandles `a.Add(a, a)`, as bn256.go:88 admits) the honest proof of a satisfying witness is rejected. -/
theorem C50_in_place_addition_refuted :
    Laws (brokenApi 101) 101 (1 : ZMod 101) (1 : ZMod 101) ∧ Usable 101 2 twiceSys [1, 6, 1, 3] ∧ NoExp 101 twiceSys ∧
    ToxicOK 101 toxEx ∧ (∀ row ∈ twiceSys.rows, SatD 101 (gxOf (brokenApi 101) 101 (1 : ZMod 101)) [1, 6, 1, 3] row) ∧
    ((honestRun (brokenApi 101) 101 2 twiceSys toxEx [1, 6, 1, 3]).bind fun x =>
      verifyProof (brokenApi 101) x.1 x.2 [1, 6]) = some false := by
  refine ⟨broken_laws 101, by constructor <;> decide, by unfold NoExp; decide, toxEx_ok, ?_, by decide +kernel⟩
  unfold SatD RowSat
  decide

/-! ### C54: one gate -/

/-- C54: proof generation crashes (index out of range at `Qx[0]`) for EVERY system with exactly one gate, whatever the
witness and the setup randomness. -/
theorem C54_single_gate_refuted {q : Nat} (hp : q.Prime) {api : Api G1 G2 GT} {g1 : G1} {g2 : G2} (H : Laws api q g1 g2)
    {pub : Nat} {r : R1CS (List Int)} {w : List Int} (hu : Usable q pub r w) (h1 : r.rows.length = 1) (tox : Toxic)
    (ht : ToxicOK q tox) : honestRun api q pub r tox w = none := by
  have := Fact.mk hp
  have hm : 0 < r.index.length := lt_of_le_of_lt (Nat.zero_le _) hu.pub
  obtain ⟨tr, px, t1, t2, t3, t4, t5⟩ := combine_spec (q := q) H r (usable_ne hu) hu.small hm (usable_rect hu) w hu.wlen
  obtain ⟨tr', pk, s1, s2, s3⟩ := trustedSetup_spec (q := q) H r (usable_ne hu) hu.small (usable_rect hu) pub hu.pub ht
  obtain rfl : tr = tr' := by rw [t1] at s1; exact Option.some.inj s1
  have hn : (denseSys q r).n = 1 := h1
  obtain ⟨qt, rm, e1, e2, e3, e4, e5, e6⟩ := div_vanish (n := (denseSys q r).n) s3.dom s3.domLen s3.domLead (by omega) t5
  have hq0 : qt = [] := List.length_eq_zero_iff.1 (by omega)
  unfold honestRun
  simp only [Option.bind_eq_bind]
  rw [t1, Option.bind_some, s2, Option.bind_some, t2, Option.bind_some]
  unfold generateProofs
  simp only [Option.bind_eq_bind]
  rw [e1, Option.bind_some, hq0]
  split <;> simp [scaleAll, accumulate]

/-- a satisfied one-gate system meets the hypotheses: `x*x = y` with `y = 9`, `x = 3` -/
example : Usable 101 2 ⟨[(['o'], 0), (['y'], 1), (['x'], 2)], [], [⟨[0, 0, 1], [0, 0, 1], [0, 0, 0], [0, 1, 0]⟩]⟩ [1, 9, 3] ∧
    SatD 101 (gxOf (toyApi 101) 101 (1 : ZMod 101)) [1, 9, 3] ⟨[0, 0, 1], [0, 0, 1], [0, 0, 0], [0, 1, 0]⟩ := by
  refine ⟨by constructor <;> decide, ?_⟩
  unfold SatD RowSat
  decide

end APS
