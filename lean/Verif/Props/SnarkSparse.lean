import Verif.Proofs.SnarkSparse
import Verif.Props.SnarkAttacks

/-! Property C55 (and C49, C54 for the sparse pipeline). -/
namespace APS
open Polynomial APS.Spec APS.Snark APS.Circuit APS.Avl APS.Avl.Tree

variable {G1 G2 GT : Type} [AddCommGroup G1] [AddCommGroup G2] [AddCommGroup GT]

theorem sat_sparse {q : Nat} [Fact q.Prime] (r : R1CS Tree) (gx : ZMod q → ZMod q) (w : List Int) (hw : w.length = r.index.length) :
    (∀ row ∈ r.rows, SatS q gx w row) ↔ (sparseSys q r).Sat gx (assign q w) := by
  have key : ∀ j (hj : j < r.rows.length), SatS q gx w r.rows[j] ↔ (sparseSys q r).SatGate gx (assign q w) j := by
    intro j hj
    have hrow : ∀ f : Row Tree → Tree, (r.rows.map f).getD j nil = f r.rows[j] := by
      intro f; rw [List.getD_eq_getElem _ _ (by simpa using hj)]; simp
    have hd : ∀ f : Row Tree → Tree, dot q (sparseEntry (f r.rows[j])) w =
        rowVal r.index.length (fun j i => ((sparseEntry ((r.rows.map f).getD j nil) i : Int) : ZMod q)) (assign q w) j := by
      intro f
      unfold dot rowVal assign
      rw [hw]
      refine Finset.sum_congr rfl fun i _ => ?_
      show _ = _ * ((sparseEntry ((r.rows.map f).getD j nil) i : Int) : ZMod q)
      rw [hrow]; ring
    unfold SatS RowSat Sys.SatGate
    rw [hd Row.L, hd Row.R, hd Row.E, hd Row.O]; rfl
  constructor
  · intro h j hj; exact (key j hj).1 (h _ (List.getElem_mem hj))
  · intro h row hrow
    obtain ⟨j, hj, rfl⟩ := List.getElem_of_mem hrow
    exact (key j hj).2 (h j hj)

/-- C54 for the sparse pipeline: with not more gates than wires, the sparse prover returns a proof exactly for satisfying
witnesses - one-gate systems included; the division ends within twice the number of gates. -/
theorem C54_sparse_total {q : Nat} (hp : q.Prime) {api : Api G1 G2 GT} {g1 : G1} {g2 : G2} (H : Laws api q g1 g2)
    {pub : Nat} {r : R1CS Tree} {w : List Int} (hu : UsableS q pub r w) (tox : Toxic) (ht : ToxicOK q tox)
    (fuel : Nat) (hf : 2 * r.rows.length ≤ fuel) :
    (∃ res, honestRunSparse api q fuel pub r tox w = some res) ↔ ∀ row ∈ r.rows, SatS q (gxOf api q g1) w row := by
  have := Fact.mk hp
  obtain ⟨tr, t1, t2, t3, hL, hR, hE, hO⟩ := transposeR1CSS_spec r hu.rect
  obtain ⟨pk, s1, s2⟩ := trustedSetupSparse_spec H r hu ht t2 t3 hL hR hE hO
  obtain ⟨px, p1, p2, p3, p4⟩ := combineS_spec H r hu t3 hL hR hE hO
  obtain ⟨⟨k1, k2⟩, -⟩ := sparse_core H (S := sparseSys q r) s2 hu.rows (hu.gates.trans hu.small) hu.pub0 hu.pub (secrets_ne tox ht).1
    (secrets_ne tox ht).2 w hu.wlen hu.wnonneg px p2 p3 p4 fuel hf
  rw [sat_sparse r _ w hu.wlen]
  have hrun : honestRunSparse api q fuel pub r tox w = (generateProofSparse api q fuel pub pk w px).bind fun pf => some (pk, pf) := by
    unfold honestRunSparse
    simp only [Option.bind_eq_bind]
    rw [t1, Option.bind_some, s1, Option.bind_some, p1, Option.bind_some]; rfl
  constructor
  · rintro ⟨res, hres⟩
    by_contra hs
    rw [hrun, k2 hs] at hres; simp at hres
  · intro hs
    obtain ⟨pf, hpf⟩ := k1 hs
    exact ⟨(pk, pf), by rw [hrun, hpf]; rfl⟩

/-- C55: the verdict on the honest proof of the sparse pipeline, for every system with not more gates than wires, every
satisfying witness and all setup randomness (no coincidences in the in-place additions): the key interpolates each column
over as many points as there are wires, the prover divides by the polynomial of the gates, and the proof is accepted if and
only if the two happen to agree at the secret point. -/
theorem C55_exact {q : Nat} [Fact q.Prime] {api : Api G1 G2 GT} {g1 : G1} {g2 : G2} (H : Laws api q g1 g2)
    {pub : Nat} {r : R1CS Tree} {w : List Int} (hu : UsableS q pub r w) (tox : Toxic) (ht : ToxicOK q tox)
    (fuel : Nat) (hf : 2 * r.rows.length ≤ fuel) (hsat : ∀ row ∈ r.rows, SatS q (gxOf api q g1) w row)
    (hsafe : (sparseSys q r).SafeSparse (gxOf api q g1) pub (secretsOf q tox) (assign q w)) :
    ∃ pk pf, honestRunSparse api q fuel pub r tox w = some (pk, pf) ∧
      verifyProof api pk pf (w.take pub) = some (decide (
        (sparseSys q r).wideVal (sparseSys q r).L (assign q w) tox.x * (sparseSys q r).wideVal (sparseSys q r).R (assign q w) tox.x +
          gxOf api q g1 ((sparseSys q r).wideVal (sparseSys q r).E (assign q w) tox.x) -
          (sparseSys q r).wideVal (sparseSys q r).O (assign q w) tox.x =
        ((sparseSys q r).comb (gxOf api q g1) (assign q w)).eval (tox.x : ZMod q))) := by
  obtain ⟨tr, t1, t2, t3, hL, hR, hE, hO⟩ := transposeR1CSS_spec r hu.rect
  obtain ⟨pk, s1, s2⟩ := trustedSetupSparse_spec H r hu ht t2 t3 hL hR hE hO
  obtain ⟨px, p1, p2, p3, p4⟩ := combineS_spec H r hu t3 hL hR hE hO
  obtain ⟨-, k3⟩ := sparse_core H (S := sparseSys q r) s2 hu.rows (hu.gates.trans hu.small) hu.pub0 hu.pub (secrets_ne tox ht).1
    (secrets_ne tox ht).2 w hu.wlen hu.wnonneg px p2 p3 p4 fuel hf
  obtain ⟨pf, e1, e2⟩ := k3 ((sat_sparse r _ w hu.wlen).1 hsat) hsafe
  refine ⟨pk, pf, ?_, e2⟩
  unfold honestRunSparse
  simp only [Option.bind_eq_bind]
  rw [t1, Option.bind_some, s1, Option.bind_some, p1, Option.bind_some, e1]; rfl

/-- C55 (partial): when there are exactly as many gates as wires, the domains agree and (without base multiplication)
the honest proof of the sparse pipeline is accepted.  Missing: every other number of gates, see `C55_refuted`. -/
theorem C55_same_size_partial {q : Nat} [Fact q.Prime] {api : Api G1 G2 GT} {g1 : G1} {g2 : G2} (H : Laws api q g1 g2)
    {pub : Nat} {r : R1CS Tree} {w : List Int} (hu : UsableS q pub r w) (hn : r.rows.length = r.index.length)
    (hE : ∀ row ∈ r.rows, ∀ i, (q : Int) ∣ sparseEntry row.E i) (tox : Toxic) (ht : ToxicOK q tox)
    (fuel : Nat) (hf : 2 * r.rows.length ≤ fuel) (hsat : ∀ row ∈ r.rows, SatS q (gxOf api q g1) w row)
    (hsafe : (sparseSys q r).SafeSparse (gxOf api q g1) pub (secretsOf q tox) (assign q w)) :
    ∃ pk pf, honestRunSparse api q fuel pub r tox w = some (pk, pf) ∧ verifyProof api pk pf (w.take pub) = some true := by
  obtain ⟨pk, pf, h1, h2⟩ := C55_exact H hu tox ht fuel hf hsat hsafe
  refine ⟨pk, pf, h1, ?_⟩
  rw [h2]
  have hnm : (sparseSys q r).n = (sparseSys q r).m := hn
  have hw : ∀ M, (sparseSys q r).wideVal M (assign q w) tox.x = Sys_val (sparseSys q r) M (assign q w) tox.x := by
    intro M
    unfold Sys.wideVal Sys_val Sys.wide Sys.col
    rw [hnm]
  have hz : ∀ j i, (sparseSys q r).E j i = 0 := by
    intro j i
    simp only [sparseSys]
    by_cases hj : j < r.rows.length
    · rw [List.getD_eq_getElem (r.rows.map Row.E) _ (by simpa using hj)]
      simp only [List.getElem_map]
      exact (ZMod.intCast_zmod_eq_zero_iff_dvd _ _).2 (hE _ (List.getElem_mem hj) _)
    · rw [List.getD_eq_default (r.rows.map Row.E) _ (by simpa using hj)]; simp [sparseEntry, Tree.get]
  have hr0 : ∀ j, rowVal (sparseSys q r).m (sparseSys q r).E (assign q w) j = 0 := fun j => by simp [rowVal, hz]
  rw [hw, hw, hw, hw, comb_eval_secret, Sys_val_through (sparseSys q r) (sparseSys q r).E]
  simp only [hr0, gxOf_zero H]
  have ht0 : through (q := q) (sparseSys q r).n (fun _ => 0) = 0 :=
    (Lagrange.interpolate (Finset.range (sparseSys q r).n) (fun j : Nat => (j : ZMod q))).map_zero
  rw [ht0]; simp [gxOf_zero H]

/-- with as many gates as wires the two pipelines add up the same exponents -/
theorem safeSparse_of_safe {q : Nat} [Fact q.Prime] {S : Sys q} (hn : S.n = S.m) (h0 : 0 < S.n) (hs : S.n ≤ q)
    {gx : ZMod q → ZMod q} {pub : Nat} {t : Secrets q} {w : Nat → ZMod q} (h : S.Safe gx pub t w) :
    S.SafeSparse gx pub t w := by
  have hcol : ∀ M i, ((S.keySys t.x).col (fun _ i => S.wide M t.x i) i).eval t.x = (S.col M i).eval t.x := by
    intro M i
    rw [keySys_col S hs h0]
    unfold Sys.wide Sys.col
    rw [hn]
  have hL := hcol S.L
  have hR := hcol S.R
  have hE := hcol S.E
  have hO := hcol S.O
  have hm : ∀ i, (S.keySys t.x).mix t i = S.mix t i := by
    intro i
    unfold Sys.mix
    rw [show ((S.keySys t.x).col (S.keySys t.x).L i).eval t.x = _ from hL i,
      show ((S.keySys t.x).col (S.keySys t.x).R i).eval t.x = _ from hR i,
      show ((S.keySys t.x).col (S.keySys t.x).E i).eval t.x = _ from hE i,
      show ((S.keySys t.x).col (S.keySys t.x).O i).eval t.x = _ from hO i]
  refine ⟨?_, ?_, ?_, h.Q, ?_, ?_⟩
  · have := h.A
    unfold Sys.seqA at this ⊢
    have e : (fun i => w i * (((S.keySys t.x).col (S.keySys t.x).E i).eval t.x + ((S.keySys t.x).col (S.keySys t.x).L i).eval t.x)) =
        fun i => w i * ((S.col S.E i).eval t.x + (S.col S.L i).eval t.x) := funext fun i => by
      rw [show ((S.keySys t.x).col (S.keySys t.x).L i).eval t.x = _ from hL i,
        show ((S.keySys t.x).col (S.keySys t.x).E i).eval t.x = _ from hE i]
    rw [e]; exact this
  · have := h.B
    unfold Sys.seqB at this ⊢
    have e : (fun i => w i * ((S.keySys t.x).col (S.keySys t.x).R i).eval t.x) =
        fun i => w i * (S.col S.R i).eval t.x := funext fun i => by
      rw [show ((S.keySys t.x).col (S.keySys t.x).R i).eval t.x = _ from hR i]
    rw [e]; exact this
  · have := h.F
    unfold Sys.seqF at this ⊢
    have e : (fun i => w i * ((S.keySys t.x).col (S.keySys t.x).E i).eval t.x) =
        fun i => w i * (S.col S.E i).eval t.x := funext fun i => by
      rw [show ((S.keySys t.x).col (S.keySys t.x).E i).eval t.x = _ from hE i]
    rw [e]; exact this
  · have := h.C
    unfold Sys.seqC at this ⊢
    simp only [hm]; exact this
  · have := h.pub
    unfold Sys.seqPub at this ⊢
    simp only [hm]; exact this

/-- two gates on two wires: `x*x = 3x` and `(1+x)*1 = 4`, solved by `x = 3` -/
def sqSparseSys : R1CS Tree where
  index := [(['o'], 0), (['x'], 1)]
  split := []
  rows := [⟨node nil 1 1 1 nil, node nil 1 1 1 nil, nil, node nil 1 3 1 nil⟩,
    ⟨node nil 0 1 2 (node nil 1 1 1 nil), node nil 0 1 1 nil, nil, node nil 0 4 1 nil⟩]

theorem sparseRow_of {m : Nat} (t : Tree) (h1 : ∀ e ∈ t.ascendingNodes, e.1 < m ∧ e.2 ≠ 0) (h2 : BST t) : SparseRow m t := by
  have hi : Inv t := ⟨h2, fun e he => (h1 e he).2⟩
  exact ⟨hi, fun i h0 => (h1 (i, t.val i) ((mem_toList_iff hi _ _).2 ⟨h0, rfl⟩)).1⟩

/-- the hypotheses of C54 (sparse), C55_exact and C55_same_size_partial hold for a concrete system -/
example : UsableS 101 1 sqSparseSys [1, 3] ∧ sqSparseSys.rows.length = sqSparseSys.index.length ∧
    (∀ row ∈ sqSparseSys.rows, ∀ i, ((101 : Nat) : Int) ∣ sparseEntry row.E i) ∧ ToxicOK 101 toxEx ∧
    (∀ row ∈ sqSparseSys.rows, SatS 101 (gxOf (toyApi 101) 101 (1 : ZMod 101)) [1, 3] row) ∧
    (sparseSys 101 sqSparseSys).SafeSparse (gxOf (toyApi 101) 101 (1 : ZMod 101)) 1 (secretsOf 101 toxEx) (assign 101 [1, 3]) := by
  have hsat : ∀ row ∈ sqSparseSys.rows, SatS 101 (gxOf (toyApi 101) 101 (1 : ZMod 101)) [1, 3] row := by
    unfold SatS RowSat
    decide +kernel
  refine ⟨⟨by decide, by decide, by decide, ?_, by decide, by decide, by decide, by decide⟩, rfl, ?_, toxEx_ok, hsat, ?_⟩
  · intro row hrow
    rcases List.mem_cons.1 hrow with rfl | hrow
    rotate_left
    rcases List.mem_cons.1 hrow with rfl | hrow
    rotate_left
    · exact absurd hrow List.not_mem_nil
    all_goals
      exact ⟨sparseRow_of _ (by decide +kernel) (by unfold BST; decide +kernel), sparseRow_of _ (by decide +kernel) (by unfold BST; decide +kernel),
        sparseRow_of _ (by decide +kernel) (by unfold BST; decide +kernel), sparseRow_of _ (by decide +kernel) (by unfold BST; decide +kernel)⟩
  · intro row hrow i
    rcases List.mem_cons.1 hrow with rfl | hrow
    · simp [sparseEntry, Tree.get]
    rcases List.mem_cons.1 hrow with rfl | hrow
    · simp [sparseEntry, Tree.get]
    · exact absurd hrow List.not_mem_nil
  · refine safeSparse_of_safe rfl (by decide) (by decide) ?_
    refine safe_two' _ rfl _ _ _ _ ?_ (by decide) (by decide)
      (fun M i => M 0 i + (M 1 i - M 0 i) * 5) (fun _ _ => rfl)
      (fun i => 7 * ((sparseSys 101 sqSparseSys).R 0 i + ((sparseSys 101 sqSparseSys).R 1 i - (sparseSys 101 sqSparseSys).R 0 i) * 5) +
        11 * ((sparseSys 101 sqSparseSys).L 0 i + ((sparseSys 101 sqSparseSys).L 1 i - (sparseSys 101 sqSparseSys).L 0 i) * 5) +
        11 * ((sparseSys 101 sqSparseSys).E 0 i + ((sparseSys 101 sqSparseSys).E 1 i - (sparseSys 101 sqSparseSys).E 0 i) * 5) +
        ((sparseSys 101 sqSparseSys).O 0 i + ((sparseSys 101 sqSparseSys).O 1 i - (sparseSys 101 sqSparseSys).O 0 i) * 5)) (fun _ => rfl)
      (by decide +kernel) (by decide +kernel) (by decide +kernel) (by decide +kernel) (by decide +kernel)
    exact (sat_sparse sqSparseSys _ _ rfl).1 hsat

/-- the sparse form of `cubeSys` -/
def cubeSparse : Option (R1CS Tree) := do
  let rows ← cubeSys.rows.mapM fun row => do
    let l ← fromArray row.L
    let r ← fromArray row.R
    let e ← fromArray row.E
    let o ← fromArray row.O
    pure (⟨l, r, e, o⟩ : Row Tree)
  pure ⟨cubeSys.index, [], rows⟩

/-- C55: the sparse pipeline is not correct: the program `z = x*x; y = z*x` (2 gates, 4 wires), a satisfying witness and
well-formed rows; the same constraints are accepted by the dense pipeline with the same setup randomness, the honest sparse
proof is rejected. -/
theorem C55_refuted : ∃ r, cubeSparse = some r ∧ UsableS 101 2 r [1, 27, 3, 9] ∧ ToxicOK 101 toxEx ∧
    (∀ row ∈ r.rows, SatS 101 (gxOf (toyApi 101) 101 (1 : ZMod 101)) [1, 27, 3, 9] row) ∧
    ((honestRun (toyApi 101) 101 2 cubeSys toxEx [1, 27, 3, 9]).bind fun x =>
      verifyProof (toyApi 101) x.1 x.2 [1, 27]) = some true ∧
    ((honestRunSparse (toyApi 101) 101 8 2 r toxEx [1, 27, 3, 9]).bind fun x =>
      verifyProof (toyApi 101) x.1 x.2 [1, 27]) = some false := by
  refine ⟨_, rfl, ?_, toxEx_ok, ?_, by decide +kernel, by decide +kernel⟩
  · refine ⟨by decide, by decide, by decide, ?_, by decide, by decide, by decide, by decide⟩
    have hk : ∀ (t : Tree), (∀ e ∈ t.ascendingNodes, e.1 < 4 ∧ e.2 ≠ 0) → BST t → SparseRow 4 t := by
      intro t h1 h2
      have hi : Inv t := ⟨h2, fun e he => (h1 e he).2⟩
      exact ⟨hi, fun i h0 => (h1 (i, t.val i) ((mem_toList_iff hi _ _).2 ⟨h0, rfl⟩)).1⟩
    intro row hrow
    rcases List.mem_cons.1 hrow with rfl | hrow
    rotate_left
    rcases List.mem_cons.1 hrow with rfl | hrow
    rotate_left
    · exact absurd hrow List.not_mem_nil
    all_goals
      exact ⟨hk _ (by decide +kernel) (by unfold BST; decide +kernel), hk _ (by decide +kernel) (by unfold BST; decide +kernel),
        hk _ (by decide +kernel) (by unfold BST; decide +kernel), hk _ (by decide +kernel) (by unfold BST; decide +kernel)⟩
  · unfold SatS RowSat
    decide +kernel

end APS
