import Verif.Proofs.SnarkVerify

/-! The honest dense run, end to end. -/
namespace APS.Snark
open Polynomial APS.Spec APS.Circuit

variable {q : Nat} [Fact q.Prime]
variable {G1 G2 GT : Type} [AddCommGroup G1] [AddCommGroup G2] [AddCommGroup GT] {api : Api G1 G2 GT}
  {g1 : G1} {g2 : G2}

theorem dot_rowVal (e : Nat → Int) (w : List Int) (m : Nat) (hw : w.length = m) (M : Nat → Nat → ZMod q) (j : Nat)
    (h : ∀ i, M j i = (e i : ZMod q)) : dot q e w = rowVal m M (assign q w) j := by
  unfold dot rowVal assign
  rw [hw]
  exact Finset.sum_congr rfl fun i _ => by rw [h]; ring

theorem sat_dense (r : R1CS (List Int)) (gx : ZMod q → ZMod q) (w : List Int) (hw : w.length = r.index.length) :
    (∀ row ∈ r.rows, SatD q gx w row) ↔ (denseSys q r).Sat gx (assign q w) := by
  have key : ∀ j (hj : j < r.rows.length), (SatD q gx w r.rows[j] ↔ (denseSys q r).SatGate gx (assign q w) j) := by
    intro j hj
    unfold SatD RowSat Sys.SatGate
    have hg : ∀ f : Row (List Int) → List Int, (r.rows.map f).getD j [] = f r.rows[j] := by
      intro f; rw [List.getD_eq_getElem _ _ (by simpa using hj)]; simp
    rw [dot_rowVal (denseEntry r.rows[j].L) w _ hw (denseSys q r).L j (fun i => by simp only [denseSys]; rw [hg]),
      dot_rowVal (denseEntry r.rows[j].R) w _ hw (denseSys q r).R j (fun i => by simp only [denseSys]; rw [hg]),
      dot_rowVal (denseEntry r.rows[j].E) w _ hw (denseSys q r).E j (fun i => by simp only [denseSys]; rw [hg]),
      dot_rowVal (denseEntry r.rows[j].O) w _ hw (denseSys q r).O j (fun i => by simp only [denseSys]; rw [hg])]
    rfl
  constructor
  · intro h j hj
    exact (key j hj).1 (h _ (List.getElem_mem hj))
  · intro h row hrow
    obtain ⟨j, hj, rfl⟩ := List.getElem_of_mem hrow
    exact (key j hj).2 (h j hj)

theorem scaleAll_total {G : Type} (mul : G → Int → G) : ∀ (bs : List G) (ks : List Int), ks.length ≤ bs.length →
    ∃ r, scaleAll mul bs ks = some r ∧ r.length = ks.length
  | _, [], _ => ⟨[], by simp [scaleAll], rfl⟩
  | [], _ :: _, h => by simp at h
  | b :: bs, k :: ks, h => by
    obtain ⟨r, h1, h2⟩ := scaleAll_total mul bs ks (by simpa using h)
    exact ⟨mul b k :: r, by simp [scaleAll, h1], by simp [h2]⟩

theorem accumulate_total {G : Type} (addTo : G → G → G) {ts : List G} (h : 0 < ts.length) :
    ∃ r, accumulate addTo ts = some r := by
  cases ts with
  | nil => simp at h
  | cons t ts => exact ⟨_, rfl⟩

theorem scaleAcc_total {G : Type} (mul : G → Int → G) (addTo : G → G → G) (bs : List G) (ks : List Int)
    (h : ks.length ≤ bs.length) (h0 : 0 < ks.length) : ∃ r, (scaleAll mul bs ks).bind (accumulate addTo) = some r := by
  obtain ⟨r, h1, h2⟩ := scaleAll_total mul bs ks h
  obtain ⟨a, ha⟩ := accumulate_total addTo (ts := r) (by omega)
  exact ⟨a, by rw [h1, Option.bind_some, ha]⟩

theorem proofFrom_total {S : Sys q} {pub : Nat} {t : Secrets q} {pk : Pk G1 G2 GT} {H : Laws api q g1 g2}
    (hpk : PkOK H S pub t pk) (hpub : pub < S.m) (w : List Int) (hw : w.length = S.m) (qd : G1) :
    ∃ pf, proofFrom api pub pk w qd = some pf := by
  obtain ⟨a, ha⟩ := scaleAcc_total api.mul1 api.addTo1 pk.LE w (by rw [hpk.LE]; simp [hw]) (by omega)
  obtain ⟨b, hb⟩ := scaleAcc_total api.mul2 api.addTo2 pk.Rx w (by rw [hpk.Rx]; simp [hw]) (by omega)
  obtain ⟨c, hc⟩ := scaleAcc_total api.mul1 api.addTo1 pk.rleoDelta (w.drop pub) (by rw [hpk.rleoDelta]; simp [hw])
    (by simp; omega)
  obtain ⟨f, hf⟩ := scaleAcc_total api.mul1 api.addTo1 pk.Ex w (by rw [hpk.Ex]; simp [hw]) (by omega)
  exact ⟨⟨api.addTo1 a pk.alpha, b, api.addTo1 c qd, f⟩, by unfold proofFrom; rw [ha, hb, hc, hf]; rfl⟩

theorem assign_take (w : List Int) (p i : Nat) (h : i < p) : assign q (w.take p) i = assign q w i := by
  unfold assign
  rw [List.getD_eq_getElem?_getD, List.getElem?_take_of_lt h, ← List.getD_eq_getElem?_getD]

theorem comb_eval_secret (S : Sys q) (gx : ZMod q → ZMod q) (w : Nat → ZMod q) (x : ZMod q) :
    (S.comb gx w).eval x = Sys_val S S.L w x * Sys_val S S.R w x +
      (through S.n (fun j => gx (rowVal S.m S.E w j))).eval x - Sys_val S S.O w x := by
  unfold Sys.comb Sys_val
  simp [eval_finset_sum]

/-- everything about the honest dense run from a key with the right exponents -/
theorem honest_core (H : Laws api q g1 g2) {S : Sys q} {pub : Nat} {t : Secrets q} {pk : Pk G1 G2 GT}
    (hpk : PkOK H S pub t pk) (hn2 : 2 ≤ S.n) (hnq : S.n ≤ q) (hpub0 : 0 < pub) (hpub : pub < S.m)
    (hg : t.gamma ≠ 0) (hd : t.delta ≠ 0) (w : List Int) (hw : w.length = S.m) (hc : ∀ k ∈ w, 0 ≤ k)
    (px : List Int) (hpx : poly q px = S.comb (gxOf api q g1) (assign q w)) (hpl : px.length = 2 * S.n - 1)
    (hpc : Canon q px) :
    ((S.Sat (gxOf api q g1) (assign q w) → ∃ pf, generateProofs api q pub pk w px = some pf) ∧
     (¬ S.Sat (gxOf api q g1) (assign q w) → generateProofs api q pub pk w px = none)) ∧
    (S.Sat (gxOf api q g1) (assign q w) → S.Safe (gxOf api q g1) pub t (assign q w) →
      ∃ pf, generateProofs api q pub pk w px = some pf ∧
        verifyProof api pk pf (w.take pub) = some (decide (gxOf api q g1 (Sys_val S S.E (assign q w) t.x) =
          (through S.n (fun j => gxOf api q g1 (rowVal S.m S.E (assign q w) j))).eval t.x)) ∧
        pf.A = expo q g1 H.order1 (Sys_val S S.E (assign q w) t.x + Sys_val S S.L (assign q w) t.x + t.alpha) ∧
        pf.B = expo q g2 H.order2 (Sys_val S S.R (assign q w) t.x)) := by
  obtain ⟨qt, rm, e1, e2, e3, e4, e5, e6⟩ := div_vanish (n := S.n) hpk.dom hpk.domLen hpk.domLead (by omega) hpc
  have hqd : ∃ qd, (scaleAll api.mul1 pk.powersXDD qt).bind (accumulate api.addTo1) = some qd :=
    scaleAcc_total _ _ _ _ (by rw [hpk.powersXDD]; simp; omega) (by omega)
  have hz : Dense.isZeroArray rm = true ↔ S.Sat (gxOf api q g1) (assign q w) := by
    rw [isZeroArray_iff e6, e3, ← comb_dvd_iff S hnq, hpx, modByMonic_eq_zero_iff_dvd (vanish_monic _)]
  have hgen : generateProofs api q pub pk w px = if Dense.isZeroArray rm then
      ((scaleAll api.mul1 pk.powersXDD qt).bind (accumulate api.addTo1)).bind (proofFrom api pub pk w) else none := by
    unfold generateProofs
    simp only [Option.bind_eq_bind]
    rw [e1, Option.bind_some]
  refine ⟨⟨fun hs => ?_, fun hs => ?_⟩, fun hs hsafe => ?_⟩
  · obtain ⟨qd, hqd⟩ := hqd
    rw [hgen, if_pos (hz.2 hs), hqd, Option.bind_some]
    exact proofFrom_total hpk hpub w hw qd
  · rw [hgen, if_neg (fun h => hs (hz.1 h))]
  · set Q := S.comb (gxOf api q g1) (assign q w) /ₘ vanish q S.n with hQ
    have hqdeg : Q.degree < ((S.n - 1 : Nat) : WithBot Nat) := by
      rw [hQ, ← hpx, ← e2]
      refine lt_of_lt_of_le (poly_degree_lt qt) ?_
      exact_mod_cast (by omega : qt.length ≤ S.n - 1)
    have hsc : scaleAll api.mul1 pk.powersXDD qt = some ((seqQ S.n (S.n - 1) t Q).map (expo q g1 H.order1)) := by
      rw [hpk.powersXDD, scaleAll_spec (mul1_expo H) _ _ (by simp; omega) (fun k hk => (e5 k hk).1)]
      congr 2
      refine List.ext_getElem (by simp [seqQ]; omega) fun i h1 h2 => ?_
      have hi : i < qt.length := by simp at h1; omega
      simp only [List.getElem_zipWith, List.getElem_map, List.getElem_range, seqQ]
      rw [hQ, ← hpx, ← e2, poly_coeff, List.getD_eq_getElem _ _ hi]
    have hne : seqQ S.n (S.n - 1) t Q ≠ [] := by
      intro h; have := congrArg List.length h; simp [seqQ] at this; omega
    have hacc := accumulate_safe (expo1_inj H) H.addTo1 hne hsafe.Q
    rw [sum_seqQ _ _ _ _ hqdeg] at hacc
    have hpf := proofFrom_spec H hpk hpub w hw hc Q hsafe.A hsafe.B hsafe.F hsafe.C
    refine ⟨_, by rw [hgen, if_pos (hz.2 hs), hsc, Option.bind_some, hacc, Option.bind_some]; exact hpf, ?_,
      by rw [← sum_seqA], by rw [← sum_seqB]⟩
    have hsp : SafeSeq (S.seqPub pub t (assign q (w.take pub))) := by
      have : S.seqPub pub t (assign q (w.take pub)) = S.seqPub pub t (assign q w) := by
        unfold Sys.seqPub
        refine List.map_congr_left fun i hi => ?_
        rw [assign_take w pub i (by simpa using hi)]
      rw [this]; exact hsafe.pub
    rw [verify_expo H hpk _ _ _ _ (w.take pub) (fun k hk => hc k (List.mem_of_mem_take hk)) (by simp; omega) hpub0 hsp hg]
    congr 1
    have hsig : (∑ i ∈ Finset.range pub, assign q (w.take pub) i * S.mix t i) =
        ∑ i ∈ Finset.range pub, assign q w i * S.mix t i :=
      Finset.sum_congr rfl fun i hi => by rw [assign_take w pub i (by simpa using hi)]
    have hdiv : Q.eval t.x * (vanish q S.n).eval t.x = (S.comb (gxOf api q g1) (assign q w)).eval t.x := by
      have := (comb_dvd_iff S hnq (gxOf api q g1) (assign q w)).2 hs
      have h2 := modByMonic_add_div (S.comb (gxOf api q g1) (assign q w)) (vanish q S.n)
      rw [(modByMonic_eq_zero_iff_dvd (vanish_monic _)).2 this, zero_add, ← hQ] at h2
      rw [← h2, eval_mul, mul_comm]
    rw [hsig, sum_seqC _ _ hpub.le _ hd, sum_seqA, sum_seqB, sum_seqF, hdiv, comb_eval_secret, sum_mix]
    rw [decide_eq_decide]
    constructor
    · intro h; linear_combination h
    · intro h; linear_combination h

end APS.Snark
