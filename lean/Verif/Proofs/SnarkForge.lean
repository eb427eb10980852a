import Verif.Proofs.SnarkHonest

/-! Forged proofs. -/
namespace APS.Snark
open Polynomial APS.Spec APS.Circuit

variable {q : Nat} [Fact q.Prime]
variable {G1 G2 GT : Type} [AddCommGroup G1] [AddCommGroup G2] [AddCommGroup GT] {api : Api G1 G2 GT}
  {g1 : G1} {g2 : G2}

theorem zipWith_expo {G : Type} [AddCommGroup G] {g : G} (h : q • g = 0) : ∀ (ks : List Int) (bs : List (ZMod q)),
    (List.zipWith (fun (c : Int) p => c • p) ks (bs.map (expo q g h))).sum =
      expo q g h (List.zipWith (fun (k : Int) b => (k : ZMod q) * b) ks bs).sum
  | [], _ => by simp
  | _ :: _, [] => by simp
  | k :: ks, b :: bs => by simp [zipWith_expo h ks bs, expo_smul]

/-- the polynomial identity behind a forgery -/
noncomputable def shiftComb (S : Sys q) (gx : ZMod q → ZMod q) (k : ZMod q) (w : Nat → ZMod q) : (ZMod q)[X] :=
  (through S.n (fun j => rowVal S.m S.L w j) + through S.n (fun j => rowVal S.m S.E w j) - C k) *
    through S.n (fun j => rowVal S.m S.R w j) + C (gx k) - through S.n (fun j => rowVal S.m S.O w j)

theorem shiftComb_dvd (S : Sys q) (hn : S.n ≤ q) (gx : ZMod q → ZMod q) (k : ZMod q) (w : Nat → ZMod q)
    (h : S.ShiftSat gx k w) : vanish q S.n ∣ shiftComb S gx k w := by
  rw [vanish_dvd_iff hn]
  intro j hj
  unfold shiftComb
  simp [through_eval hn _ hj, h j hj]

theorem exists_list (n : Nat) (Q : (ZMod q)[X]) (hQ : Q.degree < n) : ∃ qs : List Int, qs.length = n ∧ poly q qs = Q := by
  refine ⟨(List.range n).map fun k => ((Q.coeff k).val : Int), by simp, ?_⟩
  ext i
  rw [poly_coeff]
  by_cases hi : i < n
  · rw [List.getD_eq_getElem _ _ (by simpa using hi)]; simp
  · rw [List.getD_eq_default _ _ (by simp; omega), coeff_eq_zero_of_degree_lt]
    · simp
    · exact lt_of_lt_of_le hQ (by exact_mod_cast (by omega : n ≤ i))

theorem Sys_val_through (S : Sys q) (M : Nat → Nat → ZMod q) (w : Nat → ZMod q) (x : ZMod q) :
    Sys_val S M w x = (through S.n (fun j => rowVal S.m M w j)).eval x := by
  unfold Sys_val Sys.col
  rw [← through_sum, eval_finset_sum]
  simp

theorem degree_shiftComb (S : Sys q) (hn : S.n ≤ q) (h0 : 0 < S.n) (gx : ZMod q → ZMod q) (k : ZMod q) (w : Nat → ZMod q) :
    (shiftComb S gx k w).degree < ((2 * S.n : Nat) : WithBot Nat) := by
  have ht : ∀ v : Nat → ZMod q, (through S.n v).natDegree ≤ S.n - 1 := by
    intro v
    by_cases hz : through S.n v = 0
    · rw [hz]; simp
    · have := (natDegree_lt_iff_degree_lt hz).2 (through_degree hn v); omega
  refine lt_of_le_of_lt degree_le_natDegree ?_
  have : (shiftComb S gx k w).natDegree ≤ 2 * S.n - 2 := by
    unfold shiftComb
    refine (natDegree_sub_le _ _).trans (max_le ?_ ((ht _).trans (by omega)))
    refine (natDegree_add_le _ _).trans (max_le ?_ (by simp))
    refine natDegree_mul_le.trans ?_
    have h1 := ht (fun j => rowVal S.m S.R w j)
    have h2 : (through S.n (fun j => rowVal S.m S.L w j) + through S.n (fun j => rowVal S.m S.E w j) - C k).natDegree ≤ S.n - 1 := by
      refine (natDegree_sub_le _ _).trans (max_le ?_ (by simp))
      exact (natDegree_add_le _ _).trans (max_le (ht _) (ht _))
    omega
  exact_mod_cast (by omega : (shiftComb S gx k w).natDegree < 2 * S.n)

theorem forge_core (H : Laws api q g1 g2) (S : Sys q) (hn0 : 0 < S.n) (hnq : S.n ≤ q) (pub : Nat) (hpub0 : 0 < pub)
    (hpub : pub < S.m) (w : List Int) (hw : w.length = S.m) (hc : ∀ k ∈ w, 0 ≤ k) (k : Int)
    (hs : S.ShiftSat (gxOf api q g1) k (assign q w)) :
    ∃ qs : List Int, ∀ (t : Secrets q) (pk : Pk G1 G2 GT), t.gamma ≠ 0 → t.delta ≠ 0 → PkOK H S pub t pk →
      SafeSeq (S.seqPub pub t (assign q w)) → verifyProof api pk (forge pk pub w k qs) (w.take pub) = some true := by
  obtain ⟨Q, hQ⟩ := shiftComb_dvd S hnq _ _ _ hs
  have hQd : Q.degree < (S.n : WithBot Nat) := by
    have hd := degree_shiftComb S hnq hn0 (gxOf api q g1) k (assign q w)
    rw [hQ, degree_mul, degree_eq_natDegree (vanish_monic S.n).ne_zero, vanish_natDegree] at hd
    by_cases h0 : Q = 0
    · subst h0; simp
    · rw [degree_eq_natDegree h0] at hd ⊢
      have : S.n + Q.natDegree < 2 * S.n := by exact_mod_cast hd
      exact_mod_cast (by omega : Q.natDegree < S.n)
  obtain ⟨qs, l1, l2⟩ := exists_list S.n Q hQd
  refine ⟨qs, fun t pk hg hd hpk hsafe => ?_⟩
  have hsq : (List.zipWith (fun (k : Int) b => (k : ZMod q) * b) qs
      ((List.range S.n).map fun k => t.x ^ k * (t.delta⁻¹ * (vanish q S.n).eval t.x))).sum =
      Q.eval t.x * (t.delta⁻¹ * (vanish q S.n).eval t.x) := by
    rw [zipWith_range qs S.n l1, ← sum_seqQ S.n S.n t Q hQd]
    unfold seqQ
    congr 1
    refine List.map_congr_left fun i hi => ?_
    rw [← l2, poly_coeff]; rfl
  have hF : (List.zipWith (fun (k : Int) b => (k : ZMod q) * b) [k] ((List.range S.n).map fun k => t.x ^ k)).sum = k := by
    obtain ⟨n, hn⟩ : ∃ n, S.n = n + 1 := ⟨S.n - 1, by omega⟩
    rw [hn, List.range_succ_eq_map]; simp
  have hform : forge pk pub w k qs = ⟨expo q g1 H.order1 (S.seqA t (assign q w)).sum,
      expo q g2 H.order2 (S.seqB t (assign q w)).sum, expo q g1 H.order1 (S.seqC pub t (assign q w) Q).sum,
      expo q g1 H.order1 (k : ZMod q)⟩ := by
    unfold forge
    rw [hpk.LE, hpk.Rx, hpk.rleoDelta, hpk.powersXDD, hpk.powersX1, hpk.alpha]
    simp only [zipWith_expo]
    rw [hF, hsq, zipWith_range w _ hw, zipWith_range w _ hw, zipWith_range' w _ _ hw]
    simp only [← map_add, Sys.seqA, Sys.seqB, Sys.seqC, List.sum_append, List.sum_singleton]
  have hsp : SafeSeq (S.seqPub pub t (assign q (w.take pub))) := by
    have : S.seqPub pub t (assign q (w.take pub)) = S.seqPub pub t (assign q w) := by
      unfold Sys.seqPub
      refine List.map_congr_left fun i hi => ?_
      rw [assign_take w pub i (by simpa using hi)]
    rw [this]; exact hsafe
  have hsig : (∑ i ∈ Finset.range pub, assign q (w.take pub) i * S.mix t i) =
      ∑ i ∈ Finset.range pub, assign q w i * S.mix t i :=
    Finset.sum_congr rfl fun i hi => by rw [assign_take w pub i (by simpa using hi)]
  rw [hform, verify_expo H hpk _ _ _ _ (w.take pub) (fun k hk => hc k (List.mem_of_mem_take hk)) (by simp; omega) hpub0 hsp hg]
  rw [hsig, sum_seqC _ _ hpub.le _ hd, sum_seqA, sum_seqB, sum_mix]
  have he := congrArg (eval t.x) hQ
  rw [eval_mul] at he
  unfold shiftComb at he
  simp only [eval_add, eval_sub, eval_mul, eval_C, ← Sys_val_through] at he
  congr 1
  rw [decide_eq_true_iff]
  linear_combination he

end APS.Snark
