import Verif.Proofs.BnFast
import Verif.Props.SnarkAttacks

/-! Totality and forgeries for objects that represent group elements. -/
namespace APS.Snark
open Polynomial APS.Spec APS.Circuit

variable {q : Nat} [Fact q.Prime] {A1 A2 AT : Type} {raw : Api A1 A2 AT} {R1 : A1 → ZMod q → Prop} {R2 : A2 → ZMod q → Prop}
  {RT : AT → ZMod q → Prop} {ok : A2 → Prop} {X : ZMod q → Int}

theorem scale_some {A : Type} (mul : A → Int → A) (bs : List A) (ks : List Int) (h : ks.length ≤ bs.length) (hne : ks ≠ [])
    (addTo : A → A → A) : ∃ a, (scaleAll mul bs ks).bind (accumulate addTo) = some a := by
  rw [scaleAll_eq mul bs ks h, Option.bind_some]
  match bs, ks, h, hne with
  | b :: bs, k :: ks, _, _ => exact ⟨_, rfl⟩
  | [], k :: ks, h, _ => simp at h

/-- proof generation succeeds exactly for the satisfying witnesses -/
theorem total_rel {S : Sys q} {pub : Nat} {t : Secrets q} {pk : Pk A1 A2 AT}
    (hpk : PkRel R1 R2 RT ok S pub t pk) (hn1 : 1 ≤ S.n) (hnq : S.n ≤ q) (hpub : pub < S.m)
    (w : List Int) (hw : w.length = S.m) (px : List Int) (hpx : poly q px = S.comb (gxX X) (assign q w))
    (hpl : px.length = 2 * S.n - 1) (hpc : Canon q px) :
    (∃ pf, generateProofs raw q pub pk w px = some pf) ↔ S.Sat (gxX X) (assign q w) ∧ 2 ≤ S.n := by
  obtain ⟨qt, rm, e1, e2, e3, e4, e5, e6⟩ := div_vanish (n := S.n) hpk.dom hpk.domLen hpk.domLead (by omega) hpc
  have hz : Dense.isZeroArray rm = true ↔ S.Sat (gxX X) (assign q w) := by
    rw [isZeroArray_iff e6, e3, hpx, modByMonic_eq_zero_iff_dvd (vanish_monic _), comb_dvd_iff S hnq]
  unfold generateProofs
  simp only [Option.bind_eq_bind]
  rw [e1, Option.bind_some]
  simp only
  by_cases hs : S.Sat (gxX X) (assign q w)
  · rw [if_pos (hz.2 hs)]
    by_cases h2 : 2 ≤ S.n
    · have l1 := hpk.powersXDD.length_eq
      have l2 := hpk.LE.length_eq
      have l3 := hpk.Rx.length_eq
      have l4 := hpk.rleoDelta.length_eq
      have l5 := hpk.Ex.length_eq
      simp only [List.length_map, List.length_range, List.length_range'] at l1 l2 l3 l4 l5
      have hne : w ≠ [] := by rintro rfl; simp at hw; omega
      have hne' : w.drop pub ≠ [] := by
        intro h; have := congrArg List.length h; simp at this; omega
      obtain ⟨a, h1⟩ := scale_some raw.mul1 pk.powersXDD qt (by omega) (by rintro rfl; simp at e4; omega) raw.addTo1
      obtain ⟨b, h2'⟩ := scale_some raw.mul1 pk.LE w (by omega) hne raw.addTo1
      obtain ⟨c, h3⟩ := scale_some raw.mul2 pk.Rx w (by omega) hne raw.addTo2
      obtain ⟨d, h4⟩ := scale_some raw.mul1 pk.rleoDelta (w.drop pub) (by simp; omega) hne' raw.addTo1
      obtain ⟨e, h5⟩ := scale_some raw.mul1 pk.Ex w (by omega) hne raw.addTo1
      refine ⟨fun _ => ⟨hs, h2⟩, fun _ => ?_⟩
      rw [h1, Option.bind_some]
      unfold proofFrom
      simp only [Option.bind_eq_bind]
      rw [h2', Option.bind_some, h3, Option.bind_some, h4, Option.bind_some, h5, Option.bind_some]
      exact ⟨_, rfl⟩
    · have : qt = [] := List.length_eq_zero_iff.1 (by omega)
      refine ⟨?_, fun h => absurd h.2 h2⟩
      rintro ⟨pf, h⟩
      rw [this] at h
      simp [scaleAll, accumulate] at h
  · rw [if_neg (fun h => hs (hz.1 h))]
    exact ⟨fun ⟨_, h⟩ => by simp at h, fun h => absurd h.1 hs⟩

theorem lin_rel {A : Type} {R : A → ZMod q → Prop} {zero : A} {add : A → A → A} {mul : A → Int → A} (h0 : R zero 0)
    (hadd : ∀ a b s t, R a s → R b t → R (add a b) (s + t)) (hmul : ∀ a s (k : Int), R a s → 0 ≤ k → R (mul a k) (k * s)) :
    ∀ {bs : List A} {ss : List (ZMod q)} (ks : List Int), List.Forall₂ R bs ss → (∀ k ∈ ks, 0 ≤ k) →
      R (linNew zero add mul ks bs) (List.zipWith (fun (k : Int) b => (k : ZMod q) * b) ks ss).sum
  | _, _, [], _, _ => by simpa [linNew] using h0
  | _, _, _ :: _, .nil, _ => by simpa [linNew] using h0
  | _, _, k :: ks, .cons hb hbs, hk => by
    simp only [linNew, List.zipWith_cons_cons, List.sum_cons]
    exact hadd _ _ _ _ (hmul _ _ _ hb (hk k (by simp))) (lin_rel h0 hadd hmul ks hbs fun k h => hk k (by simp [h]))

theorem exists_list' (n : Nat) (Q : (ZMod q)[X]) (hQ : Q.degree < n) :
    ∃ qs : List Int, qs.length = n ∧ poly q qs = Q ∧ ∀ k ∈ qs, 0 ≤ k := by
  refine ⟨(List.range n).map fun k => ((Q.coeff k).val : Int), by simp, ?_, by
    intro k hk
    obtain ⟨i, -, rfl⟩ := List.mem_map.1 hk
    exact Int.natCast_nonneg _⟩
  ext i
  rw [poly_coeff]
  by_cases hi : i < n
  · rw [List.getD_eq_getElem _ _ (by simpa using hi)]; simp
  · rw [List.getD_eq_default _ _ (by simp; omega), coeff_eq_zero_of_degree_lt]
    · simp
    · exact lt_of_lt_of_le hQ (by exact_mod_cast (by omega : n ≤ i))

theorem forge_rel (I : Implements raw q R1 R2 RT ok X) {add1 : A1 → A1 → A1}
    (hadd : ∀ a b s t, R1 a s → R1 b t → R1 (add1 a b) (s + t)) (S : Sys q) (hn0 : 0 < S.n) (hnq : S.n ≤ q) (pub : Nat)
    (hpub0 : 0 < pub) (hpub : pub < S.m) (w : List Int) (hw : w.length = S.m) (hc : ∀ k ∈ w, 0 ≤ k) (k : Int) (hk : 0 ≤ k)
    (hs : S.ShiftSat (gxX X) k (assign q w)) :
    ∃ qs : List Int, ∀ (t : Secrets q) (pk : Pk A1 A2 AT), t.gamma ≠ 0 → t.delta ≠ 0 → PkRel R1 R2 RT ok S pub t pk →
      SafeSeq (S.seqPub pub t (assign q w)) → ∀ pf : Proof A1 A2,
      pf = ⟨add1 (linNew (raw.base1 0) add1 raw.mul1 w pk.LE) pk.alpha, linNew (raw.base2 0) raw.addFresh2 raw.mul2 w pk.Rx,
        add1 (linNew (raw.base1 0) add1 raw.mul1 (w.drop pub) pk.rleoDelta) (linNew (raw.base1 0) add1 raw.mul1 qs pk.powersXDD),
        linNew (raw.base1 0) add1 raw.mul1 [k] pk.powersX1⟩ →
      ok pk.beta2 → ok pk.gamma2 → ok pk.delta2 → ok pf.B → ok (raw.addFresh2 pf.B pk.beta2) →
      verifyProof raw pk pf (w.take pub) = some true := by
  obtain ⟨Q, hQ⟩ := shiftComb_dvd S hnq _ _ _ hs
  have hQd : Q.degree < (S.n : WithBot Nat) := by
    have hd := degree_shiftComb S hnq hn0 (gxX X) k (assign q w)
    rw [hQ, degree_mul, degree_eq_natDegree (vanish_monic S.n).ne_zero, vanish_natDegree] at hd
    by_cases h0 : Q = 0
    · subst h0; simp
    · rw [degree_eq_natDegree h0] at hd ⊢
      have : S.n + Q.natDegree < 2 * S.n := by exact_mod_cast hd
      exact_mod_cast (by omega : Q.natDegree < S.n)
  obtain ⟨qs, l1, l2, l3⟩ := exists_list' S.n Q hQd
  refine ⟨qs, fun t pk hg hd hpk hsafe pf hpf o1 o2 o3 o4 o5 => ?_⟩
  have hz1 : R1 (raw.base1 0) 0 := by have := I.base1 0 (le_refl _); simpa using this
  have hz2 : R2 (raw.base2 0) 0 := by have := I.base2 0 (le_refl _); simpa using this
  have hsq : (List.zipWith (fun (k : Int) b => (k : ZMod q) * b) qs
      ((List.range S.n).map fun k => t.x ^ k * (t.delta⁻¹ * (vanish q S.n).eval t.x))).sum =
      Q.eval t.x * (t.delta⁻¹ * (vanish q S.n).eval t.x) := by
    rw [zipWith_range qs S.n l1, ← sum_seqQ S.n S.n t Q hQd]
    unfold seqQ
    congr 1
    refine List.map_congr_left fun i hi => ?_
    rw [← l2, poly_coeff]; rfl
  have rA : R1 pf.A (S.seqA t (assign q w)).sum := by
    rw [hpf]
    have := hadd _ _ _ _ (lin_rel hz1 hadd I.mul1 w hpk.LE hc) hpk.alpha
    rw [zipWith_range w _ hw] at this
    simpa only [Sys.seqA, List.sum_append, List.sum_singleton] using this
  have rB : R2 pf.B (S.seqB t (assign q w)).sum := by
    rw [hpf]
    have := lin_rel hz2 I.addFresh2 I.mul2 w hpk.Rx hc
    rw [zipWith_range w _ hw] at this
    exact this
  have rC : R1 pf.C (S.seqC pub t (assign q w) Q).sum := by
    rw [hpf]
    have := hadd _ _ _ _ (lin_rel hz1 hadd I.mul1 (w.drop pub) hpk.rleoDelta (fun k hk => hc k (List.mem_of_mem_drop hk)))
      (lin_rel hz1 hadd I.mul1 qs hpk.powersXDD l3)
    rw [hsq, zipWith_range' w _ _ hw] at this
    simpa only [Sys.seqC, List.sum_append, List.sum_singleton] using this
  have rF : R1 pf.F (k : ZMod q) := by
    rw [hpf]
    obtain ⟨g, rest, h1, h2⟩ := hpk.powersX1
    rw [h1]
    have := hadd _ _ _ _ (I.mul1 _ _ _ h2 hk) hz1
    simpa [linNew] using this
  have hsp : SafeSeq (S.seqPub pub t (assign q (w.take pub))) := by
    have : S.seqPub pub t (assign q (w.take pub)) = S.seqPub pub t (assign q w) := by
      unfold Sys.seqPub
      refine List.map_congr_left fun i hi => ?_
      rw [assign_take w pub i (by simpa using hi)]
    rw [this]; exact hsafe
  have hsig : (∑ i ∈ Finset.range pub, assign q (w.take pub) i * S.mix t i) =
      ∑ i ∈ Finset.range pub, assign q w i * S.mix t i :=
    Finset.sum_congr rfl fun i hi => by rw [assign_take w pub i (by simpa using hi)]
  rw [verify_rel I hpk pf _ _ _ _ rA rB rC rF (w.take pub) (fun k hk => hc k (List.mem_of_mem_take hk)) (by simp; omega) hpub0 hsp hg
    o1 o2 o3 o4 o5]
  rw [hsig, sum_seqC _ _ hpub.le _ hd, sum_seqA, sum_seqB, sum_mix]
  have he := congrArg (eval t.x) hQ
  rw [eval_mul] at he
  unfold shiftComb at he
  simp only [eval_add, eval_sub, eval_mul, eval_C, ← Sys_val_through] at he
  congr 1
  rw [decide_eq_true_iff]
  linear_combination he

end APS.Snark
