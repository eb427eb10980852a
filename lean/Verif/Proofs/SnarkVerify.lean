import Verif.Proofs.SnarkDense

/-! Honest proofs and the verification equation. -/
namespace APS.Snark
open Polynomial APS.Spec APS.Circuit

variable {q : Nat} [Fact q.Prime]
variable {G1 G2 GT : Type} [AddCommGroup G1] [AddCommGroup G2] [AddCommGroup GT] {api : Api G1 G2 GT}
  {g1 : G1} {g2 : G2}

section
variable (H : Laws api q g1 g2)
include H

theorem orderT' : q • api.pair g1 g2 = 0 := by
  conv_lhs => rw [← H.orderT]
  exact addOrderOf_nsmul_eq_zero _

theorem pair_expo (s t : ZMod q) : api.pair (expo q g1 H.order1 s) (expo q g2 H.order2 t) =
    expo q (api.pair g1 g2) (orderT' H) (s * t) := by
  obtain ⟨k, rfl⟩ := ZMod.intCast_surjective s
  obtain ⟨l, rfl⟩ := ZMod.intCast_surjective t
  rw [expo_cast, expo_cast, H.pair, ← Int.cast_mul, expo_cast]

theorem expoT_inj : Function.Injective (expo q (api.pair g1 g2) (orderT' H)) := by
  rw [injective_iff_map_eq_zero]
  intro s hs
  obtain ⟨k, rfl⟩ := ZMod.intCast_surjective s
  rw [expo_cast] at hs
  have := addOrderOf_dvd_iff_zsmul_eq_zero.2 hs
  rw [H.orderT] at this
  exact (ZMod.intCast_zmod_eq_zero_iff_dvd _ _).2 this

theorem expo1_inj : Function.Injective (expo q g1 H.order1) := by
  intro s t h
  have := congrArg (fun a => api.pair a (expo q g2 H.order2 1)) h
  simp only [pair_expo H, mul_one] at this
  exact expoT_inj H this

theorem expo2_inj : Function.Injective (expo q g2 H.order2) := by
  intro s t h
  have := congrArg (fun a => api.pair (expo q g1 H.order1 1) a) h
  simp only [pair_expo H, one_mul] at this
  exact expoT_inj H this

theorem mul1_expo (s : ZMod q) (k : Int) (hk : 0 ≤ k) :
    api.mul1 (expo q g1 H.order1 s) k = expo q g1 H.order1 ((k : ZMod q) * s) := by
  rw [H.mul1 _ _ hk, expo_smul]
theorem mul2_expo (s : ZMod q) (k : Int) (hk : 0 ≤ k) :
    api.mul2 (expo q g2 H.order2 s) k = expo q g2 H.order2 ((k : ZMod q) * s) := by
  rw [H.mul2 _ _ hk, expo_smul]

theorem gxOf_expo (s : ZMod q) : gxOf api q g1 s = ((api.x1 (expo q g1 H.order1 s) : Int) : ZMod q) := by
  unfold gxOf
  congr 2
  have : s = ((s.val : Int) : ZMod q) := by simp
  conv_rhs => rw [this, expo_cast]
  exact (natCast_zsmul _ _).symm

theorem gxOf_zero : gxOf api q g1 0 = 0 := by
  rw [gxOf_expo H, map_zero, H.x1_zero]; simp

/-- the verification equation on exponents, for any proof made of known exponents -/
theorem verify_expo {S : Sys q} {pub : Nat} {t : Secrets q} {pk : Pk G1 G2 GT} (hpk : PkOK H S pub t pk)
    (a b c f : ZMod q) (sig : List Int) (hs : ∀ k ∈ sig, 0 ≤ k) (hsl : sig.length = pub) (hpub : 0 < pub)
    (hsafe : SafeSeq (S.seqPub pub t (assign q sig))) (hg : t.gamma ≠ 0) :
    verifyProof api pk ⟨expo q g1 H.order1 a, expo q g2 H.order2 b, expo q g1 H.order1 c, expo q g1 H.order1 f⟩ sig =
      some (decide (a * (b + t.beta) + gxOf api q g1 f =
        t.alpha * t.beta + (∑ i ∈ Finset.range pub, assign q sig i * S.mix t i) + c * t.delta + f * b)) := by
  have hlen : pk.rleoGamma.length = pub := by rw [hpk.rleoGamma]; simp
  unfold verifyProof
  rw [if_neg (by rw [hlen, hsl]; simp)]
  have hsc : scaleAll api.mul1 pk.rleoGamma sig = some ((S.seqPub pub t (assign q sig)).map (expo q g1 H.order1)) := by
    rw [hpk.rleoGamma, scaleAll_spec (mul1_expo H) _ _ (by simp [hsl]) hs]
    congr 2
    refine List.ext_getElem (by simp [Sys.seqPub, hsl]) fun i h1 h2 => ?_
    have hi : i < sig.length := by simp at h1; omega
    simp [Sys.seqPub, assign, List.getElem?_eq_getElem hi]
  have hne : S.seqPub pub t (assign q sig) ≠ [] := by
    intro h; have := congrArg List.length h; simp [Sys.seqPub] at this; omega
  simp only [Option.bind_eq_bind]
  rw [hsc, Option.bind_some, accumulate_safe (expo1_inj H) H.addTo1 hne hsafe, Option.bind_some]
  simp only [Option.pure_def]
  congr 1
  rw [Bool.eq_iff_iff, H.eqT, decide_eq_true_iff]
  rw [hpk.beta2, hpk.gamma2, hpk.delta2, hpk.eGH, hpk.eGHab, H.addFresh2, ← map_add]
  simp only [pair_expo H, H.addT, H.mulT _ _ (H.x1_nonneg _)]
  have hx : api.x1 (expo q g1 H.order1 f) • api.pair g1 g2 =
      expo q (api.pair g1 g2) (orderT' H) (gxOf api q g1 f) := by
    rw [gxOf_expo H, expo_cast]
  rw [hx]
  simp only [← map_add]
  rw [(expoT_inj H).eq_iff]
  have hsum : (S.seqPub pub t (assign q sig)).sum * t.gamma = ∑ i ∈ Finset.range pub, assign q sig i * S.mix t i := by
    unfold Sys.seqPub
    rw [list_sum_range, Finset.sum_mul]
    refine Finset.sum_congr rfl fun i _ => ?_
    field_simp
  rw [hsum, ← add_assoc]

end

theorem zipWith_range (w : List Int) (m : Nat) (hw : w.length = m) (f : Nat → ZMod q) :
    List.zipWith (fun (k : Int) b => (k : ZMod q) * b) w ((List.range m).map f) =
      (List.range m).map fun i => assign q w i * f i := by
  refine List.ext_getElem (by simp [hw]) fun i h1 h2 => ?_
  have hi : i < w.length := by simp at h1; omega
  simp [assign, List.getElem?_eq_getElem hi]

theorem zipWith_range' (w : List Int) (p m : Nat) (hw : w.length = m) (f : Nat → ZMod q) :
    List.zipWith (fun (k : Int) b => (k : ZMod q) * b) (w.drop p) ((List.range' p (m - p)).map f) =
      (List.range' p (m - p)).map fun i => assign q w i * f i := by
  refine List.ext_getElem (by simp [hw]) fun i h1 h2 => ?_
  have hi : p + i < w.length := by simp at h1; omega
  simp [assign, List.getElem?_eq_getElem hi]

/-- the sums of the honest prover -/
theorem proofFrom_spec (H : Laws api q g1 g2) {S : Sys q} {pub : Nat} {t : Secrets q} {pk : Pk G1 G2 GT}
    (hpk : PkOK H S pub t pk) (hpub : pub < S.m) (w : List Int) (hw : w.length = S.m) (hc : ∀ k ∈ w, 0 ≤ k)
    (Q : (ZMod q)[X]) (hA : SafeSeq (S.seqA t (assign q w))) (hB : SafeSeq (S.seqB t (assign q w)))
    (hF : SafeSeq (S.seqF t (assign q w))) (hC : SafeSeq (S.seqC pub t (assign q w) Q)) :
    proofFrom api pub pk w (expo q g1 H.order1 (Q.eval t.x * (t.delta⁻¹ * (vanish q S.n).eval t.x))) =
      some ⟨expo q g1 H.order1 (S.seqA t (assign q w)).sum, expo q g2 H.order2 (S.seqB t (assign q w)).sum,
        expo q g1 H.order1 (S.seqC pub t (assign q w) Q).sum, expo q g1 H.order1 (S.seqF t (assign q w)).sum⟩ := by
  have hne : ∀ f : Nat → ZMod q, (List.range S.m).map f ≠ [] := by
    intro f h; have := congrArg List.length h; simp at this; omega
  have hne' : ∀ f : Nat → ZMod q, (List.range' pub (S.m - pub)).map f ≠ [] := by
    intro f h; have := congrArg List.length h; simp at this; omega
  obtain ⟨a1, a2⟩ := accumulate_snoc (expo1_inj H) H.addTo1 t.alpha (hne _) hA
  obtain ⟨c1, c2⟩ := accumulate_snoc (expo1_inj H) H.addTo1 (Q.eval t.x * (t.delta⁻¹ * (vanish q S.n).eval t.x)) (hne' _) hC
  have hb := accumulate_safe (expo2_inj H) H.addTo2 (hne _) hB
  have hf := accumulate_safe (expo1_inj H) H.addTo1 (hne _) hF
  unfold proofFrom
  rw [hpk.LE, hpk.Rx, hpk.rleoDelta, hpk.Ex, hpk.alpha]
  rw [scaleAll_spec (mul1_expo H) _ _ (by simp [hw]) hc, scaleAll_spec (mul2_expo H) _ _ (by simp [hw]) hc,
    scaleAll_spec (mul1_expo H) _ _ (by simp [hw]) (fun k hk => hc k (List.mem_of_mem_drop hk)),
    scaleAll_spec (mul1_expo H) _ _ (by simp [hw]) hc]
  rw [zipWith_range w _ hw, zipWith_range w _ hw, zipWith_range w _ hw, zipWith_range' w _ _ hw]
  simp only [Option.bind_eq_bind, Option.bind_some]
  rw [a1, Option.bind_some]
  unfold Sys.seqB at hb ⊢
  rw [hb, Option.bind_some, c1, Option.bind_some]
  unfold Sys.seqF at hf ⊢
  rw [hf, Option.bind_some, a2, c2]
  rfl

/-- value of the weighted column sum at the secret point -/
noncomputable def Sys_val (S : Sys q) (M : Nat → Nat → ZMod q) (w : Nat → ZMod q) (x : ZMod q) : ZMod q :=
  ∑ i ∈ Finset.range S.m, w i * (S.col M i).eval x

theorem sum_mix (S : Sys q) (t : Secrets q) (w : Nat → ZMod q) :
    (∑ i ∈ Finset.range S.m, w i * S.mix t i) = t.alpha * Sys_val S S.R w t.x + t.beta * Sys_val S S.L w t.x +
      t.beta * Sys_val S S.E w t.x + Sys_val S S.O w t.x := by
  unfold Sys_val Sys.mix
  simp only [Finset.mul_sum, ← Finset.sum_add_distrib]
  refine Finset.sum_congr rfl fun i _ => ?_
  ring

theorem sum_range'_split {M : Type} [AddCommGroup M] (pub m : Nat) (h : pub ≤ m) (f : Nat → M) :
    ((List.range' pub (m - pub)).map f).sum = (∑ i ∈ Finset.range m, f i) - ∑ i ∈ Finset.range pub, f i := by
  rw [← list_sum_range, ← list_sum_range]
  have : List.range m = List.range pub ++ List.range' pub (m - pub) := by
    have e : m = pub + (m - pub) := by omega
    conv_lhs => rw [e, List.range_eq_range', ← List.range'_append_1]
    rw [List.range_eq_range']; simp
  rw [this, List.map_append, List.sum_append]; abel

theorem sum_seqA (S : Sys q) (t : Secrets q) (w : Nat → ZMod q) :
    (S.seqA t w).sum = Sys_val S S.E w t.x + Sys_val S S.L w t.x + t.alpha := by
  unfold Sys.seqA Sys_val
  rw [List.sum_append, list_sum_range, ← Finset.sum_add_distrib]
  congr 1
  · exact Finset.sum_congr rfl fun i _ => by ring
  · simp
theorem sum_seqB (S : Sys q) (t : Secrets q) (w : Nat → ZMod q) : (S.seqB t w).sum = Sys_val S S.R w t.x := by
  unfold Sys.seqB Sys_val; rw [list_sum_range]
theorem sum_seqF (S : Sys q) (t : Secrets q) (w : Nat → ZMod q) : (S.seqF t w).sum = Sys_val S S.E w t.x := by
  unfold Sys.seqF Sys_val; rw [list_sum_range]
theorem sum_seqC (S : Sys q) (pub : Nat) (hpub : pub ≤ S.m) (t : Secrets q) (hd : t.delta ≠ 0) (w : Nat → ZMod q) (Q : (ZMod q)[X]) :
    (S.seqC pub t w Q).sum * t.delta = (∑ i ∈ Finset.range S.m, w i * S.mix t i) -
      (∑ i ∈ Finset.range pub, w i * S.mix t i) + Q.eval t.x * (vanish q S.n).eval t.x := by
  unfold Sys.seqC
  rw [List.sum_append, sum_range'_split _ _ hpub]
  have : ∀ n, (∑ i ∈ Finset.range n, w i * (t.delta⁻¹ * S.mix t i)) = t.delta⁻¹ * ∑ i ∈ Finset.range n, w i * S.mix t i := by
    intro n; rw [Finset.mul_sum]; exact Finset.sum_congr rfl fun i _ => by ring
  rw [this, this, List.sum_singleton]
  field_simp

theorem sum_seqQ (n len : Nat) (t : Secrets q) (Q : (ZMod q)[X]) (hQ : Q.degree < len) :
    (seqQ n len t Q).sum = Q.eval t.x * (t.delta⁻¹ * (vanish q n).eval t.x) := by
  unfold seqQ
  have he : Q.eval t.x = ∑ i ∈ Finset.range len, Q.coeff i * t.x ^ i := by
    by_cases h0 : Q = 0
    · subst h0; simp
    · exact eval_eq_sum_range' ((natDegree_lt_iff_degree_lt h0).2 hQ) _
  rw [list_sum_range, he, Finset.sum_mul]
  exact Finset.sum_congr rfl fun i _ => by ring

end APS.Snark
