import Verif.Props.SnarkBn

/-! An honest proof on the real curve that is rejected because two equal points are added in place; computed by the kernel. -/
namespace APS
open Polynomial APS.Spec APS.Snark APS.Circuit APS.Pairing

/-- `z = (1+x)*y; v = (1+x)*u`: wires one, z (public), x, y, u, v -/
def twinSys : R1CS (List Int) where
  index := [(['o'], 0), (['z'], 1), (['x'], 2), (['y'], 3), (['u'], 4), (['v'], 5)]
  split := []
  rows := [⟨[1, 0, 1, 0, 0, 0], [0, 0, 0, 1, 0, 0], [0, 0, 0, 0, 0, 0], [0, 1, 0, 0, 0, 0]⟩,
    ⟨[1, 0, 1, 0, 0, 0], [0, 0, 0, 0, 1, 0], [0, 0, 0, 0, 0, 0], [0, 0, 0, 0, 0, 1]⟩]

/-- x = 1, y = 3, u = 0 -/
def twinW : List Int := [1, 6, 1, 3, 0, 0]
/-- setup randomness -/
def twinTox : Toxic := ⟨1, 1, 1, 1, 1⟩

/-- affine coordinates, given the inverse of `z` -/
def affBy (a : Pt Int) (zi : Int) : Pt Int :=
  ⟨(a.x * ((zi * zi) % P)) % P, (((a.y * zi) % P) * ((zi * zi) % P)) % P, 1, 1⟩

theorem modInv_unique {a zi : Int} (h0 : 0 ≤ zi) (h1 : zi < P) (h : a * zi % P = 1) : modInv P a = zi := by
  have hP : Fact P.Prime := inferInstance
  have hm : ((a * zi : Int) : ZMod P) = ((1 : Int) : ZMod P) := by
    rw [ZMod.intCast_eq_intCast_iff]
    unfold Int.ModEq
    rw [h]; decide +kernel
  push_cast at hm
  have ha : (a : ZMod P) ≠ 0 := by
    intro h0
    rw [h0, zero_mul] at hm
    exact zero_ne_one hm
  have hd : ¬ (P : Int) ∣ a := fun e => ha ((ZMod.intCast_zmod_eq_zero_iff_dvd _ _).2 e)
  obtain ⟨r, hr⟩ := Option.isSome_iff_exists.1 (modInverse_isSome P Fact.out hd)
  have hb := modInverse_some P (Fact.out : P.Prime).pos hr
  have hc := modInv_cast (p := P) ha
  have hr' : modInv P a = r := by unfold modInv; rw [hr]; rfl
  rw [hr'] at hc ⊢
  have : ((r : Int) : ZMod P) = ((zi : Int) : ZMod P) := by
    rw [hc]; exact (eq_inv_of_mul_eq_one_right hm).symm
  rw [ZMod.intCast_eq_intCast_iff] at this
  unfold Int.ModEq at this
  rwa [Int.emod_eq_of_lt hb.1 hb.2.1, Int.emod_eq_of_lt h0 h1] at this

theorem z_ne {z zi : Int} (h : z * zi % P = 1) : z ≠ 0 := by
  rintro rfl
  rw [zero_mul, Int.zero_emod] at h
  exact absurd h (by decide)

theorem makeAffine_mem (m : Mem Int) (c : Ref) {zi : Int} (h0 : 0 ≤ zi) (h1 : zi < P) (h : (m c).z * zi % P = 1)
    (hz : (m c).z.natAbs ≠ 1) : curveMakeAffine P m c c = affBy (m c) zi := by
  have ha := z_ne h
  unfold curveMakeAffine
  rw [if_neg hz, if_neg (by simpa [curveIsInf] using ha)]
  refine (congrFun (affPt_eq P m c) c).trans ?_
  rw [Mem.set_same]
  unfold affPt affBy
  rw [modInv_unique h0 h1 h]

theorem makeAffine_by {a : Pt Int} {zi : Int} (h0 : 0 ≤ zi) (h1 : zi < P) (h : a.z * zi % P = 1) (hz : a.z.natAbs ≠ 1) :
    curveMakeAffine P (fun _ => a : Mem Int) (.obj 0) (.obj 0) = affBy a zi := makeAffine_mem (fun _ => a) (.obj 0) h0 h1 h hz

/-- the Miller function at an arbitrary object of G1 -/
def millerA (a : Pt Int) (k : Gfp12 → Bool) : Bool :=
  forceNat (powMod (a.z % P).toNat (P - 2) P) fun zi =>
    decide (zi < P) && a.z * zi % P == 1 && a.z.natAbs != 1 && forcePt (affBy a zi) fun A =>
      millerF twistGen ⟨twistGen.x, Gfp2.zero.sub twistGen.y, twistGen.z, Gfp2.zero⟩ A fun f => forceG12 f k

theorem millerA_eq {a : Pt Int} {k : Gfp12 → Bool} (h : millerA a k = true) : k (miller twistGen a) = true ∧ a.z ≠ 0 := by
  unfold millerA at h
  rw [forceNat_eq] at h
  simp only [Bool.and_eq_true, decide_eq_true_eq, beq_iff_eq, bne_iff_ne, forcePt_eq] at h
  obtain ⟨⟨⟨h1, h2⟩, h3⟩, h4⟩ := h
  have hB := makeAffine_by (Int.natCast_nonneg _) (by exact_mod_cast h1) h2 h3
  rw [← hB] at h4
  refine ⟨?_, z_ne h2⟩
  have h1 : ∀ c, twistMakeAffine P (fun _ => twistGen) c = fun _ => twistGen := fun c => if_pos (show twistGen.z.isOne = true by decide)
  have h3 := twistNegative_other (fun _ => twistGen : Mem Gfp2) (c := .obj 1) (a := .obj 0) (by decide)
  have h5 := (congrFun h3 (.obj 1)).trans (Mem.set_same _ _ _)
  unfold millerF at h4
  simp only [loopF_eq, forceLine_eq, forceG2_eq, forceG12_eq] at h4
  rw [← h4]
  unfold miller
  simp only [h1]
  rw [h5]

/-- the pairings of the two objects with the generator of G2 differ -/
theorem pair_differ {a b : Pt Int} (h : (millerA a fun f => millerA b (differ f)) = true) :
    val12 P (pair a twistGen) ≠ val12 P (pair b twistGen) := by
  obtain ⟨h1, ha⟩ := millerA_eq h
  obtain ⟨h2, hb⟩ := millerA_eq h1
  have h3 := differ_ne _ _ h2
  intro h4
  have hinf : ∀ c : Pt Int, c.z ≠ 0 → ¬ (curveIsInf c || twistIsInf twistGen) = true := by
    intro c hc
    have : twistIsInf twistGen = false := by decide
    rw [this]
    simpa [curveIsInf] using hc
  rw [pair_fin (hinf a ha), pair_fin (hinf b hb), finalExp_eq, finalExp_eq] at h4
  rw [eN] at h3
  exact h3 h4

theorem twin_check : ((honestRun bnFast Order 2 twinSys twinTox twinW).map fun x =>
    forcePt x.2.A fun a => (bnFast.addFresh2 x.2.B x.1.beta2 == twistGen) && freshCheck x.1 x.2.B &&
      forcePt (bnFast.base1 3) fun b => millerA a fun f => millerA b (differ f)) = some true := by decide +kernel

/-- the rest of `safe_two'`: every accumulator except the one of element A -/
theorem safe_two_rest {q : Nat} [Fact q.Prime] (S : Sys q) (hn : S.n = 2) (gx : ZMod q → ZMod q) (pub : Nat) (t : Secrets q)
    (w : Nat → ZMod q) (hs : S.Sat gx w) (hd : t.delta = 1) (hg : t.gamma = 1) (v : (Nat → Nat → ZMod q) → Nat → ZMod q)
    (hv : ∀ M i, v M i = M 0 i + (M 1 i - M 0 i) * t.x)
    (mix : Nat → ZMod q) (hmix : ∀ i, mix i = t.alpha * v S.R i + t.beta * v S.L i + t.beta * v S.E i + v S.O i)
    (hB : SafeSeq ((List.range S.m).map (fun i => w i * v S.R i)))
    (hF : SafeSeq ((List.range S.m).map (fun i => w i * v S.E i)))
    (hP : SafeSeq ((List.range pub).map (fun i => w i * mix i)))
    (hC : SafeSeq ((List.range' pub (S.m - pub)).map (fun i => w i * mix i) ++
      [(∑ i ∈ Finset.range S.m, w i * v S.L i) * (∑ i ∈ Finset.range S.m, w i * v S.R i) +
        (gx (rowVal S.m S.E w 0) + (gx (rowVal S.m S.E w 1) - gx (rowVal S.m S.E w 0)) * t.x) -
        ∑ i ∈ Finset.range S.m, w i * v S.O i])) :
    SafeSeq (S.seqB t w) ∧ SafeSeq (S.seqF t w) ∧ SafeSeq (seqQ S.n (S.n - 1) t (S.comb gx w /ₘ vanish q S.n)) ∧
      SafeSeq (S.seqC pub t w (S.comb gx w /ₘ vanish q S.n)) ∧ SafeSeq (S.seqPub pub t w) := by
  have hcol : ∀ M i, (S.col M i).eval t.x = v M i := fun M i => by rw [col_two S hn, hv]
  have hm : ∀ i, S.mix t i = mix i := fun i => by rw [hmix]; simp [Sys.mix, hcol]
  refine ⟨?_, ?_, ?_, ?_, ?_⟩
  · simpa only [Sys.seqB, hcol] using hB
  · simpa only [Sys.seqF, hcol] using hF
  · rw [hn]
    intro k h0 hk
    simp [seqQ] at hk
    omega
  · have hdvd := (comb_dvd_iff S (by rw [hn]; exact (Fact.out : q.Prime).two_le) gx w).2 hs
    have h2 := modByMonic_add_div (S.comb gx w) (vanish q S.n)
    rw [(modByMonic_eq_zero_iff_dvd (vanish_monic _)).2 hdvd, zero_add] at h2
    have h3 := congrArg (eval t.x) h2
    rw [eval_mul] at h3
    unfold Sys.seqC
    have : (S.comb gx w /ₘ vanish q S.n).eval t.x * (t.delta⁻¹ * (vanish q S.n).eval t.x) =
        t.delta⁻¹ * (S.comb gx w).eval t.x := by rw [← h3]; ring
    rw [this, comb_eval_secret, hn, through_two]
    simpa only [Sys_val, hcol, hm, hd, inv_one, one_mul] using hC
  · simpa only [Sys.seqPub, hm, hg, inv_one, one_mul] using hP

theorem twin_usable : Usable Order 2 twinSys twinW := by
  refine ⟨by decide, ?_, by decide, by decide, by decide, by decide, by decide⟩
  exact (Fact.out : Order.Prime).two_le

theorem twin_sat : ∀ row ∈ twinSys.rows, SatD Order gxBn twinW row := by
  have h1 : ∀ row ∈ twinSys.rows, dot Order (denseEntry row.E) twinW = 0 := by decide +kernel
  have h2 : ∀ row ∈ twinSys.rows, dot Order (denseEntry row.L) twinW * dot Order (denseEntry row.R) twinW =
    dot Order (denseEntry row.O) twinW := by decide +kernel
  intro row hrow
  unfold SatD RowSat
  rw [h1 row hrow, gxBn_zero, add_zero, h2 row hrow]

theorem twin_rest : SafeSeq ((denseSys Order twinSys).seqB (secretsOf Order twinTox) (assign Order twinW)) ∧
    SafeSeq ((denseSys Order twinSys).seqF (secretsOf Order twinTox) (assign Order twinW)) ∧
    SafeSeq (seqQ (denseSys Order twinSys).n ((denseSys Order twinSys).n - 1) (secretsOf Order twinTox)
      ((denseSys Order twinSys).comb gxBn (assign Order twinW) /ₘ vanish Order (denseSys Order twinSys).n)) ∧
    SafeSeq ((denseSys Order twinSys).seqC 2 (secretsOf Order twinTox) (assign Order twinW)
      ((denseSys Order twinSys).comb gxBn (assign Order twinW) /ₘ vanish Order (denseSys Order twinSys).n)) ∧
    SafeSeq ((denseSys Order twinSys).seqPub 2 (secretsOf Order twinTox) (assign Order twinW)) := by
  have h0 : ∀ j, j < 2 → rowVal (denseSys Order twinSys).m (denseSys Order twinSys).E (assign Order twinW) j = 0 := by decide +kernel
  refine safe_two_rest _ rfl _ _ _ _ ?_ (by decide +kernel) (by decide +kernel)
    (fun M i => M 0 i + (M 1 i - M 0 i) * 1) (fun _ _ => by simp [secretsOf, twinTox])
    (fun i => 1 * ((denseSys Order twinSys).R 0 i + ((denseSys Order twinSys).R 1 i - (denseSys Order twinSys).R 0 i) * 1) +
      1 * ((denseSys Order twinSys).L 0 i + ((denseSys Order twinSys).L 1 i - (denseSys Order twinSys).L 0 i) * 1) +
      1 * ((denseSys Order twinSys).E 0 i + ((denseSys Order twinSys).E 1 i - (denseSys Order twinSys).E 0 i) * 1) +
      ((denseSys Order twinSys).O 0 i + ((denseSys Order twinSys).O 1 i - (denseSys Order twinSys).O 0 i) * 1))
    (fun _ => by simp [secretsOf, twinTox])
    (by decide +kernel) (by decide +kernel) (by decide +kernel) ?_
  · exact (sat_dense twinSys _ _ rfl).1 twin_sat
  · rw [h0 0 (by norm_num), h0 1 (by norm_num), gxBn_zero]
    decide +kernel

theorem twin_sumA : ((denseSys Order twinSys).seqA (secretsOf Order twinTox) (assign Order twinW)).sum = 3 := by
  have hcol : ∀ M i, ((denseSys Order twinSys).col M i).eval (secretsOf Order twinTox).x = M 0 i + (M 1 i - M 0 i) * 1 :=
    fun M i => (col_two _ rfl M i _).trans (by simp [secretsOf, twinTox])
  simp only [Sys.seqA, hcol]
  decide +kernel

/-- only the pairing with element A differs -/
theorem verify_A {pk : Pk (Pt Int) (Pt Gfp2) Gfp12} {p : Proof (Pt Int) (Pt Gfp2)} {a0 : Pt Int} {sig : List Int}
    (h0 : verifyProof bnRaw pk { p with A := a0 } sig = some true) (hne : val12 P (bnRaw.mulT pk.eGH (bnRaw.x1 p.F)) ≠ 0)
    (hd : val12 P (pair p.A (bnRaw.addFresh2 p.B pk.beta2)) ≠ val12 P (pair a0 (bnRaw.addFresh2 p.B pk.beta2))) :
    verifyProof bnRaw pk p sig = some false := by
  unfold verifyProof at h0 ⊢
  by_cases hl : sig.length ≠ pk.rleoGamma.length
  · rw [if_pos hl] at h0; simp at h0
  rw [if_neg hl] at h0 ⊢
  simp only [Option.bind_eq_bind] at h0 ⊢
  cases hic : (scaleAll bnRaw.mul1 pk.rleoGamma sig).bind (accumulate bnRaw.addTo1) with
  | none => rw [hic] at h0; simp at h0
  | some ic =>
    rw [hic, Option.bind_some] at h0
    rw [Option.bind_some]
    have h0 := Option.some.inj h0
    refine congrArg some ?_
    have e : ∀ a b, bnRaw.eqT a b = (gtMarshal a == gtMarshal b) := fun _ _ => rfl
    have e2 : ∀ a b, val12 P (bnRaw.addT a b) = val12 P a * val12 P b := fun a b => val12_mul P a b
    have e3 : ∀ a b, bnRaw.pair a b = pair a b := fun _ _ => rfl
    rw [e, beq_iff_eq, gtMarshal_inj, e2] at h0
    rw [e, beq_eq_false_iff_ne, Ne, gtMarshal_inj, e2]
    intro h
    rw [← h0] at h
    exact hd (mul_right_cancel₀ hne h)

theorem twin_rejected : ∃ pk pf, honestRun bnRaw Order 2 twinSys twinTox twinW = some (pk, pf) ∧ FreshT pk pf ∧
    verifyProof bnRaw pk pf (twinW.take 2) = some false := by
  have hu := twin_usable
  have ht : ToxicOK Order twinTox := by constructor <;> decide +kernel
  have hm : 0 < twinSys.index.length := by decide
  obtain ⟨tr, px, t1, t2, t3, t4, t5⟩ := combine_rel bn_implements twinSys (usable_ne hu) hu.small hm (usable_rect hu) twinW hu.wlen
  obtain ⟨tr', pk, s1, s2, s3⟩ := trustedSetup_rel bn_implements twinSys (usable_ne hu) hu.small (usable_rect hu) 2 hu.pub ht
  obtain rfl : tr = tr' := by rw [t1] at s1; exact Option.some.inj s1
  obtain ⟨r1, r2, r3, r4, r5⟩ := twin_rest
  obtain ⟨pf, p1, -, pF, p2⟩ := honest_rel_any bn_implements s3 (by decide) hu.small hu.pub0 hu.pub (secrets_ne twinTox ht).1
    (secrets_ne twinTox ht).2 twinW hu.wlen hu.wnonneg px t3 t4 t5 ((sat_dense twinSys _ twinW hu.wlen).1 twin_sat) r1 r2 r3 r4 r5
  have hrun : honestRun bnRaw Order 2 twinSys twinTox twinW = some (pk, pf) := by
    unfold honestRun
    simp only [Option.bind_eq_bind]
    rw [t1, Option.bind_some, s2, Option.bind_some, t2, Option.bind_some, p1]; rfl
  have hc := twin_check
  rw [bnFast_eq, hrun, Option.map_some] at hc
  have hc := Option.some.inj hc
  simp only [forcePt_eq, Bool.and_eq_true, beq_iff_eq] at hc
  obtain ⟨⟨c1, c2⟩, c3⟩ := hc
  have hf : FreshT pk pf := fresh_of_check c2
  refine ⟨pk, pf, hrun, hf, ?_⟩
  have hgood := p2 (bnRaw.base1 3) (by rw [twin_sumA]; have := bn_implements.base1 3 (by norm_num); simpa using this)
    hf.beta hf.gamma hf.delta hf.B hf.sum
  have hz : ∀ j i, (denseSys Order twinSys).E j i = 0 := noExp_zero (by unfold NoExp; decide +kernel)
  have hr0 : ∀ j, rowVal (denseSys Order twinSys).m (denseSys Order twinSys).E (assign Order twinW) j = 0 := fun j => by simp [rowVal, hz]
  have ht0 : through (q := Order) (denseSys Order twinSys).n (fun _ => 0) = 0 :=
    (Lagrange.interpolate (Finset.range (denseSys Order twinSys).n) (fun j : Nat => (j : ZMod Order))).map_zero
  have hv0 : Sys_val (denseSys Order twinSys) (denseSys Order twinSys).E (assign Order twinW) (secretsOf Order twinTox).x = 0 := by
    rw [Sys_val_through]; simp only [hr0, ht0]; simp
  rw [hv0, gxX_bn] at hgood
  simp only [hr0, gxBn_zero, ht0, eval_zero, decide_true] at hgood
  refine verify_A hgood ?_ ?_
  · have h1 := bn_implements.x1 _ _ pF
    have h2 := bn_implements.mulT _ _ (bnRaw.x1 pf.F) s3.eGH (by rw [h1]; exact bn_implements.x_nonneg _)
    unfold BRT at h2
    rw [h2]
    exact pow_ne_zero _ (ate_ne _ (AddSubgroup.mem_zmultiples _))
  · rw [c1]
    exact pair_differ c3

end APS
