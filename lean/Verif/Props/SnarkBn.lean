import Verif.Proofs.SnarkBn

/-! Properties C49 - C51, C53, C54 for the real groups: the proof system of zkSNARK/wol19.go on the objects of package bn256. -/
namespace APS
open Polynomial APS.Spec APS.Snark APS.Circuit APS.Pairing

theorem gxX_bn : gxX bnX = gxBn := rfl

theorem gxBn_zero : gxBn 0 = 0 := by
  unfold gxBn; rw [bn_implements.x_zero]; simp

theorem gxBn_one : gxBn 1 = 1 := by
  have : Fact (1 < Order) := ⟨by decide +kernel⟩
  unfold gxBn bnX
  rw [ZMod.val_one, one_nsmul]
  have : xOf G1gen = 1 := by
    show (((1 : ZMod P).val : Nat) : Int) = 1
    have : Fact (1 < P) := ⟨by decide +kernel⟩
    rw [ZMod.val_one]; rfl
  rw [this]; simp

/-- C49 on the real curve: `CombinePolynomials2` on bn256 gives a multiple of the domain polynomial exactly for the witnesses
that satisfy every constraint, where a base multiplication is the x-coordinate of a multiple of the generator. -/
theorem C49_bn256 {pub : Nat} {r : R1CS (List Int)} {w : List Int} (hu : Usable Order pub r w) :
    ∃ tr px dom qx rem, transposeR1CS r = some tr ∧ combinePolynomials bnRaw Order w tr = some px ∧
      Dense.domainPolynomial Order r.rows.length = some dom ∧ Dense.div Order px dom = some (qx, rem) ∧
      ((∀ row ∈ r.rows, SatD Order gxBn w row) ↔ (∏ j ∈ Finset.range r.rows.length, (X - C (j : ZMod Order))) ∣ poly Order px) ∧
      ((∀ row ∈ r.rows, SatD Order gxBn w row) ↔ Dense.isZeroArray rem = true) := by
  have hp : Order.Prime := Fact.out
  have hm : 0 < r.index.length := lt_of_le_of_lt (Nat.zero_le _) hu.pub
  obtain ⟨tr, px, t1, t2, t3, t4, t5⟩ := combine_rel bn_implements r (usable_ne hu) hu.small hm (usable_rect hu) w hu.wlen
  obtain ⟨d, d1, d2, d3, -, d5, -⟩ := C09_domainPolynomial Order hp r.rows.length hu.rows
  obtain ⟨qt, rm, e1, e2, e3, e4, e5, e6⟩ := div_vanish (q := Order) (n := r.rows.length) d2 d3 d5
    (by have := hu.rows; omega) t5
  refine ⟨tr, px, d, qt, rm, t1, t2, d1, e1, ?_, ?_⟩
  · rw [sat_dense r _ w hu.wlen, ← comb_dvd_iff (denseSys Order r) hu.small, t3]; rfl
  · rw [sat_dense r _ w hu.wlen, ← comb_dvd_iff (denseSys Order r) hu.small, isZeroArray_iff e6, e3, t3,
      modByMonic_eq_zero_iff_dvd (vanish_monic _)]; rfl

/-- C54 on the real curve: `GenerateProofs` returns a proof exactly when the witness satisfies every constraint and there are
at least two gates.  (With one gate it crashes: the property is false there, C54_single_gate_refuted.) -/
theorem C54_bn256_partial {pub : Nat} {r : R1CS (List Int)} {w : List Int} (hu : Usable Order pub r w) (tox : Toxic)
    (ht : ToxicOK Order tox) :
    (∃ res, honestRun bnRaw Order pub r tox w = some res) ↔ (∀ row ∈ r.rows, SatD Order gxBn w row) ∧ 2 ≤ r.rows.length := by
  have hm : 0 < r.index.length := lt_of_le_of_lt (Nat.zero_le _) hu.pub
  obtain ⟨tr, px, t1, t2, t3, t4, t5⟩ := combine_rel bn_implements r (usable_ne hu) hu.small hm (usable_rect hu) w hu.wlen
  obtain ⟨tr', pk, s1, s2, s3⟩ := trustedSetup_rel bn_implements r (usable_ne hu) hu.small (usable_rect hu) pub hu.pub ht
  obtain rfl : tr = tr' := by rw [t1] at s1; exact Option.some.inj s1
  have k := total_rel (raw := bnRaw) s3 hu.rows hu.small hu.pub w hu.wlen px t3 t4 t5
  rw [sat_dense r _ w hu.wlen, ← gxX_bn]
  have hrun : honestRun bnRaw Order pub r tox w = (generateProofs bnRaw Order pub pk w px).bind fun pf => some (pk, pf) := by
    unfold honestRun
    simp only [Option.bind_eq_bind]
    rw [t1, Option.bind_some, s2, Option.bind_some, t2, Option.bind_some]; rfl
  refine Iff.trans ?_ k
  rw [hrun]
  constructor
  · rintro ⟨res, h⟩
    cases hg : generateProofs bnRaw Order pub pk w px with
    | none => rw [hg] at h; simp at h
    | some pf => exact ⟨pf, rfl⟩
  · rintro ⟨pf, h⟩
    exact ⟨(pk, pf), by rw [h]; rfl⟩

/-- C51 on the real curve: the verdict on the honest proof of a satisfying witness (at least two gates, no coincidences in the
in-place additions, `t` fields up to date): accepted exactly when the x-coordinate of `g^(E(x))` equals `G(x)`. -/
theorem C51_bn256_exact {pub : Nat} {r : R1CS (List Int)} {w : List Int} (hu : Usable Order pub r w) (h2 : 2 ≤ r.rows.length)
    (tox : Toxic) (ht : ToxicOK Order tox) (hsat : ∀ row ∈ r.rows, SatD Order gxBn w row)
    (hsafe : (denseSys Order r).Safe gxBn pub (secretsOf Order tox) (assign Order w)) :
    ∃ pk pf, honestRun bnRaw Order pub r tox w = some (pk, pf) ∧
      (FreshT pk pf → verifyProof bnRaw pk pf (w.take pub) = some (decide (
        gxBn ((denseSys Order r).expAt (assign Order w) tox.x) =
        (through r.rows.length (fun j => gxBn (rowVal r.index.length (denseSys Order r).E (assign Order w) j))).eval
          (tox.x : ZMod Order)))) := by
  have hm : 0 < r.index.length := lt_of_le_of_lt (Nat.zero_le _) hu.pub
  obtain ⟨tr, px, t1, t2, t3, t4, t5⟩ := combine_rel bn_implements r (usable_ne hu) hu.small hm (usable_rect hu) w hu.wlen
  obtain ⟨tr', pk, s1, s2, s3⟩ := trustedSetup_rel bn_implements r (usable_ne hu) hu.small (usable_rect hu) pub hu.pub ht
  obtain rfl : tr = tr' := by rw [t1] at s1; exact Option.some.inj s1
  obtain ⟨pf, p1, p2⟩ := honest_rel bn_implements s3 h2 hu.small hu.pub0 hu.pub (secrets_ne tox ht).1 (secrets_ne tox ht).2 w hu.wlen
    hu.wnonneg px t3 t4 t5 ((sat_dense r _ w hu.wlen).1 hsat) hsafe
  refine ⟨pk, pf, ?_, fun f => p2 f.beta f.gamma f.delta f.B f.sum⟩
  unfold honestRun
  simp only [Option.bind_eq_bind]
  rw [t1, Option.bind_some, s2, Option.bind_some, t2, Option.bind_some, p1]; rfl

/-- C50 on the real curve: a system without base multiplication, at least two gates, any satisfying witness, any setup
randomness: the honest proof is accepted - provided none of the in-place point additions adds a point to itself and no random
`z` coordinate is exactly 1 with an outdated `t`.  Missing: these coincidences (see C50_bn256_in_place_refuted). -/
theorem C50_bn256_partial {pub : Nat} {r : R1CS (List Int)} {w : List Int} (hu : Usable Order pub r w) (h2 : 2 ≤ r.rows.length)
    (hE : NoExp Order r) (tox : Toxic) (ht : ToxicOK Order tox) (hsat : ∀ row ∈ r.rows, SatD Order gxBn w row)
    (hsafe : (denseSys Order r).Safe gxBn pub (secretsOf Order tox) (assign Order w)) :
    ∃ pk pf, honestRun bnRaw Order pub r tox w = some (pk, pf) ∧
      (FreshT pk pf → verifyProof bnRaw pk pf (w.take pub) = some true) := by
  obtain ⟨pk, pf, h1, h2⟩ := C51_bn256_exact hu h2 tox ht hsat hsafe
  refine ⟨pk, pf, h1, fun hf => ?_⟩
  rw [h2 hf]
  have hz : ∀ j i, (denseSys Order r).E j i = 0 := noExp_zero hE
  have hr0 : ∀ j, rowVal r.index.length (denseSys Order r).E (assign Order w) j = 0 := fun j => by simp [rowVal, hz]
  have ht0 : through (q := Order) r.rows.length (fun _ => 0) = 0 :=
    (Lagrange.interpolate (Finset.range r.rows.length) (fun j : Nat => (j : ZMod Order))).map_zero
  have he : (denseSys Order r).expAt (assign Order w) tox.x = 0 := by
    unfold Sys.expAt Sys.col
    refine Finset.sum_eq_zero fun i _ => ?_
    have : (fun j => (denseSys Order r).E j i) = fun _ => 0 := by funext j; exact hz j i
    rw [this]
    have hn : (denseSys Order r).n = r.rows.length := rfl
    rw [hn, ht0]; simp
  simp only [hr0, he, gxBn_zero, ht0]; simp

/-- C53 on the real curve: soundness fails.  No witness satisfies `doubleSys` with the public signals `1, 2, 3` ("3 is twice
2"), and there are fixed integers from which, for every setup, a proof accepted for these signals is computed out of the
published key with library calls (no coincidence in the verifier's additions, `t` fields up to date). -/
theorem C53_bn256_refuted :
    (∀ x : Int, ¬ ∀ row ∈ doubleSys.rows, SatD Order gxBn [1, 2, 3, x] row) ∧
    ∃ qs : List Int, ∀ tox, ToxicOK Order tox → ∃ tr pk, transposeR1CS doubleSys = some tr ∧
      trustedSetup bnRaw Order 3 tr tox = some pk ∧
      (SafeSeq ((denseSys Order doubleSys).seqPub 3 (secretsOf Order tox) (assign Order [1, 2, 3, 2])) →
        FreshT pk (forgeBn pk 3 [1, 2, 3, 2] 1 qs) →
        verifyProof bnRaw pk (forgeBn pk 3 [1, 2, 3, 2] 1 qs) [1, 2, 3] = some true) := by
  have hp : Order.Prime := Fact.out
  constructor
  · intro x h
    have a := h ⟨[0, 0, 0, 1], [1, 0, 0, 0], [0, 0, 0, 0], [0, 1, 0, 0]⟩ (by simp [doubleSys])
    have b := h ⟨[0, 0, 0, 1], [2, 0, 0, 0], [0, 0, 0, 0], [0, 0, 1, 0]⟩ (by simp [doubleSys])
    unfold SatD RowSat at a b
    simp [dot, denseEntry, gxBn_zero, Finset.sum_range_succ] at a b
    rw [a] at b
    have : (1 : ZMod Order) = 0 := by linear_combination b
    exact one_ne_zero this
  · have hu : Usable Order 3 doubleSys [1, 2, 3, 2] := ⟨by decide, hp.two_le, by decide, by decide, by decide, by decide, by decide⟩
    have hadd : ∀ a b s t, BR1 a s → BR1 b t → BR1 (addNew1 a b) (s + t) := by
      intro a b s t ha hb
      have := (C60_g1_add ((newMem1.set (.obj 1) a).set (.obj 2) b) (.obj 0) (.obj 1) (.obj 2) (A := s.val • G1gen) (B := t.val • G1gen)
        (by rw [Mem.set_other _ _ (by decide), Mem.set_same]; exact ha) (by rw [Mem.set_same]; exact hb) (Or.inl (by decide))).1
      rw [← val1_add] at this
      exact this
    obtain ⟨qs, hqs⟩ := forge_rel bn_implements hadd (denseSys Order doubleSys) hu.rows hu.small 3 hu.pub0 hu.pub [1, 2, 3, 2] hu.wlen
      hu.wnonneg 1 (by norm_num) (by
        intro j hj
        have : j = 0 ∨ j = 1 := by have : j < 2 := hj; omega
        rw [gxX_bn]
        rcases this with rfl | rfl <;>
          simp [rowVal, denseSys, doubleSys, denseEntry, assign, Finset.sum_range_succ, gxBn_one] <;> ring)
    refine ⟨qs, fun tox ht => ?_⟩
    obtain ⟨tr, pk, s1, s2, s3⟩ := trustedSetup_rel bn_implements doubleSys (usable_ne hu) hu.small (usable_rect hu) 3 hu.pub ht
    exact ⟨tr, pk, s1, s2, fun hsafe f => hqs _ pk (secrets_ne tox ht).1 (secrets_ne tox ht).2 s3 hsafe _ rfl f.beta f.gamma f.delta f.B f.sum⟩

/-! ### concrete runs -/

/-- checks of `FreshT` that the kernel can evaluate -/
def freshCheck (pk : Pk (Pt Int) (Pt Gfp2) Gfp12) (B : Pt Gfp2) : Bool :=
  let c : Pt Gfp2 → Bool := fun b => b.z != Gfp2.one || b.t == Gfp2.one
  c pk.beta2 && c pk.gamma2 && c pk.delta2 && c B && c (bnFast.addFresh2 B pk.beta2)

theorem fresh_of_check {pk : Pk (Pt Int) (Pt Gfp2) Gfp12} {pf : Proof (Pt Int) (Pt Gfp2)} (h : freshCheck pk pf.B = true) : FreshT pk pf := by
  have hc : ∀ b : Pt Gfp2, (b.z != Gfp2.one || b.t == Gfp2.one) = true → UpToDate b := by
    intro b hb hz
    rw [hz] at hb
    have : b.t = Gfp2.one := by simpa using hb
    rw [this, val2_one]
  simp only [freshCheck, Bool.and_eq_true] at h
  obtain ⟨⟨⟨⟨h1, h2⟩, h3⟩, h4⟩, h5⟩ := h
  rw [bnFast_eq] at h5
  exact ⟨hc _ h1, hc _ h2, hc _ h3, hc _ h4, hc _ h5⟩

theorem fresh_of_run {pub : Nat} {r : R1CS (List Int)} {tox : Toxic} {w : List Int} {pk pf}
    (h : honestRun bnRaw Order pub r tox w = some (pk, pf))
    (hc : ((honestRun bnFast Order pub r tox w).map fun x => freshCheck x.1 x.2.B) = some true) : FreshT pk pf := by
  rw [bnFast_eq, h] at hc
  exact fresh_of_check (Option.some.inj hc)

theorem cube_usable_bn : Usable Order 2 cubeSys [1, 27, 3, 9] := by
  refine ⟨by decide, ?_, by decide, by decide, by decide, by decide, by decide⟩
  exact (Fact.out : Order.Prime).two_le

theorem toxEx_ok_bn : ToxicOK Order toxEx := by constructor <;> decide +kernel

theorem cube_sat_bn : ∀ row ∈ cubeSys.rows, SatD Order gxBn [1, 27, 3, 9] row := by
  have h1 : ∀ row ∈ cubeSys.rows, dot Order (denseEntry row.E) [1, 27, 3, 9] = 0 := by decide +kernel
  have h2 : ∀ row ∈ cubeSys.rows, dot Order (denseEntry row.L) [1, 27, 3, 9] * dot Order (denseEntry row.R) [1, 27, 3, 9] =
    dot Order (denseEntry row.O) [1, 27, 3, 9] := by decide +kernel
  intro row hrow
  unfold SatD RowSat
  rw [h1 row hrow, gxBn_zero, add_zero, h2 row hrow]

theorem cube_safe_bn : (denseSys Order cubeSys).Safe gxBn 2 (secretsOf Order toxEx) (assign Order [1, 27, 3, 9]) := by
  have h0 : ∀ j, j < 2 → rowVal (denseSys Order cubeSys).m (denseSys Order cubeSys).E (assign Order [1, 27, 3, 9]) j = 0 := by decide +kernel
  refine safe_two' _ rfl _ _ _ _ ?_ (by decide +kernel) (by decide +kernel)
    (fun M i => M 0 i + (M 1 i - M 0 i) * 5) (fun _ _ => by norm_num [secretsOf, toxEx])
    (fun i => 7 * ((denseSys Order cubeSys).R 0 i + ((denseSys Order cubeSys).R 1 i - (denseSys Order cubeSys).R 0 i) * 5) +
      11 * ((denseSys Order cubeSys).L 0 i + ((denseSys Order cubeSys).L 1 i - (denseSys Order cubeSys).L 0 i) * 5) +
      11 * ((denseSys Order cubeSys).E 0 i + ((denseSys Order cubeSys).E 1 i - (denseSys Order cubeSys).E 0 i) * 5) +
      ((denseSys Order cubeSys).O 0 i + ((denseSys Order cubeSys).O 1 i - (denseSys Order cubeSys).O 0 i) * 5))
    (fun _ => by norm_num [secretsOf, toxEx])
    (by decide +kernel) (by decide +kernel) (by decide +kernel) (by decide +kernel) ?_
  · exact (sat_dense cubeSys _ _ rfl).1 cube_sat_bn
  · rw [h0 0 (by norm_num), h0 1 (by norm_num), gxBn_zero]
    decide +kernel

/-- the hypotheses of C49, C50, C51 and C54 hold on the real curve for a concrete system with concrete randomness, including
the up-to-date `t` fields; so the real verifier accepts the real proof -/
example : ∃ pk pf, honestRun bnRaw Order 2 cubeSys toxEx [1, 27, 3, 9] = some (pk, pf) ∧
    verifyProof bnRaw pk pf [1, 27] = some true := by
  obtain ⟨pk, pf, h1, h2⟩ := C50_bn256_partial cube_usable_bn (by decide) (by unfold NoExp; decide +kernel) toxEx toxEx_ok_bn cube_sat_bn
    cube_safe_bn
  exact ⟨pk, pf, h1, h2 (fresh_of_run h1 (by decide +kernel))⟩

/-! ### C51: base multiplication on the real curve -/

theorem bn_laws : Laws (expApi Order bnX) Order (1 : ZMod Order) (1 : ZMod Order) :=
  exp_laws bnX bn_implements.x_zero bn_implements.x_nonneg

theorem bnX_one : bnX 1 = 1 := by
  have h1 : Fact (1 < Order) := ⟨by decide +kernel⟩
  have h2 : Fact (1 < P) := ⟨by decide +kernel⟩
  unfold bnX
  rw [ZMod.val_one, one_nsmul]
  show (((1 : ZMod P).val : Nat) : Int) = 1
  rw [ZMod.val_one]; rfl

theorem bnX_neg (s : ZMod Order) : bnX (-s) = bnX s := by
  have : (-s).val • G1gen = -(s.val • G1gen) := by
    have h := val1_add (-s) s
    rw [neg_add_cancel, ZMod.val_zero, zero_nsmul] at h
    exact eq_neg_of_add_eq_zero_left h.symm
  unfold bnX
  rw [this]
  cases s.val • G1gen <;> rfl

/-- setup randomness for the refutation -/
def toxBad : Toxic := ⟨Order - 1, 0, 1, 1, 1⟩

/-- C51 refuted on the real curve: the program `y = X(g^1)` (two gates, one base multiplication) with its satisfying witness
and this setup: the honest proof is generated and the verifier rejects it. -/
theorem C51_bn256_refuted : Usable Order 1 expSys [1, 1] ∧ (∀ row ∈ expSys.rows, SatD Order gxBn [1, 1] row) ∧ ToxicOK Order toxBad ∧
    ∃ pk pf, honestRun bnRaw Order 1 expSys toxBad [1, 1] = some (pk, pf) ∧ verifyProof bnRaw pk pf [1] = some false := by
  have hsat : ∀ row ∈ expSys.rows, SatD Order gxBn [1, 1] row := by
    have := exp_sat bn_laws bnX_one
    rwa [gxOf_exp] at this
  have hq : 2 ≤ Order := (Fact.out : Order.Prime).two_le
  have ht : ToxicOK Order toxBad := by constructor <;> decide +kernel
  refine ⟨exp_usable hq, hsat, ht, ?_⟩
  have hx : (secretsOf Order toxBad).x = -1 := by decide +kernel
  obtain ⟨pk, pf, h1, h2⟩ := C51_bn256_exact (exp_usable hq) (by decide) toxBad ht hsat (by
    have := exp_safe bn_laws bnX_one (secretsOf Order toxBad) (by decide +kernel) (by rw [hx]; decide +kernel) (by decide +kernel)
    rwa [gxOf_exp] at this)
  refine ⟨pk, pf, h1, ?_⟩
  have := h2 (fresh_of_run h1 (by decide +kernel))
  rw [show ([1, 1] : List Int).take 1 = [1] from rfl] at this
  rw [this]
  have hx' : ((toxBad.x : Int) : ZMod Order) = -1 := hx
  have e1 : (denseSys Order expSys).expAt (assign Order [1, 1]) toxBad.x = toxBad.x := by
    unfold Sys.expAt
    simp only [col_two (denseSys Order expSys) rfl]
    simp [denseSys, expSys, denseEntry, assign, Finset.sum_range_succ]
  have e2 : (through expSys.rows.length (fun j => gxBn (rowVal expSys.index.length (denseSys Order expSys).E
      (assign Order [1, 1]) j))).eval (toxBad.x : ZMod Order) = toxBad.x := by
    rw [show expSys.rows.length = 2 from rfl, through_two]
    simp [rowVal, denseSys, expSys, denseEntry, assign, Finset.sum_range_succ, gxBn_zero, gxBn_one]
  rw [e1, e2, hx']
  have hne : ¬ gxBn (-1) = -1 := by
    unfold gxBn
    rw [bnX_neg, bnX_one]
    decide +kernel
  rw [decide_eq_false hne]

/-! ### C53: a concrete setup -/

/-- B of the forged proof, with the fast functions -/
def forgeB (pk : Pk (Pt Int) (Pt Gfp2) Gfp12) : Pt Gfp2 := linNew (bnFast.base2 0) bnFast.addFresh2 bnFast.mul2 [1, 2, 3, 2] pk.Rx

/-- the setup `toxEx` meets the conditions of `C53_bn256_refuted`: the real verifier accepts "3 is twice 2" -/
example : ∃ qs tr pk, transposeR1CS doubleSys = some tr ∧ trustedSetup bnRaw Order 3 tr toxEx = some pk ∧
    verifyProof bnRaw pk (forgeBn pk 3 [1, 2, 3, 2] 1 qs) [1, 2, 3] = some true := by
  obtain ⟨-, qs, h⟩ := C53_bn256_refuted
  obtain ⟨tr, pk, h1, h2, h3⟩ := h toxEx toxEx_ok_bn
  refine ⟨qs, tr, pk, h1, h2, h3 ?_ ?_⟩
  · have hcol : ∀ M i, ((denseSys Order doubleSys).col M i).eval (secretsOf Order toxEx).x = M 0 i + (M 1 i - M 0 i) * 5 :=
      fun M i => (col_two _ rfl M i _).trans (by norm_num [secretsOf, toxEx])
    simp only [Sys.seqPub, Sys.mix, hcol]
    have : (secretsOf Order toxEx).gamma⁻¹ = 1 := by rw [show (secretsOf Order toxEx).gamma = 1 by decide +kernel, inv_one]
    rw [this]
    decide +kernel
  · have hc : ((transposeR1CS doubleSys).bind fun tr => (trustedSetup bnFast Order 3 tr toxEx).map fun pk => freshCheck pk (forgeB pk)) =
      some true := by decide +kernel
    rw [h1, Option.bind_some, bnFast_eq, h2] at hc
    refine fresh_of_check ?_
    have e : forgeB pk = (forgeBn pk 3 [1, 2, 3, 2] 1 qs).B := by unfold forgeB forgeBn; rw [bnFast_eq]
    rw [← e]
    exact Option.some.inj hc

end APS
