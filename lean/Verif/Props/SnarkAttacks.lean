import Verif.Props.Snark

/-! Properties C51 (refutation), C52, C53, C56: what the verification equation does and does not give. -/
namespace APS
open Polynomial APS.Spec APS.Snark APS.Circuit

variable {G1 G2 GT : Type} [AddCommGroup G1] [AddCommGroup G2] [AddCommGroup GT]

/-! ### C52 -/

/-- C52: a key made for `pub` public wires rejects every proof when the number of signals is not `pub`. -/
theorem C52_length {q : Nat} (hp : q.Prime) {api : Api G1 G2 GT} {g1 : G1} {g2 : G2} (H : Laws api q g1 g2)
    {pub : Nat} {r : R1CS (List Int)} {w : List Int} (hu : Usable q pub r w) (tox : Toxic) (ht : ToxicOK q tox) :
    ∃ tr pk, transposeR1CS r = some tr ∧ trustedSetup api q pub tr tox = some pk ∧
      ∀ (pf : Proof G1 G2) (sig : List Int), sig.length ≠ pub → verifyProof api pk pf sig = some false := by
  have := Fact.mk hp
  obtain ⟨tr, pk, s1, s2, s3⟩ := trustedSetup_spec (q := q) H r (usable_ne hu) hu.small (usable_rect hu) pub hu.pub ht
  refine ⟨tr, pk, s1, s2, fun pf sig h => ?_⟩
  have hl : pk.rleoGamma.length = pub := by rw [s3.rleoGamma]; simp
  unfold verifyProof
  rw [if_pos (by rw [hl]; exact h)]

theorem scaleAll_eq {G : Type} (mul : G → Int → G) : ∀ (bs : List G) (ks : List Int), ks.length ≤ bs.length →
    scaleAll mul bs ks = some (List.zipWith (fun b k => mul b k) bs ks)
  | _, [], _ => by simp [scaleAll]
  | [], _ :: _, h => by simp at h
  | b :: bs, k :: ks, h => by simp [scaleAll, scaleAll_eq mul bs ks (by simpa using h)]

theorem commitment_eq (api : Api G1 G2 GT) (bs : List G1) (ks : List Int) (h : ks.length = bs.length) :
    (scaleAll api.mul1 bs ks).bind (accumulate api.addTo1) = publicCommitment api bs ks := by
  rw [scaleAll_eq _ _ _ (le_of_eq h), Option.bind_some]
  unfold publicCommitment accumulate
  split <;> rename_i h1 <;> rw [h1]

/-- C52: a verdict "accepted" fixes the public commitment.  For any key whose `gamma` is not zero (nothing else is assumed
of the key), any proof whatsoever and any two signal vectors of the right length: if the first is accepted, the second is
accepted exactly when both have the same public commitment. -/
theorem C52_bound {q : Nat} [Fact q.Prime] {api : Api G1 G2 GT} {g1 : G1} {g2 : G2} (H : Laws api q g1 g2)
    (hcyc : ∀ a : G1, ∃ k : Int, a = k • g1) (pk : Pk G1 G2 GT) (gamma : Int) (hg : ¬ (q : Int) ∣ gamma)
    (hpk : pk.gamma2 = gamma • g2) (pf : Proof G1 G2) (sig sig' : List Int) (hl : sig'.length = sig.length)
    (h : verifyProof api pk pf sig = some true) :
    verifyProof api pk pf sig' = some true ↔
      publicCommitment api pk.rleoGamma sig' = publicCommitment api pk.rleoGamma sig := by
  have hlen : sig.length = pk.rleoGamma.length := by
    by_contra hne
    unfold verifyProof at h
    rw [if_pos hne] at h; simp at h
  unfold verifyProof at h ⊢
  rw [if_neg (by rw [hl]; simpa using hlen)]
  rw [if_neg (by simpa using hlen)] at h
  simp only [Option.bind_eq_bind] at h ⊢
  rw [commitment_eq _ _ _ (hl.trans hlen)]
  rw [commitment_eq _ _ _ hlen] at h
  constructor
  · intro h'
    cases hc : publicCommitment api pk.rleoGamma sig with
    | none => rw [hc] at h; simp at h
    | some c =>
      cases hc' : publicCommitment api pk.rleoGamma sig' with
      | none => rw [hc'] at h'; simp at h'
      | some c' =>
        rw [hc] at h; rw [hc'] at h'
        simp only [Option.bind_some, Option.pure_def, Option.some.injEq, H.eqT, H.addT] at h h'
        have he : api.pair c' pk.gamma2 = api.pair c pk.gamma2 := by
          rw [h] at h'
          have := add_right_cancel h'
          exact (add_left_cancel this).symm
        obtain ⟨k, rfl⟩ := hcyc c
        obtain ⟨k', rfl⟩ := hcyc c'
        rw [hpk, H.pair, H.pair] at he
        rw [← expo_cast (orderT' H), ← expo_cast (orderT' H)] at he
        have := expoT_inj H he
        push_cast at this
        have hgz : (gamma : ZMod q) ≠ 0 := fun hz => hg ((ZMod.intCast_zmod_eq_zero_iff_dvd _ _).1 hz)
        have := mul_right_cancel₀ hgz this
        rw [← expo_cast H.order1, ← expo_cast H.order1, this]
  · intro he; rw [he]; exact h

theorem linComb_expo {q : Nat} {G : Type} [AddCommGroup G] {g : G} (h : q • g = 0) (m : Nat) (f : Nat → ZMod q)
    (w : List Int) (hw : w.length = m) [Fact q.Prime] : linComb w (((List.range m).map f).map (expo q g h)) =
      expo q g h (∑ i ∈ Finset.range m, assign q w i * f i) := by
  unfold linComb
  rw [zipWith_expo, zipWith_range w m hw, list_sum_range]

/-- C52: when no in-place addition of the verifier adds a point to itself, the public commitment is the linear
combination of the published points, so it only depends on the signals modulo `q`. -/
theorem C52_commitment {q : Nat} [Fact q.Prime] {api : Api G1 G2 GT} {g1 : G1} {g2 : G2} (H : Laws api q g1 g2)
    {pub : Nat} {r : R1CS (List Int)} {w : List Int} (hu : Usable q pub r w) (tox : Toxic) (ht : ToxicOK q tox) :
    ∃ tr pk, transposeR1CS r = some tr ∧ trustedSetup api q pub tr tox = some pk ∧
      ∀ sig : List Int, sig.length = pub → (∀ k ∈ sig, 0 ≤ k) →
        SafeSeq ((denseSys q r).seqPub pub (secretsOf q tox) (assign q sig)) →
        publicCommitment api pk.rleoGamma sig = some (linComb sig pk.rleoGamma) := by
  obtain ⟨tr, pk, s1, s2, s3⟩ := trustedSetup_spec (q := q) H r (usable_ne hu) hu.small (usable_rect hu) pub hu.pub ht
  refine ⟨tr, pk, s1, s2, fun sig hl hs hsafe => ?_⟩
  have hlen : sig.length = pk.rleoGamma.length := by rw [s3.rleoGamma]; simpa using hl
  rw [← commitment_eq _ _ _ hlen, s3.rleoGamma, scaleAll_spec (mul1_expo H) _ _ (by simp [hl]) hs, zipWith_range sig pub hl,
    linComb_expo _ _ _ _ hl]
  have hne : (denseSys q r).seqPub pub (secretsOf q tox) (assign q sig) ≠ [] := by
    intro h; have := congrArg List.length h; simp [Sys.seqPub] at this; have := hu.pub0; omega
  have := accumulate_safe (expo1_inj H) H.addTo1 hne hsafe
  unfold Sys.seqPub at this
  rw [Option.bind_some, this, list_sum_range]

/-- a key, a proof and two different accepted signal vectors (they agree modulo `q`), one rejected -/
example : ((honestRun (toyApi 101) 101 2 cubeSys toxEx [1, 27, 3, 9]).map fun x =>
    (verifyProof (toyApi 101) x.1 x.2 [1, 27], verifyProof (toyApi 101) x.1 x.2 [1, 128],
      verifyProof (toyApi 101) x.1 x.2 [1, 28], verifyProof (toyApi 101) x.1 x.2 [1])) =
    some (some true, some true, some false, some false) := by decide +kernel
example : ∀ a : ZMod 101, ∃ k : Int, a = k • (1 : ZMod 101) := fun a => ⟨a.val, by simp⟩

/-! ### C51: base multiplication -/

/-- gates `1*1 = 1` and `X(g^1) = y`: wires one (public), y -/
def expSys : R1CS (List Int) where
  index := [(['o'], 0), (['y'], 1)]
  split := []
  rows := [⟨[1, 0], [1, 0], [0, 0], [1, 0]⟩, ⟨[0, 0], [0, 0], [1, 0], [0, 1]⟩]

theorem exp_usable {q : Nat} (hq : 2 ≤ q) : Usable q 1 expSys [1, 1] where
  rows := by decide
  small := hq
  rect := by decide
  pub0 := by decide
  pub := by decide
  wlen := by decide
  wnonneg := by decide

theorem exp_sat {q : Nat} [Fact q.Prime] {api : Api G1 G2 GT} {g1 : G1} {g2 : G2} (H : Laws api q g1 g2)
    (hx : api.x1 g1 = 1) : ∀ row ∈ expSys.rows, SatD q (gxOf api q g1) [1, 1] row := by
  have h0 := gxOf_zero H
  have h1 : gxOf api q g1 1 = 1 := by
    have : Fact (1 < q) := ⟨(Fact.out : q.Prime).one_lt⟩
    simp [gxOf, ZMod.val_one, hx]
  intro row hrow
  have : row = ⟨[1, 0], [1, 0], [0, 0], [1, 0]⟩ ∨ row = ⟨[0, 0], [0, 0], [1, 0], [0, 1]⟩ := by
    simpa [expSys] using hrow
  unfold SatD RowSat
  rcases this with rfl | rfl
  · simp [dot, denseEntry, h0, Finset.sum_range_succ]
  · simp [dot, denseEntry, h1, Finset.sum_range_succ]

theorem exp_safe {q : Nat} [Fact q.Prime] {api : Api G1 G2 GT} {g1 : G1} {g2 : G2} (H : Laws api q g1 g2)
    (hx : api.x1 g1 = 1) (t : Secrets q) (ha : t.alpha ≠ 1) (hx2 : t.x ≠ 2) (hd : t.delta ≠ 0) :
    (denseSys q expSys).Safe (gxOf api q g1) 1 t (assign q [1, 1]) := by
  have h0 := gxOf_zero H
  have h1 : gxOf api q g1 1 = 1 := by
    have : Fact (1 < q) := ⟨(Fact.out : q.Prime).one_lt⟩
    simp [gxOf, ZMod.val_one, hx]
  have hm : (denseSys q expSys).m = 2 := rfl
  have hcol : ∀ M i, ((denseSys q expSys).col M i).eval t.x = M 0 i + (M 1 i - M 0 i) * t.x := fun M i => col_two _ rfl M i t.x
  refine safe_two _ rfl _ _ _ _ ((sat_dense expSys _ _ rfl).1 (exp_sat H hx)) ?_ ?_ ?_ ?_ ?_
  · intro k k0 k1
    simp only [Sys.seqA, hm, hcol] at k1 ⊢
    simp [List.range_succ, denseSys, expSys, denseEntry, assign] at k1 ⊢
    have : k = 1 ∨ k = 2 := by omega
    rcases this with rfl | rfl
    · simp
    · simpa using fun h => absurd h.symm ha
  · intro k k0 k1
    simp only [Sys.seqB, hm, hcol] at k1 ⊢
    simp [List.range_succ, denseSys, expSys, denseEntry, assign] at k1 ⊢
    obtain rfl : k = 1 := by omega
    simp
  · intro k k0 k1
    simp only [Sys.seqF, hm, hcol] at k1 ⊢
    simp [List.range_succ, denseSys, expSys, denseEntry, assign] at k1 ⊢
    obtain rfl : k = 1 := by omega
    simp
  · intro k k0 k1
    simp [Sys.seqPub] at k1; omega
  · intro k k0 k1
    rw [comb_eval_secret, show (denseSys q expSys).n = 2 from rfl, through_two] at *
    simp only [Sys.mix, hm, hcol, Sys_val, Finset.sum_range_succ, rowVal] at k1 ⊢
    simp [denseSys, expSys, denseEntry, assign, h0, h1] at k1 ⊢
    obtain rfl : k = 1 := by omega
    simp only [List.take_succ_cons, List.take_zero, List.sum_cons, List.sum_nil, add_zero, List.getElem?_cons_succ,
      List.getElem?_cons_zero, Option.getD_some]
    intro he
    have he' := mul_left_cancel₀ (inv_ne_zero hd) he
    have h2 : t.x * (t.x - 2) = 0 := by linear_combination -he'
    rcases mul_eq_zero.1 h2 with h3 | h3
    · rw [h3, mul_zero]
    · exact absurd (sub_eq_zero.1 h3) hx2

/-- C51: for the two-gate program `y = X(g^1)` the honest proof is accepted exactly when the secret point satisfies
`X(g^x) = x` modulo `q` - for every group API with `X(g) = 1` (the bn256 generator is `(1, 2)`) and all setup randomness
outside of two coincidences. -/
theorem C51_verdict {q : Nat} [Fact q.Prime] {api : Api G1 G2 GT} {g1 : G1} {g2 : G2} (H : Laws api q g1 g2)
    (hx : api.x1 g1 = 1) (tox : Toxic) (ht : ToxicOK q tox) (ha : tox.alpha ≠ 1) (hx2 : (tox.x : ZMod q) ≠ 2) :
    ∃ pk pf, honestRun api q 1 expSys tox [1, 1] = some (pk, pf) ∧
      verifyProof api pk pf [1] = some (decide (gxOf api q g1 tox.x = tox.x)) := by
  have hq := (Fact.out : q.Prime).two_le
  have h0 := gxOf_zero H
  have h1 : gxOf api q g1 1 = 1 := by
    have : Fact (1 < q) := ⟨(Fact.out : q.Prime).one_lt⟩
    simp [gxOf, ZMod.val_one, hx]
  have hal : (secretsOf q tox).alpha ≠ 1 := by
    intro h
    have h' : ((tox.alpha : Int) : ZMod q) = ((1 : Int) : ZMod q) := by simpa [secretsOf] using h
    rw [ZMod.intCast_eq_intCast_iff] at h'
    have := ht.alpha
    have e := Int.emod_emod_of_dvd tox.alpha (dvd_refl (q : Int))
    unfold Int.ModEq at h'
    rw [Int.emod_eq_of_lt this.1 this.2, Int.emod_eq_of_lt (by omega) (by omega)] at h'
    exact ha h'
  obtain ⟨pk, pf, p1, p2⟩ := C51_exact H (exp_usable hq) (by decide) tox ht (exp_sat H hx)
    (exp_safe H hx _ hal hx2 (secrets_ne tox ht).2)
  refine ⟨pk, pf, p1, ?_⟩
  have e1 : (denseSys q expSys).expAt (assign q [1, 1]) tox.x = tox.x := by
    unfold Sys.expAt
    simp only [col_two (denseSys q expSys) rfl]
    simp [denseSys, expSys, denseEntry, assign, Finset.sum_range_succ]
  have e2 : (through expSys.rows.length (fun j => gxOf api q g1 (rowVal expSys.index.length (denseSys q expSys).E
      (assign q [1, 1]) j))).eval (tox.x : ZMod q) = tox.x := by
    rw [show expSys.rows.length = 2 from rfl, through_two]
    simp [rowVal, denseSys, expSys, denseEntry, assign, Finset.sum_range_succ, h0, h1]
  rw [e1, e2] at p2
  exact p2

/-- C51: the full property is false for every group API with `X(g) = 1` and `X(-a) = X(a)`: with the secret point `q-1`
the honest proof of a satisfied two-gate program with one base multiplication is rejected. -/
theorem C51_refuted {q : Nat} [Fact q.Prime] (hq : 3 < q) {api : Api G1 G2 GT} {g1 : G1} {g2 : G2} (H : Laws api q g1 g2)
    (hx : api.x1 g1 = 1) (hneg : ∀ a, api.x1 (-a) = api.x1 a) :
    Usable q 1 expSys [1, 1] ∧ (∀ row ∈ expSys.rows, SatD q (gxOf api q g1) [1, 1] row) ∧
    ∀ beta gamma delta : Int, ToxicOK q ⟨q - 1, 0, beta, gamma, delta⟩ →
      ∃ pk pf, honestRun api q 1 expSys ⟨q - 1, 0, beta, gamma, delta⟩ [1, 1] = some (pk, pf) ∧
        verifyProof api pk pf [1] = some false := by
  refine ⟨exp_usable (by omega), exp_sat H hx, fun beta gamma delta ht => ?_⟩
  have hcast : ((((q : Int) - 1 : Int)) : ZMod q) = -1 := by push_cast; simp
  have hsmall : ∀ k : Nat, 0 < k → k ≤ 3 → (k : ZMod q) ≠ 0 := by
    intro k h0 h3 h
    have := Nat.le_of_dvd h0 ((ZMod.natCast_eq_zero_iff _ _).1 h); omega
  obtain ⟨pk, pf, p1, p2⟩ := C51_verdict H hx ⟨q - 1, 0, beta, gamma, delta⟩ ht (by simp) (by
    show ((((q : Int) - 1 : Int)) : ZMod q) ≠ 2
    rw [hcast]
    intro h
    refine hsmall 3 (by omega) (by omega) ?_
    push_cast
    linear_combination -h)
  refine ⟨pk, pf, p1, ?_⟩
  rw [p2]
  have hg : gxOf api q g1 (-1) = 1 := by
    rw [gxOf_expo H, map_neg, hneg]
    have := expo_cast H.order1 1
    rw [Int.cast_one, one_zsmul] at this
    rw [this, hx]; simp
  rw [show (((⟨q - 1, 0, beta, gamma, delta⟩ : Toxic).x : Int) : ZMod q) = -1 from hcast, hg]
  congr 1
  rw [decide_eq_false_iff_not]
  intro h
  refine hsmall 2 (by omega) (by omega) ?_
  push_cast
  linear_combination h

/-- C51: at most one of the secret points `x` and `q - x` lets the honest proof through, so the verifier rejects
the honest proof for at least (about) half of all setups. -/
theorem C51_half_refuted {q : Nat} [Fact q.Prime] (hq : 3 < q) {api : Api G1 G2 GT} {g1 : G1} {g2 : G2} (H : Laws api q g1 g2)
    (hx : api.x1 g1 = 1) (hneg : ∀ a, api.x1 (-a) = api.x1 a) (tox : Toxic) (ht : ToxicOK q tox) (h0 : 0 < tox.x)
    (ha : tox.alpha ≠ 1) (hx2 : tox.x ≠ 2) (hx2' : tox.x ≠ q - 2) :
    ∃ pk pf pk' pf', honestRun api q 1 expSys tox [1, 1] = some (pk, pf) ∧
      honestRun api q 1 expSys { tox with x := q - tox.x } [1, 1] = some (pk', pf') ∧
      ¬ (verifyProof api pk pf [1] = some true ∧ verifyProof api pk' pf' [1] = some true) := by
  have hin : ∀ a b : Int, 0 ≤ a → a < q → 0 ≤ b → b < q → ((a : Int) : ZMod q) = (b : Int) → a = b := by
    intro a b a0 a1 b0 b1 h
    rw [ZMod.intCast_eq_intCast_iff] at h
    unfold Int.ModEq at h
    rwa [Int.emod_eq_of_lt a0 a1, Int.emod_eq_of_lt b0 b1] at h
  have hxr := ht.x
  have ht' : ToxicOK q { tox with x := q - tox.x } := { ht with x := ⟨by simp; omega, by simp; omega⟩ }
  have hcast : ((((q : Int) - tox.x : Int)) : ZMod q) = -(tox.x : ZMod q) := by push_cast; simp
  obtain ⟨pk, pf, p1, p2⟩ := C51_verdict H hx tox ht ha (fun h => hx2 (hin _ 2 hxr.1 hxr.2 (by omega) (by omega) (by simpa using h)))
  obtain ⟨pk', pf', p1', p2'⟩ := C51_verdict H hx { tox with x := q - tox.x } ht' ha (fun h => by
    have := hin _ 2 (by omega) (by omega) (by omega) (by omega) (show ((((q : Int) - tox.x : Int)) : ZMod q) = ((2 : Int) : ZMod q) by simpa using h)
    omega)
  refine ⟨pk, pf, pk', pf', p1, p1', ?_⟩
  rw [p2, p2']
  rintro ⟨a, b⟩
  have a' : gxOf api q g1 tox.x = tox.x := by simpa using a
  have b' : gxOf api q g1 ((((q : Int) - tox.x : Int)) : ZMod q) = (((q : Int) - tox.x : Int) : ZMod q) := by simpa using b
  rw [hcast, gxOf_expo H, map_neg, hneg, ← gxOf_expo H, a'] at b'
  have h2 : (2 : ZMod q) * tox.x = 0 := by linear_combination b'
  rcases mul_eq_zero.1 h2 with h | h
  · have := Nat.le_of_dvd (by omega) ((ZMod.natCast_eq_zero_iff 2 q).1 (by exact_mod_cast h)); omega
  · have := hin tox.x 0 hxr.1 hxr.2 le_rfl (by omega) (by simpa using h)
    omega

/-- the hypotheses are met by the toy API; the run computed -/
example : (toyApi 101).x1 1 = 1 ∧ (∀ a, (toyApi 101).x1 (-a) = (toyApi 101).x1 a) ∧ ToxicOK 101 ⟨100, 0, 11, 1, 1⟩ := by
  refine ⟨by decide, fun a => by simp [toyApi], by constructor <;> decide⟩
example : ((honestRun (toyApi 101) 101 1 expSys ⟨100, 0, 11, 1, 1⟩ [1, 1]).bind fun x =>
    verifyProof (toyApi 101) x.1 x.2 [1]) = some false := by decide +kernel
example : ((honestRun (toyApi 101) 101 1 expSys ⟨1, 0, 11, 1, 1⟩ [1, 1]).bind fun x =>
    verifyProof (toyApi 101) x.1 x.2 [1]) = some true := by decide +kernel

/-! ### C53: forging -/

/-- C53: element F of a proof is not tied to the exponents.  Any assignment `w` and integer `k` that meet the altered
constraints `(L·w + E·w - k)(R·w) + X(g^k) = O·w` give a proof that is accepted, for all setup randomness (no coincidence
in the verifier's additions).  The forger needs the published key only; `qs` does not depend on the setup. -/
theorem C53_forgery_refuted {q : Nat} [Fact q.Prime] {api : Api G1 G2 GT} {g1 : G1} {g2 : G2} (H : Laws api q g1 g2)
    {pub : Nat} {r : R1CS (List Int)} {w : List Int} (hu : Usable q pub r w) (k : Int)
    (hs : (denseSys q r).ShiftSat (gxOf api q g1) k (assign q w)) :
    ∃ qs : List Int, ∀ tox, ToxicOK q tox → ∃ tr pk, transposeR1CS r = some tr ∧ trustedSetup api q pub tr tox = some pk ∧
      (SafeSeq ((denseSys q r).seqPub pub (secretsOf q tox) (assign q w)) →
        verifyProof api pk (forge pk pub w k qs) (w.take pub) = some true) := by
  obtain ⟨qs, hqs⟩ := forge_core H (denseSys q r) hu.rows hu.small pub hu.pub0 hu.pub w hu.wlen hu.wnonneg k hs
  refine ⟨qs, fun tox ht => ?_⟩
  obtain ⟨tr, pk, s1, s2, s3⟩ := trustedSetup_spec (q := q) H r (usable_ne hu) hu.small (usable_rect hu) pub hu.pub ht
  exact ⟨tr, pk, s1, s2, fun hsafe => hqs _ pk (secrets_ne tox ht).1 (secrets_ne tox ht).2 s3 hsafe⟩

/-- `x*1 = z; x*2 = y`, that is "y is twice z": wires one, z, y (public), x -/
def doubleSys : R1CS (List Int) where
  index := [(['o'], 0), (['z'], 1), (['y'], 2), (['x'], 3)]
  split := []
  rows := [⟨[0, 0, 0, 1], [1, 0, 0, 0], [0, 0, 0, 0], [0, 1, 0, 0]⟩, ⟨[0, 0, 0, 1], [2, 0, 0, 0], [0, 0, 0, 0], [0, 0, 1, 0]⟩]

/-- C53: soundness fails.  For every prime `q` and every group API with `X(g) = 1` there are a system and public signals
`1, 2, 3` that NO witness satisfies ("3 is twice 2"), and fixed integers from which a proof accepted for these signals is
computed out of any published key. -/
theorem C53_refuted {q : Nat} [Fact q.Prime] {api : Api G1 G2 GT} {g1 : G1} {g2 : G2} (H : Laws api q g1 g2)
    (hx : api.x1 g1 = 1) :
    (∀ x : Int, ¬ ∀ row ∈ doubleSys.rows, SatD q (gxOf api q g1) [1, 2, 3, x] row) ∧
    ∃ qs : List Int, ∀ tox, ToxicOK q tox → ∃ tr pk, transposeR1CS doubleSys = some tr ∧
      trustedSetup api q 3 tr tox = some pk ∧
      (SafeSeq ((denseSys q doubleSys).seqPub 3 (secretsOf q tox) (assign q [1, 2, 3, 2])) →
        verifyProof api pk (forge pk 3 [1, 2, 3, 2] 1 qs) [1, 2, 3] = some true) := by
  have hp : q.Prime := Fact.out
  have h0 := gxOf_zero H
  have h1 : gxOf api q g1 1 = 1 := by
    have : Fact (1 < q) := ⟨hp.one_lt⟩
    simp [gxOf, ZMod.val_one, hx]
  constructor
  · intro x h
    have a := h ⟨[0, 0, 0, 1], [1, 0, 0, 0], [0, 0, 0, 0], [0, 1, 0, 0]⟩ (by simp [doubleSys])
    have b := h ⟨[0, 0, 0, 1], [2, 0, 0, 0], [0, 0, 0, 0], [0, 0, 1, 0]⟩ (by simp [doubleSys])
    unfold SatD RowSat at a b
    simp [dot, denseEntry, h0, Finset.sum_range_succ] at a b
    rw [a] at b
    have : (1 : ZMod q) = 0 := by linear_combination b
    exact one_ne_zero this
  · refine C53_forgery_refuted H (r := doubleSys) (pub := 3) (w := [1, 2, 3, 2]) ⟨by decide, hp.two_le, by decide, by decide, by decide, by decide, by decide⟩ 1 ?_
    intro j hj
    have : j = 0 ∨ j = 1 := by have : j < 2 := hj; omega
    rcases this with rfl | rfl <;>
      simp [rowVal, denseSys, doubleSys, denseEntry, assign, Finset.sum_range_succ, h1] <;> ring

/-- the additions of the verifier are free of coincidences for a concrete setup, and the forged proof computed -/
example : SafeSeq ((denseSys 101 doubleSys).seqPub 3 (secretsOf 101 toxEx) (assign 101 [1, 2, 3, 2])) := by
  have hcol : ∀ M i, ((denseSys 101 doubleSys).col M i).eval (secretsOf 101 toxEx).x = M 0 i + (M 1 i - M 0 i) * 5 :=
    fun M i => col_two _ rfl M i _
  simp only [Sys.seqPub, Sys.mix, hcol]
  have : (secretsOf 101 toxEx).gamma⁻¹ = 1 := by rw [show (secretsOf 101 toxEx).gamma = 1 by decide, inv_one]
  rw [this]
  decide
example : ((transposeR1CS doubleSys).bind fun tr => (trustedSetup (toyApi 101) 101 3 tr toxEx).bind fun pk =>
    verifyProof (toyApi 101) pk (forge pk 3 [1, 2, 3, 2] 1 [0]) [1, 2, 3]) = some true := by decide +kernel

/-! ### C56: no randomisation -/

/-- C56: proofs do not hide the witness.  Anyone who holds the published key can test a guess: the elements A and B of
an honest proof are fixed linear combinations of the published points, whatever the setup randomness. -/
theorem C56_guess_refuted {q : Nat} [Fact q.Prime] {api : Api G1 G2 GT} {g1 : G1} {g2 : G2} (H : Laws api q g1 g2)
    {pub : Nat} {r : R1CS (List Int)} {w : List Int} (hu : Usable q pub r w) (h2 : 2 ≤ r.rows.length) (tox : Toxic)
    (ht : ToxicOK q tox) (hsat : ∀ row ∈ r.rows, SatD q (gxOf api q g1) w row)
    (hsafe : (denseSys q r).Safe (gxOf api q g1) pub (secretsOf q tox) (assign q w)) :
    ∃ pk pf, honestRun api q pub r tox w = some (pk, pf) ∧
      ∀ guess : List Int, guess.length = w.length →
        ((linComb guess pk.Rx = pf.B ∧ linComb guess pk.LE + pk.alpha = pf.A) ↔
          ((through r.rows.length fun j => rowVal r.index.length (denseSys q r).R (assign q guess) j).eval (tox.x : ZMod q) =
            (through r.rows.length fun j => rowVal r.index.length (denseSys q r).R (assign q w) j).eval (tox.x : ZMod q) ∧
          (through r.rows.length fun j => rowVal r.index.length (denseSys q r).L (assign q guess) j +
              rowVal r.index.length (denseSys q r).E (assign q guess) j).eval (tox.x : ZMod q) =
            (through r.rows.length fun j => rowVal r.index.length (denseSys q r).L (assign q w) j +
              rowVal r.index.length (denseSys q r).E (assign q w) j).eval (tox.x : ZMod q))) := by
  have hm : 0 < r.index.length := lt_of_le_of_lt (Nat.zero_le _) hu.pub
  obtain ⟨tr, px, t1, t2, t3, t4, t5⟩ := combine_spec (q := q) H r (usable_ne hu) hu.small hm (usable_rect hu) w hu.wlen
  obtain ⟨tr', pk, s1, s2, s3⟩ := trustedSetup_spec (q := q) H r (usable_ne hu) hu.small (usable_rect hu) pub hu.pub ht
  obtain rfl : tr = tr' := by rw [t1] at s1; exact Option.some.inj s1
  obtain ⟨-, k3⟩ := honest_core H s3 h2 hu.small hu.pub0 hu.pub (secrets_ne tox ht).1 (secrets_ne tox ht).2 w hu.wlen
    hu.wnonneg px t3 t4 t5
  obtain ⟨pf, p1, -, p3, p4⟩ := k3 ((sat_dense r _ w hu.wlen).1 hsat) hsafe
  refine ⟨pk, pf, ?_, fun guess hg => ?_⟩
  · unfold honestRun
    simp only [Option.bind_eq_bind]
    rw [t1, Option.bind_some, s2, Option.bind_some, t2, Option.bind_some, p1]; rfl
  · have hgl : guess.length = (denseSys q r).m := hg.trans hu.wlen
    have hadd : ∀ v : Nat → ZMod q, (through r.rows.length fun j => rowVal r.index.length (denseSys q r).L v j +
        rowVal r.index.length (denseSys q r).E v j) = through r.rows.length (fun j => rowVal r.index.length (denseSys q r).L v j) +
        through r.rows.length (fun j => rowVal r.index.length (denseSys q r).E v j) := by
      intro v; unfold through; rw [← map_add]; rfl
    rw [s3.Rx, s3.LE, s3.alpha, p3, p4, linComb_expo _ _ _ _ hgl, linComb_expo _ _ _ _ hgl, ← map_add,
      (expo1_inj H).eq_iff, (expo2_inj H).eq_iff, hadd, hadd, eval_add, eval_add]
    have e : ∀ M v, (∑ i ∈ Finset.range (denseSys q r).m, v i * ((denseSys q r).col M i).eval (secretsOf q tox).x) =
        (through r.rows.length fun j => rowVal r.index.length M v j).eval (tox.x : ZMod q) :=
      fun M v => Sys_val_through (denseSys q r) M v _
    simp only [mul_add, Finset.sum_add_distrib, e, Sys_val_through]
    refine and_congr Iff.rfl ?_
    constructor
    · intro h; exact (add_comm _ _).trans ((add_right_cancel h).trans (add_comm _ _))
    · intro h; exact congrArg (· + _) ((add_comm _ _).trans (h.trans (add_comm _ _)))

/-- `z = x*x; y = z*z`: wires one, y (public), x, z -/
def squareSys : R1CS (List Int) := ⟨[(['o'], 0), (['y'], 1), (['x'], 2), (['z'], 3)], [],
    [⟨[0, 0, 1, 0], [0, 0, 1, 0], [0, 0, 0, 0], [0, 0, 0, 1]⟩, ⟨[0, 0, 0, 1], [0, 0, 0, 1], [0, 0, 0, 0], [0, 1, 0, 0]⟩]⟩

/-- C56: one key, one public signal vector, two satisfying witnesses (`x = 3` and `x = -3` for `z = x*x; y = z*z`): each
has exactly one proof, both are accepted, and comparing element B with a combination of published points tells which
witness was used. -/
theorem C56_refuted : Usable 101 2 squareSys [1, 81, 3, 9] ∧ Usable 101 2 squareSys [1, 81, 98, 9] ∧ ToxicOK 101 toxEx ∧
    ((transposeR1CS squareSys).bind fun tr => (trustedSetup (toyApi 101) 101 2 tr toxEx).bind fun pk =>
      (honestRun (toyApi 101) 101 2 squareSys toxEx [1, 81, 3, 9]).bind fun a =>
      (honestRun (toyApi 101) 101 2 squareSys toxEx [1, 81, 98, 9]).map fun b =>
        (verifyProof (toyApi 101) pk a.2 [1, 81], verifyProof (toyApi 101) pk b.2 [1, 81],
          decide (linComb [1, 81, 3, 9] pk.Rx = a.2.B), decide (linComb [1, 81, 3, 9] pk.Rx = b.2.B))) =
      some (some true, some true, true, false) :=
  ⟨by constructor <;> decide, by constructor <;> decide, toxEx_ok, by decide +kernel⟩

end APS
