import Verif.Props.Soundness
import Verif.Props.SnarkBn
import Verif.Spec.SoundnessBn

/-! Property C53 on the real curve, the positive part. -/
namespace APS
open Polynomial APS.Spec APS.Snark APS.Circuit APS.Pairing

theorem expo_val {G : Type} [AddCommGroup G] {q : Nat} [NeZero q] {g : G} (h : q • g = 0) (s : ZMod q) : expo q g h s = s.val • g := by
  have := expo_cast h (s.val : Int)
  rw [← natCast_zsmul, ← this]
  simp

theorem points1 {l : List (Pt Int)} {ss : List (ZMod Order)} {Q : List (E1 P).Point} (h : List.Forall₂ BR1 l ss)
    (h' : List.Forall₂ (Rep1 P) l Q) : Q = ss.map (expo Order G1gen order_G1) := by
  induction h generalizing Q with
  | nil => cases h'; rfl
  | cons a _ ih =>
    cases h' with
    | cons b hb =>
      rw [List.map_cons, ← ih hb, expo_val, rep_unique a b]

theorem points2 {l : List (Pt Gfp2)} {ss : List (ZMod Order)} {Q : List (E2 P).Point} (h : List.Forall₂ BR2 l ss)
    (h' : List.Forall₂ (Rep2 P) l Q) : Q = ss.map (expo Order G2gen order_G2) := by
  induction h generalizing Q with
  | nil => cases h'; rfl
  | cons a _ ih =>
    cases h' with
    | cons b hb =>
      rw [List.map_cons, ← ih hb, expo_val, rep2_unique a b]

theorem point1 {a : Pt Int} {s : ZMod Order} {Q : (E1 P).Point} (h : BR1 a s) (h' : Rep1 P a Q) : Q = expo Order G1gen order_G1 s := by
  rw [expo_val]; exact rep_unique h' h

theorem point2 {a : Pt Gfp2} {s : ZMod Order} {Q : (E2 P).Point} (h : BR2 a s) (h' : Rep2 P a Q) : Q = expo Order G2gen order_G2 s := by
  rw [expo_val]; exact rep2_unique h' h

theorem keyExpo_bn {S : Sys Order} {pub : Nat} {t : Secrets Order} {pk : Pk (Pt Int) (Pt Gfp2) Gfp12} {K}
    (h : PkRel BR1 BR2 BRT UpToDate S pub t pk) (hK : KeyPoints pk K) : KeyExpo G1gen order_G1 G2gen order_G2 S pub t K where
  rleoDelta := points1 h.rleoDelta hK.rleoDelta
  alpha := point1 h.alpha hK.alpha
  rleoGamma := points1 h.rleoGamma hK.rleoGamma
  powersX1 := points1 h.powers1 hK.powersX1
  powersXDD := points1 h.powersXDD hK.powersXDD
  LE := points1 h.LE hK.LE
  Ex := points1 h.Ex hK.Ex
  beta2 := point2 h.beta2 hK.beta2
  gamma2 := point2 h.gamma2 hK.gamma2
  delta2 := point2 h.delta2 hK.delta2
  Rx := points2 h.Rx hK.Rx
  beta1 := point1 h.beta1 hK.beta1
  delta1 := point1 h.delta1 hK.delta1
  powersX2 := points2 h.powers2 hK.powersX2

theorem forall_rep {A B C : Type} {R : A → B → Prop} {f : B → C} {Q : A → C → Prop} (h : ∀ a b, R a b → Q a (f b)) {l : List A} {ss : List B}
    (hl : List.Forall₂ R l ss) : List.Forall₂ Q l (ss.map f) := by
  induction hl with
  | nil => exact .nil
  | cons a _ ih => exact .cons (h _ _ a) ih

/-- every key of the setup stands for points, so every linear prover has a proof for it -/
theorem keyPoints_exist {S : Sys Order} {pub : Nat} {t : Secrets Order} {pk : Pk (Pt Int) (Pt Gfp2) Gfp12}
    (h : PkRel BR1 BR2 BRT UpToDate S pub t pk) : ∃ K, KeyPoints pk K := by
  have e1 : ∀ {l : List (Pt Int)} {ss}, List.Forall₂ BR1 l ss → List.Forall₂ (Rep1 P) l (ss.map fun s => s.val • G1gen) :=
    fun h => forall_rep (R := BR1) (Q := Rep1 P) (f := fun s => s.val • G1gen) (fun _ _ h => h) h
  have e2 : ∀ {l : List (Pt Gfp2)} {ss}, List.Forall₂ BR2 l ss → List.Forall₂ (Rep2 P) l (ss.map fun s => s.val • G2gen) :=
    fun h => forall_rep (R := BR2) (Q := Rep2 P) (f := fun s => s.val • G2gen) (fun _ _ h => h) h
  exact ⟨⟨[], (), (), _, _, _, _, _, _, _, _, _, _, _, _, _, _⟩,
    { rleoDelta := e1 h.rleoDelta, alpha := h.alpha, beta1 := h.beta1, delta1 := h.delta1, rleoGamma := e1 h.rleoGamma,
      powersX1 := e1 h.powers1, powersXDD := e1 h.powersXDD, LE := e1 h.LE, Ex := e1 h.Ex, beta2 := h.beta2, gamma2 := h.gamma2,
      delta2 := h.delta2, powersX2 := e2 h.powers2, Rx := e2 h.Rx }⟩

/-- C53 on the real curve: as `C53_linear_prover_partial`, for the modelled bn256. -/
theorem C53_bn256_linear_prover_partial {r : R1CS (List Int)} (sig : List Int) (hu : UsableSys Order sig.length r)
    (hs : ∀ s ∈ sig, 0 ≤ s) (Pr : LinProver) :
    (denseSys Order r).ShiftSat gxBn Pr.k (Pr.witness Order sig) ∨
      (Pr.convincingBn r sig).Finite ∧ (Pr.convincingBn r sig).ncard ≤ (3 * r.rows.length + 4) * Order ^ 4 := by
  have hw := usable_zero hu
  have hfin : (Pr.convincingBn r sig).Finite :=
    Set.Finite.of_finite_image (secrets_finite _) (toxic_coords_inj.mono fun _ h => h.1)
  have key : ∀ t ∈ secretsOf Order '' Pr.convincingBn r sig, t.gamma ≠ 0 ∧ t.delta ≠ 0 ∧
      expo1 (denseSys Order r) sig.length t Pr.A * (expo2 (denseSys Order r) t Pr.B + t.beta) + gxBn Pr.k =
      t.alpha * t.beta + (∑ i ∈ Finset.range sig.length, assign Order sig i * (denseSys Order r).mix t i) +
        expo1 (denseSys Order r) sig.length t Pr.C * t.delta + (Pr.k : ZMod Order) * expo2 (denseSys Order r) t Pr.B := by
    rintro _ ⟨tox, ⟨ht, hsafe, tr, pk, K, pf, h1, h2, hK, hP, hF, h3⟩, rfl⟩
    obtain ⟨tr', pk', s1, s2, s3⟩ := trustedSetup_rel bn_implements r (usable_ne hw) hu.small (usable_rect hw) sig.length hu.pub ht
    rw [h1] at s1; cases s1
    rw [h2] at s2; cases s2
    obtain ⟨hg, hd⟩ := secrets_ne tox ht
    refine ⟨hg, hd, ?_⟩
    have k := keyExpo_bn s3 hK
    obtain ⟨pA, pB, pC, pF⟩ := hP
    simp only [LinProver.proof] at pA pB pC pF
    rw [point1_expo k, expo_val] at pA pC
    rw [point2_expo k, expo_val] at pB
    rw [powerF_expo k hu.rows, expo_val] at pF
    rw [verify_rel bn_implements s3 pf _ _ _ _ pA pB pC pF sig hs rfl hu.pub0 hsafe hg hF.beta hF.gamma hF.delta hF.B hF.sum,
      gxX_bn] at h3
    simpa using h3
  rcases lin_sound (denseSys Order r) hu.small hu.pub.le Pr sig rfl (gxBn Pr.k) _ key with h | h
  · exact .inl h
  · right
    rw [Set.InjOn.ncard_image (toxic_coords_inj.mono fun _ h => h.1)] at h
    exact ⟨hfin, h⟩

/-- C53 on the real curve for programs without base multiplications and provers with a trivial element F. -/
theorem C53_bn256_plain_partial {r : R1CS (List Int)} (sig : List Int) (hu : UsableSys Order sig.length r)
    (hs : ∀ s ∈ sig, 0 ≤ s) (hE : NoExp Order r)
    (hno : ∀ w : List Int, w.length = r.index.length → w.take sig.length = sig → ¬ ∀ row ∈ r.rows, SatD Order gxBn w row)
    (Pr : LinProver) (hk : Pr.k = 0) :
    (Pr.convincingBn r sig).Finite ∧ (Pr.convincingBn r sig).ncard ≤ (3 * r.rows.length + 4) * Order ^ 4 := by
  rcases C53_bn256_linear_prover_partial sig hu hs Pr with h | h
  · obtain ⟨h1, h2, h3⟩ := wires_sat hu.pub.le hE gxBn_zero (by rw [hk] at h; simpa using h)
    exact absurd h3 (hno _ h1 h2)
  · exact h

/-- "3 is twice 2" -/
example (Pr : LinProver) (hk : Pr.k = 0) : (Pr.convincingBn doubleSys [1, 2, 3]).ncard ≤ 10 * Order ^ 4 := by
  refine (C53_bn256_plain_partial (r := doubleSys) [1, 2, 3] ⟨by decide, (Fact.out : Order.Prime).two_le, by decide, by decide,
    by decide⟩ (by decide) (by unfold NoExp; decide +kernel) ?_ Pr hk).2
  intro w hl ht
  match w, hl with
  | [a, b, c, d], _ =>
    simp at ht
    obtain ⟨rfl, rfl, rfl⟩ := ht
    exact C53_bn256_refuted.1 d

end APS
