import Verif.Proofs.SnarkAlg
import Verif.Props.SnarkAttacks
import Mathlib.Data.Int.Interval

/-! Property C53, the positive part: what a prover who only knows the published key can prove. -/
namespace APS
open Polynomial APS.Spec APS.Snark APS.Circuit

variable {G1 G2 GT : Type} [AddCommGroup G1] [AddCommGroup G2] [AddCommGroup GT]

theorem toxic_coords_inj {q : Nat} : Set.InjOn (secretsOf q) {t | ToxicOK q t} := by
  have h : ∀ a b : Int, 0 ≤ a → a < q → 0 ≤ b → b < q → (a : ZMod q) = (b : ZMod q) → a = b := by
    intro a b h1 h2 h3 h4 h
    have := (ZMod.intCast_eq_intCast_iff_dvd_sub _ _ _).1 h
    obtain ⟨c, hc⟩ := this
    have : c = 0 := by
      by_contra hne
      rcases lt_or_gt_of_ne hne with hlt | hgt
      · have : (q : Int) * c ≤ (q : Int) * (-1) := Int.mul_le_mul_of_nonneg_left (by omega) (by omega)
        omega
      · have : (q : Int) * 1 ≤ (q : Int) * c := Int.mul_le_mul_of_nonneg_left (by omega) (by omega)
        omega
    subst this
    omega
  rintro ⟨a, b, c, d, e⟩ h1 ⟨a', b', c', d', e'⟩ h2 he
  simp only [secretsOf, Secrets.mk.injEq] at he
  obtain ⟨e1, e2, e3, e4, e5⟩ := he
  simp only [Toxic.mk.injEq]
  exact ⟨h _ _ h1.x.1 h1.x.2 h2.x.1 h2.x.2 e1, h _ _ h1.alpha.1 h1.alpha.2 h2.alpha.1 h2.alpha.2 e2,
    h _ _ h1.beta.1 h1.beta.2 h2.beta.1 h2.beta.2 e3, h _ _ h1.gamma.1.le h1.gamma.2 h2.gamma.1.le h2.gamma.2 e4,
    h _ _ h1.delta.1.le h1.delta.2 h2.delta.1.le h2.delta.2 e5⟩

theorem usable_zero {q pub : Nat} {r : R1CS (List Int)} (h : UsableSys q pub r) :
    Usable q pub r (List.replicate r.index.length 0) :=
  ⟨h.rows, h.small, h.rect, h.pub0, h.pub, by simp, by simp⟩

/-- C53, what remains of soundness: let a prover make A, B and C by fixed linear combinations of the published points, and
F as a fixed power `g^k`.  Either the assignment that can be read off its coefficients continues the public signals and
meets the altered constraints `(L·w + E·w - k)(R·w) + X(g^k) = O·w`, or it convinces the verifier for at most
`(3·gates + 4)·q⁴` of the `q³(q-1)²` possible secrets.  (By `C53_forgery_refuted` the altered constraints are exactly what
such a prover needs.) -/
theorem C53_linear_prover_partial {q : Nat} [Fact q.Prime] {api : Api G1 G2 GT} {g1 : G1} {g2 : G2} (H : Laws api q g1 g2)
    {r : R1CS (List Int)} (sig : List Int) (hu : UsableSys q sig.length r) (hs : ∀ s ∈ sig, 0 ≤ s) (P : LinProver) :
    (denseSys q r).ShiftSat (gxOf api q g1) P.k (P.witness q sig) ∨
      (P.convincing api q r sig).Finite ∧ (P.convincing api q r sig).ncard ≤ (3 * r.rows.length + 4) * q ^ 4 := by
  have hw := usable_zero hu
  have hfin : (P.convincing api q r sig).Finite :=
    Set.Finite.of_finite_image (secrets_finite _) (toxic_coords_inj.mono fun _ h => h.1)
  have key : ∀ t ∈ secretsOf q '' P.convincing api q r sig, t.gamma ≠ 0 ∧ t.delta ≠ 0 ∧
      expo1 (denseSys q r) sig.length t P.A * (expo2 (denseSys q r) t P.B + t.beta) + gxOf api q g1 P.k =
      t.alpha * t.beta + (∑ i ∈ Finset.range sig.length, assign q sig i * (denseSys q r).mix t i) +
        expo1 (denseSys q r) sig.length t P.C * t.delta + (P.k : ZMod q) * expo2 (denseSys q r) t P.B := by
    rintro _ ⟨tox, ⟨ht, hsafe, tr, pk, h1, h2, h3⟩, rfl⟩
    obtain ⟨tr', pk', s1, s2, s3⟩ := trustedSetup_spec (q := q) H r (usable_ne hw) hu.small (usable_rect hw) sig.length hu.pub ht
    rw [h1] at s1; cases s1
    rw [h2] at s2; cases s2
    obtain ⟨hg, hd⟩ := secrets_ne tox ht
    refine ⟨hg, hd, ?_⟩
    unfold LinProver.proof at h3
    rw [point1_expo s3.key, point2_expo s3.key, point1_expo s3.key, powerF_expo s3.key hu.rows,
      verify_expo H s3 _ _ _ _ sig hs rfl hu.pub0 hsafe hg] at h3
    simpa using h3
  rcases lin_sound (denseSys q r) hu.small hu.pub.le P sig rfl (gxOf api q g1 P.k) _ key with h | h
  · exact .inl h
  · right
    rw [Set.InjOn.ncard_image (toxic_coords_inj.mono fun _ h => h.1)] at h
    exact ⟨hfin, h⟩

/-- the same assignment as a list of wire values -/
def Spec.LinProver.wires (P : LinProver) (pub m : Nat) (sig : List Int) : List Int :=
  sig ++ (List.range (m - pub)).map fun i => (P.C.rleoDelta[i]?).getD 0

theorem assign_wires {q : Nat} (P : LinProver) (m : Nat) (sig : List Int) (i : Nat) (hi : i < m) :
    assign q (P.wires sig.length m sig) i = P.witness q sig i := by
  unfold Spec.LinProver.wires LinProver.witness
  split
  · rename_i h
    unfold assign
    simp only [List.getD_eq_getElem?_getD]
    rw [List.getElem?_append_left h]
  · rename_i h
    unfold assign
    simp only [List.getD_eq_getElem?_getD]
    rw [List.getElem?_append_right (by omega)]
    rw [List.getElem?_map, List.getElem?_range (by omega)]
    simp

theorem wires_sat {q : Nat} [Fact q.Prime] {r : R1CS (List Int)} {sig : List Int} (hp : sig.length ≤ r.index.length) (hE : NoExp q r)
    {P : LinProver} {gx : ZMod q → ZMod q} (hg : gx 0 = 0) (h : (denseSys q r).ShiftSat gx 0 (P.witness q sig)) :
    (P.wires sig.length r.index.length sig).length = r.index.length ∧ (P.wires sig.length r.index.length sig).take sig.length = sig ∧
      ∀ row ∈ r.rows, SatD q gx (P.wires sig.length r.index.length sig) row := by
  have hl : (P.wires sig.length r.index.length sig).length = r.index.length := by simp [Spec.LinProver.wires]; omega
  refine ⟨hl, by simp [Spec.LinProver.wires], ?_⟩
  rw [sat_dense _ _ _ hl]
  intro j hj
  have h' := h j hj
  have hz := noExp_zero hE
  have e : ∀ M, rowVal (denseSys q r).m M (assign q (P.wires sig.length r.index.length sig)) j =
      rowVal (denseSys q r).m M (P.witness q sig) j := fun M =>
    Finset.sum_congr rfl fun i hi => by rw [assign_wires P r.index.length sig i (Finset.mem_range.1 hi)]
  have e0 : rowVal (denseSys q r).m (denseSys q r).E (P.witness q sig) j = 0 := by simp [rowVal, hz]
  unfold Sys.SatGate
  rw [e, e, e, e, e0]
  rw [e0] at h'
  simpa using h'

/-- C53 for programs without base multiplications and provers that leave element F trivial, as every honest proof of such
a program does: if no assignment that continues the public signals satisfies the constraints, a prover that knows only
the key convinces the verifier for at most `(3·gates + 4)·q⁴` of the `q³(q-1)²` possible secrets. -/
theorem C53_plain_partial {q : Nat} [Fact q.Prime] {api : Api G1 G2 GT} {g1 : G1} {g2 : G2} (H : Laws api q g1 g2)
    {r : R1CS (List Int)} (sig : List Int) (hu : UsableSys q sig.length r) (hs : ∀ s ∈ sig, 0 ≤ s) (hE : NoExp q r)
    (hno : ∀ w : List Int, w.length = r.index.length → w.take sig.length = sig → ¬ ∀ row ∈ r.rows, SatD q (gxOf api q g1) w row)
    (P : LinProver) (hk : P.k = 0) :
    (P.convincing api q r sig).Finite ∧ (P.convincing api q r sig).ncard ≤ (3 * r.rows.length + 4) * q ^ 4 := by
  rcases C53_linear_prover_partial H sig hu hs P with h | h
  · obtain ⟨h1, h2, h3⟩ := wires_sat hu.pub.le hE (gxOf_zero H) (by rw [hk] at h; simpa using h)
    exact absurd h3 (hno _ h1 h2)
  · exact h

/-- the number of possible secrets -/
theorem toxic_count (q : Nat) : {t | ToxicOK q t}.ncard = q ^ 3 * (q - 1) ^ 2 := by
  let A : Finset Int := Finset.Ico 0 q
  let B : Finset Int := Finset.Ico 1 q
  let f : Int × Int × Int × Int × Int → Toxic := fun p => ⟨p.1, p.2.1, p.2.2.1, p.2.2.2.1, p.2.2.2.2⟩
  have hf : Function.Injective f := by
    rintro ⟨a, b, c, d, e⟩ ⟨a', b', c', d', e'⟩ h
    simp only [f, Toxic.mk.injEq] at h
    simp [h]
  have himg : {t | ToxicOK q t} = f '' (A ×ˢ A ×ˢ A ×ˢ B ×ˢ B : Finset _) := by
    ext ⟨a, b, c, d, e⟩
    constructor
    · intro h
      refine ⟨(a, b, c, d, e), ?_, rfl⟩
      have h1 := h.x; have h2 := h.alpha; have h3 := h.beta; have h4 := h.gamma; have h5 := h.delta
      simp only [A, B, Finset.mem_coe, Finset.mem_product, Finset.mem_Ico]
      simp only at h1 h2 h3 h4 h5
      omega
    · rintro ⟨⟨a', b', c', d', e'⟩, h, he⟩
      simp only [f, Toxic.mk.injEq] at he
      obtain ⟨rfl, rfl, rfl, rfl, rfl⟩ := he
      simp only [A, B, Finset.mem_coe, Finset.mem_product, Finset.mem_Ico] at h
      exact ⟨by simp; omega, by simp; omega, by simp; omega, by simp; omega, by simp; omega⟩
  rw [himg, Set.ncard_image_of_injective _ hf, Set.ncard_coe_finset]
  simp only [Finset.card_product, A, B, Int.card_Ico]
  simp
  ring

/-- the hypotheses met: "3 is twice 2" has no witness, over every prime order -/
example {q : Nat} [Fact q.Prime] {api : Api G1 G2 GT} {g1 : G1} {g2 : G2} (H : Laws api q g1 g2) (hx : api.x1 g1 = 1)
    (P : LinProver) (hk : P.k = 0) : (P.convincing api q doubleSys [1, 2, 3]).ncard ≤ 10 * q ^ 4 := by
  refine (C53_plain_partial H (r := doubleSys) [1, 2, 3] ⟨by decide, (Fact.out : q.Prime).two_le, by decide, by decide, by decide⟩ (by decide)
    (by unfold NoExp; intro row hr k hk; simp [doubleSys] at hr; rcases hr with rfl | rfl <;> simp at hk <;> simp [hk]) ?_ P hk).2
  intro w hl ht
  match w, hl with
  | [a, b, c, d], _ =>
    simp at ht
    obtain ⟨rfl, rfl, rfl⟩ := ht
    exact (C53_refuted H hx).1 d

/-- provers for `y = 2z`: the one for the true signals `1, 2, 4` convinces; the same combinations with `1, 2, 3` do not;
with element F set to `g` the false signals `1, 2, 3` are accepted -/
def honestLin : LinProver := ⟨{ alpha := 1, LE := [0, 0, 0, 2] }, { Rx := [1] }, { rleoDelta := [2] }, 0⟩
def forgedLin : LinProver := ⟨{ alpha := 1, LE := [0, 0, 0, 2] }, { Rx := [1] }, { rleoDelta := [2] }, 1⟩

example : ((transposeR1CS doubleSys).bind fun tr => (trustedSetup (toyApi 101) 101 3 tr toxEx).map fun pk =>
    (verifyProof (toyApi 101) pk (honestLin.proof pk) [1, 2, 4], verifyProof (toyApi 101) pk (honestLin.proof pk) [1, 2, 3],
      verifyProof (toyApi 101) pk (forgedLin.proof pk) [1, 2, 3])) = some (some true, some false, some true) := by decide +kernel

example : UsableSys 101 3 doubleSys ∧ NoExp 101 doubleSys ∧ Laws (toyApi 101) 101 (1 : ZMod 101) (1 : ZMod 101) :=
  ⟨⟨by decide, by decide, by decide, by decide, by decide⟩, by unfold NoExp; decide, toy_laws 101⟩

end APS
