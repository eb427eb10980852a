import Verif.Proofs.AteBilinear

/-! The optimal ate pairing is additive in both arguments. -/
namespace APS
open APS.Spec APS.Pairing WeierstrassCurve.Affine

noncomputable def HU (A : (E1 P).Point) (S T : GG2) : (Fp12 P)ˣ := Units.mk0 (Hv A S T) (Hv_ne A (GG2_nz S.2) T)
noncomputable def lamU (A B : (E1 P).Point) (T : GG2) : (Fp12 P)ˣ := Units.mk0 (lamv A B T) (lamv_ne A B T.2)
noncomputable def piU : GG2 →+ GG2 := nsmulAddMonoidHom P

theorem piU_coe (Q : GG2) : ((piU Q : GG2) : (E2 P).Point) = frobTw Q := by
  rw [GG2_frob Q.2]; rfl

/-- the digits of the loop, most significant first, without the leading 1 -/
def mDigits : List Int := sixuPlus2NAF.dropLast.reverse

theorem mDigits_val : Bil.digVal 1 mDigits = 6 * (u : Int) + 2 := by decide +kernel

theorem fold_coe {x y : ZMod P} (h : (E1 P).Nonsingular x y) (Q : GG2) : ∀ (ds : List Int) (f : (Fp12 P)ˣ) (g : Fp12 P) (T : GG2), (f : Fp12 P) = g ^ eN →
    (((ds.foldl (Bil.stepG (HU (.some x y h)) Q) (f, T)).1 : (Fp12 P)ˣ) : Fp12 P) = (ds.foldl (millerStepAff Q (of1 x) (of1 y)) (g, ↑T)).1 ^ eN ∧
    (((ds.foldl (Bil.stepG (HU (.some x y h)) Q) (f, T)).2 : GG2) : (E2 P).Point) = (ds.foldl (millerStepAff Q (of1 x) (of1 y)) (g, ↑T)).2
  | [], f, g, T, hf => ⟨hf, rfl⟩
  | d :: ds, f, g, T, hf => by
    have hs : ∃ f' g' T', Bil.stepG (HU (.some x y h)) Q (f, T) d = (f', T') ∧ millerStepAff Q (of1 x) (of1 y) (g, ↑T) d = (g', ↑T') ∧ (f' : Fp12 P) = g' ^ eN := by
      have hH : ∀ S T : GG2, ((HU (.some x y h) S T : (Fp12 P)ˣ) : Fp12 P) = lineAt (psi S) (psi T) (of1 x) (of1 y) ^ eN := fun S T => Hv_some h S T
      unfold Bil.stepG millerStepAff
      simp only
      by_cases h1 : d = 1
      · simp only [if_pos h1]
        refine ⟨_, _, _, rfl, rfl, ?_⟩
        simp only [Units.val_mul, Units.val_pow_eq_pow_val, hH, hf, AddSubgroup.coe_add, mul_pow]
        rw [← pow_mul, ← pow_mul, mul_comm 2]
      · simp only [if_neg h1]
        by_cases h2 : d = -1
        · simp only [if_pos h2]
          refine ⟨_, _, _, rfl, rfl, ?_⟩
          simp only [Units.val_mul, Units.val_pow_eq_pow_val, hH, hf, AddSubgroup.coe_add, NegMemClass.coe_neg, mul_pow]
          rw [← pow_mul, ← pow_mul, mul_comm 2]
        · simp only [if_neg h2]
          refine ⟨_, _, _, rfl, rfl, ?_⟩
          simp only [Units.val_mul, Units.val_pow_eq_pow_val, hH, hf, mul_pow]
          rw [← pow_mul, ← pow_mul, mul_comm 2]
    obtain ⟨f', g', T', e1, e2, e3⟩ := hs
    rw [List.foldl_cons, List.foldl_cons, e1, e2]
    exact fold_coe h Q ds f' g' T' e3

theorem fin_coe {x y : ZMod P} (h : (E1 P).Nonsingular x y) (Q : GG2) :
    ((Bil.finG (HU (.some x y h)) piU mDigits Q : (Fp12 P)ˣ) : Fp12 P) = millerAff Q (of1 x) (of1 y) ^ eN := by
  have hH : ∀ S T : GG2, ((HU (.some x y h) S T : (Fp12 P)ˣ) : Fp12 P) = lineAt (psi S) (psi T) (of1 x) (of1 y) ^ eN := fun S T => Hv_some h S T
  obtain ⟨f1, f2⟩ := fold_coe h Q mDigits 1 1 Q (by rw [one_pow]; rfl)
  unfold Bil.finG millerAff
  simp only [Units.val_mul, hH, AddSubgroup.coe_add, NegMemClass.coe_neg, piU_coe, mul_pow]
  rw [f1, f2]; rfl

theorem fin_zero (A : (E1 P).Point) : Bil.finG (HU A) piU mDigits 0 = 1 := by
  have h0 : ∀ S, HU A S 0 = 1 := fun S => Units.ext (Hv_zero A S)
  have : ∀ ds : List Int, ds.foldl (Bil.stepG (HU A) 0) (1, 0) = (1, 0) := by
    intro ds
    induction ds with
    | nil => rfl
    | cons d ds ih =>
      rw [List.foldl_cons]
      have : Bil.stepG (HU A) 0 (1, 0) d = (1, 0) := by
        unfold Bil.stepG; simp [h0]
      rw [this, ih]
  unfold Bil.finG
  rw [this]; simp [h0]

theorem fin_none (Q : GG2) : Bil.finG (HU 0) piU mDigits Q = 1 := by
  have h0 : ∀ S T, HU 0 S T = 1 := fun S T => Units.ext (Hv_none S T)
  have : ∀ ds T, (List.foldl (Bil.stepG (HU 0) Q) (1, T) ds).1 = 1 := by
    intro ds
    induction ds with
    | nil => exact fun _ => rfl
    | cons d ds ih =>
      intro T
      rw [List.foldl_cons]
      have : ∃ T', Bil.stepG (HU 0) Q (1, T) d = (1, T') := by
        unfold Bil.stepG; simp only [h0, one_pow, mul_one]; split_ifs <;> exact ⟨_, rfl⟩
      obtain ⟨T', e⟩ := this
      rw [e, ih]
  unfold Bil.finG
  simp only [this, h0, mul_one]

/-- the pairing of the specification is the abstract Miller value -/
theorem ate_fin (A : (E1 P).Point) (Q : GG2) : ate A Q = ((Bil.finG (HU A) piU mDigits Q : (Fp12 P)ˣ) : Fp12 P) := by
  match A with
  | .zero => rw [show HU .zero = HU 0 from rfl, fin_none]; rfl
  | .some x y h =>
    by_cases hQ : (Q : (E2 P).Point) = 0
    · have e : Q = 0 := Subtype.ext hQ
      rw [e, fin_zero]; unfold ate; exact if_pos rfl
    · rw [fin_coe]; unfold ate; exact if_neg hQ

theorem hend (Q : GG2) : Bil.digVal 1 mDigits • Q + piU Q - piU (piU Q) + piU (piU (piU Q)) = 0 := by
  have hp : ∀ Q, piU Q = (P : Int) • Q := fun Q => (natCast_zsmul Q P).symm
  have hr : (Order : Int) • Q = 0 := by
    apply Subtype.ext
    rw [natCast_zsmul]
    exact GG2_order Q.2
  rw [hp, hp, hp, ← mul_zsmul, ← mul_zsmul, ← add_zsmul, sub_eq_add_neg, ← sub_zsmul, ← add_zsmul, mDigits_val,
    show 6 * (u : Int) + 2 + P - P * P + P * (P * P) = ((6 * (u : Int) + 2 + P - P * P + P * (P * P)) / Order) * Order by decide +kernel,
    mul_zsmul, hr, zsmul_zero]

theorem hdvd : (Order : Int) ∣ Bil.digVal 1 mDigits + P - (P : Int) ^ 2 + (P : Int) ^ 3 := by
  rw [mDigits_val]
  exact Int.dvd_of_emod_eq_zero (by decide +kernel)

theorem lamU_frob (A B : (E1 P).Point) (S : GG2) : lamU A B (piU S) = lamU A B S ^ P := by
  apply Units.ext
  rw [Units.val_pow_eq_pow_val, lamU, lamU, Units.val_mk0, Units.val_mk0, piU_coe]
  exact lamv_frob A B S

theorem lamU_order (A B : (E1 P).Point) (S : GG2) : lamU A B S ^ Order = 1 := by
  apply Units.ext
  rw [Units.val_pow_eq_pow_val, lamU, Units.val_mk0, Units.val_one]
  exact lamv_order A B S.2

theorem HU_frob (A : (E1 P).Point) (S T : GG2) : HU A (piU S) (piU T) = HU A S T ^ P := by
  apply Units.ext
  rw [Units.val_pow_eq_pow_val, HU, HU, Units.val_mk0, Units.val_mk0, piU_coe, piU_coe]
  exact Hv_frob A S T

theorem HU_order (A : (E1 P).Point) (S T : GG2) : HU A S T ^ Order = 1 := by
  apply Units.ext
  rw [Units.val_pow_eq_pow_val, HU, Units.val_mk0, Units.val_one]
  exact Hv_order A (GG2_nz S.2) T

theorem HU_add (A B : (E1 P).Point) (S T : GG2) : HU (A + B) S T * (lamU A B S * lamU A B T) = HU A S T * HU B S T * lamU A B (S + T) := by
  apply Units.ext
  simp only [HU, lamU, Units.val_mul, Units.val_mk0, AddSubgroup.coe_add]
  exact Hv_add A B S.2 T.2

theorem lamU_neg (A B : (E1 P).Point) (S : GG2) : lamU A B S * lamU A B (-S) = 1 := by
  apply Units.ext
  simp only [lamU, Units.val_mul, Units.val_mk0, NegMemClass.coe_neg, Units.val_one]
  exact lamv_neg A B S.2

theorem HU_coc (A : (E1 P).Point) (S T U : GG2) : HU A S T * HU A (S + T) U = HU A T U * HU A S (T + U) := by
  apply Units.ext
  simp only [HU, Units.val_mul, Units.val_mk0, AddSubgroup.coe_add]
  exact Hv_coc A (GG2_nz (T + U).2) (GG2_nz (S + (T + U)).2) (GG2_nz (S + T).2)

/-- additivity on the left -/
theorem ate_add_left (A B : (E1 P).Point) {Q : (E2 P).Point} (hQ : Q ∈ GG2) : ate (A + B) Q = ate A Q * ate B Q := by
  have h := Bil.finA (HU A) (HU B) (HU (A + B)) (lamU A B)
    (HU_add A B) (lamU_neg A B) piU P Order
    (lamU_frob A B) (lamU_order A B)
    mDigits ⟨Q, hQ⟩ (hend _) hdvd
  have := congrArg (fun z : (Fp12 P)ˣ => (z : Fp12 P)) h
  simp only [Units.val_mul] at this
  rwa [← ate_fin, ← ate_fin, ← ate_fin] at this

/-- additivity on the right -/
theorem ate_add_right (A : (E1 P).Point) {Q R : (E2 P).Point} (hQ : Q ∈ GG2) (hR : R ∈ GG2) : ate A (Q + R) = ate A Q * ate A R := by
  have h := Bil.finB (HU A) (fun S T => Units.ext (Hv_symm A S T)) (HU_coc A)
    (fun S => Units.ext (Hv_zero A S)) (fun S => Units.ext (Hv_neg A (GG2_nz S.2))) piU P Order
    (HU_frob A) (HU_order A)
    mDigits ⟨Q, hQ⟩ ⟨R, hR⟩ hend hdvd
  have := congrArg (fun z : (Fp12 P)ˣ => (z : Fp12 P)) h
  simp only [Units.val_mul] at this
  rwa [← ate_fin, ← ate_fin, ← ate_fin] at this

theorem ate_ne (A : (E1 P).Point) {Q : (E2 P).Point} (hQ : Q ∈ GG2) : ate A Q ≠ 0 := by
  rw [show ate A Q = ate A ((⟨Q, hQ⟩ : GG2) : (E2 P).Point) from rfl, ate_fin]
  exact Units.ne_zero _

theorem ate_zero_left (Q : (E2 P).Point) : ate 0 Q = 1 := rfl

theorem ate_zero_right (A : (E1 P).Point) : ate A 0 = 1 := by
  match A with
  | .zero => rfl
  | .some x y h => unfold ate; exact if_pos rfl

/-- bilinearity for multiples -/
theorem ate_nsmul (m n : Nat) (A : (E1 P).Point) {Q : (E2 P).Point} (hQ : Q ∈ GG2) : ate (m • A) (n • Q) = ate A Q ^ (m * n) := by
  have h1 : ∀ m : Nat, ∀ {R : (E2 P).Point}, R ∈ GG2 → ate (m • A) R = ate A R ^ m := by
    intro m R hR
    induction m with
    | zero => rw [zero_nsmul, pow_zero]; rfl
    | succ m ih => rw [succ_nsmul, ate_add_left _ _ hR, ih]; exact (pow_succ _ _).symm
  have h2 : ∀ n : Nat, ate A (n • Q) = ate A Q ^ n := by
    intro n
    induction n with
    | zero => rw [zero_nsmul, pow_zero]; exact ate_zero_right A
    | succ n ih => rw [succ_nsmul, ate_add_right _ (GG2.nsmul_mem hQ n) hQ, ih]; exact (pow_succ _ _).symm
  rw [h1 m (GG2.nsmul_mem hQ n), h2, ← pow_mul, mul_comm]

end APS
