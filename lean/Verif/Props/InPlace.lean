import Verif.Proofs.InPlace

/-! Property C50 on the real curve: the in-place addition of equal points. -/
namespace APS
open APS.Spec APS.Snark APS.Circuit APS.Pairing

/-- C50 refuted on the real curve: the program `z = (1+x)*y; v = (1+x)*u` (two gates, no base multiplication) with the
satisfying witness `x = 1, y = 3, u = 0`: the prover adds the points of the wires `one` and `x`, which are equal, in place, and
gets a point that is not their sum.  `t` fields are up to date.  The honest proof is generated and the verifier rejects it. -/
theorem C50_bn256_in_place_refuted : Usable Order 2 twinSys twinW ∧ NoExp Order twinSys ∧ ToxicOK Order twinTox ∧
    (∀ row ∈ twinSys.rows, SatD Order gxBn twinW row) ∧
    ∃ pk pf, honestRun bnRaw Order 2 twinSys twinTox twinW = some (pk, pf) ∧ FreshT pk pf ∧
      verifyProof bnRaw pk pf (twinW.take 2) = some false :=
  ⟨twin_usable, by unfold NoExp; decide +kernel, by constructor <;> decide +kernel, twin_sat, twin_rejected⟩

end APS
