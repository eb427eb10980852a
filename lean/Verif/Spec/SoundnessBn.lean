import Verif.Spec.Soundness
import Verif.Spec.SnarkBn

/-! Provers that build their proofs out of the published key by group operations, on the real curve. -/
namespace APS.Spec
open APS.Pairing APS.Snark APS.Circuit

/-- `K` has the curve points the objects of the key stand for -/
structure KeyPoints (pk : Pk (Pt Int) (Pt Gfp2) Gfp12) (K : Pk (E1 P).Point (E2 P).Point Unit) : Prop where
  rleoDelta : List.Forall₂ (Rep1 P) pk.rleoDelta K.rleoDelta
  alpha : Rep1 P pk.alpha K.alpha
  beta1 : Rep1 P pk.beta1 K.beta1
  delta1 : Rep1 P pk.delta1 K.delta1
  rleoGamma : List.Forall₂ (Rep1 P) pk.rleoGamma K.rleoGamma
  powersX1 : List.Forall₂ (Rep1 P) pk.powersX1 K.powersX1
  powersXDD : List.Forall₂ (Rep1 P) pk.powersXDD K.powersXDD
  LE : List.Forall₂ (Rep1 P) pk.LE K.LE
  Ex : List.Forall₂ (Rep1 P) pk.Ex K.Ex
  beta2 : Rep2 P pk.beta2 K.beta2
  gamma2 : Rep2 P pk.gamma2 K.gamma2
  delta2 : Rep2 P pk.delta2 K.delta2
  powersX2 : List.Forall₂ (Rep2 P) pk.powersX2 K.powersX2
  Rx : List.Forall₂ (Rep2 P) pk.Rx K.Rx

/-- the objects of the proof stand for the points of `pf'` -/
structure ProofPoints (pf : Proof (Pt Int) (Pt Gfp2)) (pf' : Proof (E1 P).Point (E2 P).Point) : Prop where
  A : Rep1 P pf.A pf'.A
  B : Rep2 P pf.B pf'.B
  C : Rep1 P pf.C pf'.C
  F : Rep1 P pf.F pf'.F

/-- the secrets for which the prover convinces the verifier with some objects that stand for its points (the in-place additions
of the verifier being correct and the `t` fields up to date) -/
def LinProver.convincingBn (Pr : LinProver) (r : R1CS (List Int)) (sig : List Int) : Set Toxic :=
  {tox | ToxicOK Order tox ∧ SafeSeq ((denseSys Order r).seqPub sig.length (secretsOf Order tox) (assign Order sig)) ∧
    ∃ tr pk K pf, transposeR1CS r = some tr ∧ trustedSetup bnRaw Order sig.length tr tox = some pk ∧ KeyPoints pk K ∧
      ProofPoints pf (Pr.proof K) ∧ FreshT pk pf ∧ verifyProof bnRaw pk pf sig = some true}

end APS.Spec
