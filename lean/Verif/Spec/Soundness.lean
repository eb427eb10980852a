import Verif.Spec.Snark

/-! Provers that build their proofs out of the published key by group operations only. -/
namespace APS.Spec
open Polynomial APS.Snark APS.Circuit

/-- integer coefficients for the published G1 points -/
structure Lin1 where
  powersX1 : List Int := []
  alpha : Int := 0
  beta1 : Int := 0
  delta1 : Int := 0
  rleoDelta : List Int := []
  rleoGamma : List Int := []
  powersXDD : List Int := []
  LE : List Int := []
  Ex : List Int := []

/-- integer coefficients for the published G2 points -/
structure Lin2 where
  powersX2 : List Int := []
  beta2 : Int := 0
  gamma2 : Int := 0
  delta2 : Int := 0
  Rx : List Int := []

/-- the linear combination of the published G1 points -/
def Lin1.point {G1 G2 GT : Type} [AddCommGroup G1] (c : Lin1) (pk : Pk G1 G2 GT) : G1 :=
  linComb c.powersX1 pk.powersX1 + c.alpha • pk.alpha + c.beta1 • pk.beta1 + c.delta1 • pk.delta1 +
    linComb c.rleoDelta pk.rleoDelta + linComb c.rleoGamma pk.rleoGamma + linComb c.powersXDD pk.powersXDD +
    linComb c.LE pk.LE + linComb c.Ex pk.Ex

/-- the linear combination of the published G2 points -/
def Lin2.point {G1 G2 GT : Type} [AddCommGroup G2] (c : Lin2) (pk : Pk G1 G2 GT) : G2 :=
  linComb c.powersX2 pk.powersX2 + c.beta2 • pk.beta2 + c.gamma2 • pk.gamma2 + c.delta2 • pk.delta2 + linComb c.Rx pk.Rx

/-- A prover that only knows the key: A, B, C are fixed linear combinations of its points, F is `g^k`. -/
structure LinProver where
  A : Lin1
  B : Lin2
  C : Lin1
  k : Int

/-- its proof for a given key -/
def LinProver.proof {G1 G2 GT : Type} [AddCommGroup G1] [AddCommGroup G2] (P : LinProver) (pk : Pk G1 G2 GT) : Proof G1 G2 :=
  ⟨P.A.point pk, P.B.point pk, P.C.point pk, linComb [P.k] pk.powersX1⟩

/-- The assignment that can be read off the prover: the public wires have the values of the signals, the others the
coefficients of `RLEO_Delta` in element C. -/
def LinProver.witness (P : LinProver) (q : Nat) (sig : List Int) (i : Nat) : ZMod q :=
  if i < sig.length then assign q sig i else assign q P.C.rleoDelta (i - sig.length)

/-- A usable system: rectangular matrices, at least one gate, at most `q` gates, a public and a private wire. -/
structure UsableSys (q pub : Nat) (r : R1CS (List Int)) : Prop where
  rows : 0 < r.rows.length
  small : r.rows.length ≤ q
  rect : ∀ row ∈ r.rows, row.L.length = r.index.length ∧ row.R.length = r.index.length ∧
    row.E.length = r.index.length ∧ row.O.length = r.index.length
  pub0 : 0 < pub
  pub : pub < r.index.length

/-- the secrets for which the prover convinces the verifier (the verifier's in-place additions being correct) -/
def LinProver.convincing {G1 G2 GT : Type} [AddCommGroup G1] [AddCommGroup G2] (P : LinProver) (api : Api G1 G2 GT) (q : Nat)
    [Fact q.Prime] (r : R1CS (List Int)) (sig : List Int) : Set Toxic :=
  {tox | ToxicOK q tox ∧ SafeSeq ((denseSys q r).seqPub sig.length (secretsOf q tox) (assign q sig)) ∧
    ∃ tr pk, transposeR1CS r = some tr ∧ trustedSetup api q sig.length tr tox = some pk ∧
      verifyProof api pk (P.proof pk) sig = some true}

end APS.Spec
