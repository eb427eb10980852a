import Verif.Model.BnApi
import Verif.Props.Curve
import Verif.Spec.Snark

/-! What the theorems about the proof system on the real curve say. -/
namespace APS.Spec
open APS.Pairing APS.Snark

/-- the x-coordinate of `s` times the generator of G1 (`0` for the point at infinity), as the package computes it -/
noncomputable def bnX (s : ZMod Order) : Int := xOf (s.val • G1gen)

/-- the same, reduced modulo the group order: the value of a base multiplication gate -/
noncomputable def gxBn (s : ZMod Order) : ZMod Order := ((bnX s : Int) : ZMod Order)

/-- the cached field `t` of an object of G2 is up to date when `z` is exactly 1 -/
def UpToDate (b : Pt Gfp2) : Prop := b.z = Gfp2.one → val2 P b.t = 1

/-- the five objects of G2 that the verifier pairs are up to date (always true unless a random `z` is exactly 1, see C74) -/
structure FreshT (pk : Pk (Pt Int) (Pt Gfp2) Gfp12) (pf : Proof (Pt Int) (Pt Gfp2)) : Prop where
  beta : UpToDate pk.beta2
  gamma : UpToDate pk.gamma2
  delta : UpToDate pk.delta2
  B : UpToDate pf.B
  sum : UpToDate (bnRaw.addFresh2 pf.B pk.beta2)

/-- `new(G1).Add(a, b)` -/
def addNew1 (a b : Pt Int) : Pt Int := g1Add ((newMem1.set (.obj 1) a).set (.obj 2) b) (.obj 0) (.obj 1) (.obj 2) (.obj 0)

/-- `Σ kᵢ Pᵢ` computed with `ScalarMult` and `Add` into new objects -/
def linNew {A : Type} (zero : A) (add : A → A → A) (mul : A → Int → A) : List Int → List A → A
  | k :: ks, b :: bs => add (mul b k) (linNew zero add mul ks bs)
  | _, _ => zero

/-- A proof assembled from the published key alone, by calls of the library: the honest proof except that element F is `g^k`. -/
def forgeBn (pk : Pk (Pt Int) (Pt Gfp2) Gfp12) (pub : Nat) (w : List Int) (k : Int) (qs : List Int) : Proof (Pt Int) (Pt Gfp2) where
  A := addNew1 (linNew (bnRaw.base1 0) addNew1 bnRaw.mul1 w pk.LE) pk.alpha
  B := linNew (bnRaw.base2 0) bnRaw.addFresh2 bnRaw.mul2 w pk.Rx
  C := addNew1 (linNew (bnRaw.base1 0) addNew1 bnRaw.mul1 (w.drop pub) pk.rleoDelta)
    (linNew (bnRaw.base1 0) addNew1 bnRaw.mul1 qs pk.powersXDD)
  F := linNew (bnRaw.base1 0) addNew1 bnRaw.mul1 [k] pk.powersX1

end APS.Spec
