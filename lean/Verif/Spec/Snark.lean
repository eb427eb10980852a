import Verif.Model.Snark
import Verif.Spec.Circuit
import Verif.Spec.Basic
import Mathlib.LinearAlgebra.Lagrange
import Mathlib.GroupTheory.OrderOfElement
import Mathlib.Algebra.Field.ZMod
import Verif.Proofs.Avl

/-! Specification side of the proof system: what the group operations are supposed to do, and the exponents that occur in
an honest run, written without the model's functions. -/
namespace APS.Spec
open Polynomial APS.Snark APS.Circuit

/-- What is assumed of the bn256 package (trusted; parts are proved about curve.go in the pairing chapter).
`g1`, `g2` are the generators.  Scalars must be non-negative.  In-place addition is only correct for different points
or an accumulator at infinity (`BUG(agl)` at bn256.go:88). -/
structure Laws {G1 G2 GT : Type} [AddCommGroup G1] [AddCommGroup G2] [AddCommGroup GT] (api : Api G1 G2 GT) (q : Nat)
    (g1 : G1) (g2 : G2) : Prop where
  order1 : q • g1 = 0
  order2 : q • g2 = 0
  base1 : ∀ k : Int, 0 ≤ k → api.base1 k = k • g1
  base2 : ∀ k : Int, 0 ≤ k → api.base2 k = k • g2
  mul1 : ∀ (a : G1) (k : Int), 0 ≤ k → api.mul1 a k = k • a
  mul2 : ∀ (a : G2) (k : Int), 0 ≤ k → api.mul2 a k = k • a
  mulT : ∀ (a : GT) (k : Int), 0 ≤ k → api.mulT a k = k • a
  addTo1 : ∀ a b : G1, a ≠ b ∨ a = 0 → api.addTo1 a b = a + b
  addTo2 : ∀ a b : G2, a ≠ b ∨ a = 0 → api.addTo2 a b = a + b
  addFresh2 : ∀ a b : G2, api.addFresh2 a b = a + b
  addT : ∀ a b : GT, api.addT a b = a + b
  x1_zero : api.x1 0 = 0
  x1_nonneg : ∀ a, 0 ≤ api.x1 a
  pair : ∀ k l : Int, api.pair (k • g1) (l • g2) = (k * l) • api.pair g1 g2
  orderT : addOrderOf (api.pair g1 g2) = q
  eqT : ∀ a b, api.eqT a b = true ↔ a = b

/-- the function `k ↦ X(g^k)` of the constraints, on residues -/
def gxOf {G1 G2 GT : Type} [AddCommGroup G1] (api : Api G1 G2 GT) (q : Nat) (g1 : G1) (k : ZMod q) : ZMod q :=
  ((api.x1 (k.val • g1) : Int) : ZMod q)

/-- A constraint system over `ZMod q`: `n` gates, `m` wires, four matrices indexed by gate and wire. -/
structure Sys (q : Nat) where
  n : Nat
  m : Nat
  L : Nat → Nat → ZMod q
  R : Nat → Nat → ZMod q
  E : Nat → Nat → ZMod q
  O : Nat → Nat → ZMod q

/-- the system a dense `ER1CS` denotes -/
def denseSys (q : Nat) (r : R1CS (List Int)) : Sys q where
  n := r.rows.length
  m := r.index.length
  L j i := ((denseEntry ((r.rows.map Row.L).getD j []) i : Int) : ZMod q)
  R j i := ((denseEntry ((r.rows.map Row.R).getD j []) i : Int) : ZMod q)
  E j i := ((denseEntry ((r.rows.map Row.E).getD j []) i : Int) : ZMod q)
  O j i := ((denseEntry ((r.rows.map Row.O).getD j []) i : Int) : ZMod q)

/-- the system a sparse `ER1CS` denotes -/
def sparseSys (q : Nat) (r : R1CS APS.Avl.Tree) : Sys q where
  n := r.rows.length
  m := r.index.length
  L j i := ((sparseEntry ((r.rows.map Row.L).getD j .nil) i : Int) : ZMod q)
  R j i := ((sparseEntry ((r.rows.map Row.R).getD j .nil) i : Int) : ZMod q)
  E j i := ((sparseEntry ((r.rows.map Row.E).getD j .nil) i : Int) : ZMod q)
  O j i := ((sparseEntry ((r.rows.map Row.O).getD j .nil) i : Int) : ZMod q)

/-- value of a linear form of gate `j` under the assignment `w` -/
def rowVal {q : Nat} (m : Nat) (M : Nat → Nat → ZMod q) (w : Nat → ZMod q) (j : Nat) : ZMod q :=
  ∑ i ∈ Finset.range m, w i * M j i

/-- the assignment satisfies gate `j`: `(L·w)(R·w) + X(g^(E·w)) = O·w` -/
def Sys.SatGate {q : Nat} (S : Sys q) (gx : ZMod q → ZMod q) (w : Nat → ZMod q) (j : Nat) : Prop :=
  rowVal S.m S.L w j * rowVal S.m S.R w j + gx (rowVal S.m S.E w j) = rowVal S.m S.O w j

/-- the assignment satisfies every gate -/
def Sys.Sat {q : Nat} (S : Sys q) (gx : ZMod q → ZMod q) (w : Nat → ZMod q) : Prop := ∀ j < S.n, S.SatGate gx w j

/-- the polynomial of degree `< n` with value `v j` at `j = 0, .., n-1` -/
noncomputable def through {q : Nat} [Fact q.Prime] (n : Nat) (v : Nat → ZMod q) : (ZMod q)[X] :=
  Lagrange.interpolate (Finset.range n) (fun j : Nat => (j : ZMod q)) v

/-- column polynomial of wire `i` -/
noncomputable def Sys.col {q : Nat} [Fact q.Prime] (S : Sys q) (M : Nat → Nat → ZMod q) (i : Nat) : (ZMod q)[X] :=
  through S.n (fun j => M j i)

/-- `(X-0)(X-1)..(X-(n-1))` -/
noncomputable def vanish (q n : Nat) : (ZMod q)[X] := ∏ j ∈ Finset.range n, (X - C (j : ZMod q))

/-- the combined polynomial `A·B + G - C` of an assignment -/
noncomputable def Sys.comb {q : Nat} [Fact q.Prime] (S : Sys q) (gx : ZMod q → ZMod q) (w : Nat → ZMod q) : (ZMod q)[X] :=
  (∑ i ∈ Finset.range S.m, C (w i) * S.col S.L i) * (∑ i ∈ Finset.range S.m, C (w i) * S.col S.R i) +
    through S.n (fun j => gx (rowVal S.m S.E w j)) - ∑ i ∈ Finset.range S.m, C (w i) * S.col S.O i

/-- the secrets of the setup as residues -/
structure Secrets (q : Nat) where
  x : ZMod q
  alpha : ZMod q
  beta : ZMod q
  gamma : ZMod q
  delta : ZMod q

/-- residues of the drawn integers -/
def secretsOf (q : Nat) (t : Toxic) : Secrets q := ⟨t.x, t.alpha, t.beta, t.gamma, t.delta⟩

/-- the drawn integers are in the range `Field.Rand` returns, and gamma, delta are not zero -/
structure ToxicOK (q : Nat) (t : Toxic) : Prop where
  x : 0 ≤ t.x ∧ t.x < q
  alpha : 0 ≤ t.alpha ∧ t.alpha < q
  beta : 0 ≤ t.beta ∧ t.beta < q
  gamma : 0 < t.gamma ∧ t.gamma < q
  delta : 0 < t.delta ∧ t.delta < q

/-- `α R_i(x) + β L_i(x) + β E_i(x) + O_i(x)` -/
noncomputable def Sys.mix {q : Nat} [Fact q.Prime] (S : Sys q) (t : Secrets q) (i : Nat) : ZMod q :=
  t.alpha * (S.col S.R i).eval t.x + t.beta * (S.col S.L i).eval t.x + t.beta * (S.col S.E i).eval t.x +
    (S.col S.O i).eval t.x

/-- A sequence of exponents can be accumulated with in-place additions: the running sum never equals the next term,
unless the running sum is zero. -/
def SafeSeq {q : Nat} (l : List (ZMod q)) : Prop :=
  ∀ k, 0 < k → k < l.length → (l.take k).sum = l.getD k 0 → (l.take k).sum = 0

/-- exponents summed into proof element A -/
noncomputable def Sys.seqA {q : Nat} [Fact q.Prime] (S : Sys q) (t : Secrets q) (w : Nat → ZMod q) : List (ZMod q) :=
  (List.range S.m).map (fun i => w i * ((S.col S.E i).eval t.x + (S.col S.L i).eval t.x)) ++ [t.alpha]
/-- exponents summed into proof element B -/
noncomputable def Sys.seqB {q : Nat} [Fact q.Prime] (S : Sys q) (t : Secrets q) (w : Nat → ZMod q) : List (ZMod q) :=
  (List.range S.m).map (fun i => w i * (S.col S.R i).eval t.x)
/-- exponents summed into proof element F -/
noncomputable def Sys.seqF {q : Nat} [Fact q.Prime] (S : Sys q) (t : Secrets q) (w : Nat → ZMod q) : List (ZMod q) :=
  (List.range S.m).map (fun i => w i * (S.col S.E i).eval t.x)
/-- exponents of the quotient part: `Q_k x^k D(x)/δ` for a polynomial `Q` given by `len` coefficients -/
noncomputable def seqQ {q : Nat} [Fact q.Prime] (n len : Nat) (t : Secrets q) (Q : (ZMod q)[X]) : List (ZMod q) :=
  (List.range len).map (fun k => Q.coeff k * (t.x ^ k * (t.delta⁻¹ * (vanish q n).eval t.x)))
/-- exponents summed into proof element C -/
noncomputable def Sys.seqC {q : Nat} [Fact q.Prime] (S : Sys q) (pub : Nat) (t : Secrets q) (w : Nat → ZMod q)
    (Q : (ZMod q)[X]) : List (ZMod q) :=
  (List.range' pub (S.m - pub)).map (fun i => w i * (t.delta⁻¹ * S.mix t i)) ++
    [Q.eval t.x * (t.delta⁻¹ * (vanish q S.n).eval t.x)]
/-- exponents the verifier sums for the public signals -/
noncomputable def Sys.seqPub {q : Nat} [Fact q.Prime] (S : Sys q) (pub : Nat) (t : Secrets q) (w : Nat → ZMod q) :
    List (ZMod q) :=
  (List.range pub).map (fun i => w i * (t.gamma⁻¹ * S.mix t i))

/-- all accumulations of an honest dense run are free of coincidences -/
structure Sys.Safe {q : Nat} [Fact q.Prime] (S : Sys q) (gx : ZMod q → ZMod q) (pub : Nat) (t : Secrets q)
    (w : Nat → ZMod q) : Prop where
  A : SafeSeq (S.seqA t w)
  B : SafeSeq (S.seqB t w)
  F : SafeSeq (S.seqF t w)
  Q : SafeSeq (seqQ S.n (S.n - 1) t (S.comb gx w /ₘ vanish q S.n))
  C : SafeSeq (S.seqC pub t w (S.comb gx w /ₘ vanish q S.n))
  pub : SafeSeq (S.seqPub pub t w)

/-- the assignment a witness slice denotes -/
def assign (q : Nat) (w : List Int) (i : Nat) : ZMod q := ((w.getD i 0 : Int) : ZMod q)

end APS.Spec

namespace APS.Spec
open Polynomial APS.Snark APS.Circuit

/-- The calls of an honest user (as in zkSNARK/wol19_test.go): transpose, trusted setup, combine, prove. -/
def honestRun {G1 G2 GT : Type} (api : Api G1 G2 GT) (q pub : Nat) (r : R1CS (List Int)) (tox : Toxic) (w : List Int) :
    Option (Pk G1 G2 GT × Proof G1 G2) := do
  let tr ← transposeR1CS r
  let pk ← trustedSetup api q pub tr tox
  let px ← combinePolynomials api q w tr
  let pf ← generateProofs api q pub pk w px
  pure (pk, pf)

/-- A usable system and witness: rectangular matrices, at most `q` gates, at least one public and one private wire, one
non-negative integer per wire. -/
structure Usable (q pub : Nat) (r : R1CS (List Int)) (w : List Int) : Prop where
  rows : 0 < r.rows.length
  small : r.rows.length ≤ q
  rect : ∀ row ∈ r.rows, row.L.length = r.index.length ∧ row.R.length = r.index.length ∧
    row.E.length = r.index.length ∧ row.O.length = r.index.length
  pub0 : 0 < pub
  pub : pub < r.index.length
  wlen : w.length = r.index.length
  wnonneg : ∀ k ∈ w, 0 ≤ k

/-- no constraint uses a base multiplication -/
def NoExp (q : Nat) (r : R1CS (List Int)) : Prop := ∀ row ∈ r.rows, ∀ k ∈ row.E, (q : Int) ∣ k

/-- value of `Σ w_i E_i` at the secret point -/
noncomputable def Sys.expAt {q : Nat} [Fact q.Prime] (S : Sys q) (w : Nat → ZMod q) (x : ZMod q) : ZMod q :=
  ∑ i ∈ Finset.range S.m, w i * (S.col S.E i).eval x

/-- A proof assembled from the published key alone: `w` an assignment, `k` an integer, `qs` coefficients.
It is the honest proof except that element F is `g^k`. -/
def forge {G1 G2 GT : Type} [AddCommGroup G1] [AddCommGroup G2] (pk : Pk G1 G2 GT) (pub : Nat) (w : List Int) (k : Int)
    (qs : List Int) : Proof G1 G2 where
  A := (List.zipWith (fun (c : Int) p => c • p) w pk.LE).sum + pk.alpha
  B := (List.zipWith (fun (c : Int) p => c • p) w pk.Rx).sum
  C := (List.zipWith (fun (c : Int) p => c • p) (w.drop pub) pk.rleoDelta).sum +
    (List.zipWith (fun (c : Int) p => c • p) qs pk.powersXDD).sum
  F := (List.zipWith (fun (c : Int) p => c • p) [k] pk.powersX1).sum

/-- the altered constraints a forged proof has to meet: `(L·w + E·w - k)(R·w) + X(g^k) = O·w` -/
def Sys.ShiftSat {q : Nat} (S : Sys q) (gx : ZMod q → ZMod q) (k : ZMod q) (w : Nat → ZMod q) : Prop :=
  ∀ j < S.n, (rowVal S.m S.L w j + rowVal S.m S.E w j - k) * rowVal S.m S.R w j + gx k = rowVal S.m S.O w j

end APS.Spec

namespace APS.Spec
open APS.Snark

/-- the group element a verifier computes for public signals: scaled bases, added up from the left in place -/
def publicCommitment {G1 G2 GT : Type} (api : Api G1 G2 GT) (bases : List G1) (sig : List Int) : Option G1 :=
  match List.zipWith (fun b k => api.mul1 b k) bases sig with
  | [] => none
  | t :: ts => some (ts.foldl api.addTo1 t)

/-- `Σ kᵢ • Pᵢ` -/
def linComb {G : Type} [AddCommGroup G] (ks : List Int) (ps : List G) : G :=
  (List.zipWith (fun (c : Int) p => c • p) ks ps).sum

end APS.Spec

namespace APS.Spec
open Polynomial APS.Snark APS.Circuit

/-- The calls of an honest user of the sparse pipeline: transpose, trusted setup, combine, prove.  `fuel` bounds the
number of rounds of the polynomial division. -/
def honestRunSparse {G1 G2 GT : Type} (api : Api G1 G2 GT) (q fuel pub : Nat) (r : R1CS APS.Avl.Tree) (tox : Toxic)
    (w : List Int) : Option (Pk G1 G2 GT × Proof G1 G2) := do
  let tr ← transposeR1CSS r
  let pk ← trustedSetupSparse api q pub tr tox
  let px ← combineSparsePolynomials api q w tr
  let pf ← generateProofSparse api q fuel pub pk w px
  pure (pk, pf)

/-- one stored row of a sparse system with `m` wires -/
def SparseRow (m : Nat) (t : APS.Avl.Tree) : Prop := APS.Avl.Tree.Inv t ∧ ∀ i, sparseEntry t i ≠ 0 → i < m

/-- A usable sparse system and witness: well-formed rows, at least one gate, not more gates than wires, at most `q` wires,
at least one public and one private wire, one non-negative integer per wire. -/
structure UsableS (q pub : Nat) (r : R1CS APS.Avl.Tree) (w : List Int) : Prop where
  rows : 0 < r.rows.length
  gates : r.rows.length ≤ r.index.length
  small : r.index.length ≤ q
  rect : ∀ row ∈ r.rows, SparseRow r.index.length row.L ∧ SparseRow r.index.length row.R ∧
    SparseRow r.index.length row.E ∧ SparseRow r.index.length row.O
  pub0 : 0 < pub
  pub : pub < r.index.length
  wlen : w.length = r.index.length
  wnonneg : ∀ k ∈ w, 0 ≤ k

/-- What the sparse setup puts into the key in place of the column values: the column is interpolated over as many points
as there are WIRES (missing gates count as 0), and evaluated at the secret point. -/
noncomputable def Sys.wide {q : Nat} [Fact q.Prime] (S : Sys q) (M : Nat → Nat → ZMod q) (x : ZMod q) (i : Nat) : ZMod q :=
  (through S.m (fun j => M j i)).eval x

/-- a system with these values as (constant) columns -/
noncomputable def Sys.keySys {q : Nat} [Fact q.Prime] (S : Sys q) (x : ZMod q) : Sys q :=
  ⟨S.n, S.m, fun _ i => S.wide S.L x i, fun _ i => S.wide S.R x i, fun _ i => S.wide S.E x i, fun _ i => S.wide S.O x i⟩

/-- all accumulations of an honest sparse run are free of coincidences -/
structure Sys.SafeSparse {q : Nat} [Fact q.Prime] (S : Sys q) (gx : ZMod q → ZMod q) (pub : Nat) (t : Secrets q)
    (w : Nat → ZMod q) : Prop where
  A : SafeSeq ((S.keySys t.x).seqA t w)
  B : SafeSeq ((S.keySys t.x).seqB t w)
  F : SafeSeq ((S.keySys t.x).seqF t w)
  Q : SafeSeq (seqQ S.n (S.n - 1) t (S.comb gx w /ₘ vanish q S.n))
  C : SafeSeq ((S.keySys t.x).seqC pub t w (S.comb gx w /ₘ vanish q S.n))
  pub : SafeSeq ((S.keySys t.x).seqPub pub t w)

/-- value of `Σ w_i M_i` at the secret point, with the columns of the sparse key -/
noncomputable def Sys.wideVal {q : Nat} [Fact q.Prime] (S : Sys q) (M : Nat → Nat → ZMod q) (w : Nat → ZMod q) (x : ZMod q) :
    ZMod q := ∑ i ∈ Finset.range S.m, w i * S.wide M x i

end APS.Spec
