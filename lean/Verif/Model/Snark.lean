import Verif.Model.DensePoly
import Verif.Model.SparsePoly
import Verif.Model.R1CS

/-! zkSNARK/wol19.go and the transposition / interpolation half of circuitcompiler/ER1CS.go.

Panics (index out of range, nil dereference, explicit `panic`) are `none`.  The three groups are abstract: the model is
parametric in an `Api`, the functions of package `bn256` that wol19.go calls.  Timing output is not modelled.  The
random draws of the trusted setup are an explicit argument (`Toxic`), so statements range over every outcome. -/
namespace APS.Snark
open APS.Circuit APS.Avl

/-- The part of pairing/bn256.go that wol19.go uses.  `addTo a b` is the in-place call `a.Add(a, b)` (receiver aliases
the first operand), `addFresh2 a b` is `new(G2).Add(a, b)`. -/
structure Api (G1 G2 GT : Type) where
  /-- `new(G1).ScalarBaseMult(k)`, bn256.go:68-75 -/
  base1 : Int → G1
  /-- `new(G2).ScalarBaseMult(k)`, bn256.go:205-212 -/
  base2 : Int → G2
  /-- `new(G1).ScalarMult(a, k)`, bn256.go:77-84 -/
  mul1 : G1 → Int → G1
  /-- `new(G2).ScalarMult(a, k)`, bn256.go:214-221 -/
  mul2 : G2 → Int → G2
  /-- `new(GT).ScalarMult(a, k)`, bn256.go:321-327 -/
  mulT : GT → Int → GT
  /-- `a.Add(a, b)` on G1, bn256.go:88-95 -/
  addTo1 : G1 → G1 → G1
  /-- `a.Add(a, b)` on G2, bn256.go:225-231 -/
  addTo2 : G2 → G2 → G2
  /-- `new(G2).Add(a, b)` -/
  addFresh2 : G2 → G2 → G2
  /-- `new(GT).Add(a, b)`, bn256.go:330-336 -/
  addT : GT → GT → GT
  /-- `G1.X()`, bn256.go:107-114 -/
  x1 : G1 → Int
  /-- `bn256.Pair`, bn256.go:409-412 -/
  pair : G1 → G2 → GT
  /-- `bytes.Equal(a.Marshal(), b.Marshal())` -/
  eqT : GT → GT → Bool

/-- ER1CS.go:43-50 `ER1CSTransposed` -/
structure Transposed where
  witnessLength : Nat
  numberOfGates : Nat
  L : List (List Int)
  R : List (List Int)
  E : List (List Int)
  O : List (List Int)
deriving DecidableEq, Repr

/-- one matrix through `utils.Transpose`; a nil cell left in the result would be dereferenced later, here at once -/
def transposeMatrix (m : List (List Int)) : Option (List (List Int)) :=
  (Dense.transpose m).bind fun t => t.mapM fun row => row.mapM id

/-- ER1CS.go:81-91 `ER1CS.Transpose` -/
def transposeR1CS (r : R1CS (List Int)) : Option Transposed := do
  let L ← transposeMatrix (r.rows.map Row.L)
  let R ← transposeMatrix (r.rows.map Row.R)
  let E ← transposeMatrix (r.rows.map Row.E)
  let O ← transposeMatrix (r.rows.map Row.O)
  pure ⟨r.witnessLength, r.numberOfGates, L, R, E, O⟩

/-- `utils.Field.PolynomialField.LagrangeInterpolation` as called here.  The shared cache of base polynomials is left
out: by theorem C11 its content never changes the result. -/
def interp (q : Nat) (v : List Int) : Option (List Int) := (Dense.lagrangeInterpolation q [] v).map Prod.fst

/-- ER1CS.go:105-113: the loop body; the four slices are indexed with the position in `lT` -/
def eapLoop (q : Nat) : List (List Int) → List (List Int) → List (List Int) → List (List Int) →
    Option (List (List Int × List Int × List Int × List Int))
  | [], _, _, _ => some []
  | l :: ls, r :: rs, e :: es, o :: os => do
    let lp ← interp q l
    let rp ← interp q r
    let ep ← interp q e
    let op ← interp q o
    let rest ← eapLoop q ls rs es os
    pure ((lp, rp, ep, op) :: rest)
  | _ :: _, _, _, _ => none

/-- ER1CS.go:99-115 `ER1CSToEAP`: the four lists of column polynomials (here one list of quadruples, so the length
check wol19.go:145 holds by construction) -/
def er1csToEAP (q : Nat) (t : Transposed) : Option (List (List Int × List Int × List Int × List Int)) :=
  eapLoop q t.L t.R t.E t.O

/-- the values `G^{E·w}` of wol19.go:90-94 -/
def gPoints {G1 G2 GT : Type} (api : Api G1 G2 GT) (v : List Int) : List Int := v.map fun k => api.x1 (api.base1 k)

/-- wol19.go:85-88: `AddPolynomials(LinearCombine(M, witness))` -/
def columnSum (q : Nat) (m : List (List Int)) (w : List Int) : Option (List Int) :=
  (Dense.linearCombine q m w).map (Dense.addPolynomials q)

/-- wol19.go:75-100 `CombinePolynomials2` -/
def combinePolynomials {G1 G2 GT : Type} (api : Api G1 G2 GT) (q : Nat) (w : List Int) (t : Transposed) :
    Option (List Int) := do
  let l ← (columnSum q t.L w).bind (interp q)
  let r ← (columnSum q t.R w).bind (interp q)
  let e ← columnSum q t.E w
  let o ← (columnSum q t.O w).bind (interp q)
  let g ← interp q (gPoints api e)
  let a ← Dense.mul q l r
  pure (Dense.sub q (Dense.add q a g) o)

/-- wol19.go:53-59 `Setup.Toxic` -/
structure Toxic where
  x : Int
  alpha : Int
  beta : Int
  gamma : Int
  delta : Int
deriving DecidableEq, Repr

/-- wol19.go:13-37 `Pk` -/
structure Pk (G1 G2 GT : Type) where
  domain : List Int
  eGH : GT
  eGHab : GT
  rleoDelta : List G1
  alpha : G1
  beta1 : G1
  delta1 : G1
  rleoGamma : List G1
  powersX1 : List G1
  powersXDD : List G1
  LE : List G1
  Ex : List G1
  beta2 : G2
  gamma2 : G2
  delta2 : G2
  powersX2 : List G2
  Rx : List G2

/-- wol19.go:67-72 `Proof` -/
structure Proof (G1 G2 : Type) where
  A : G1
  B : G2
  C : G1
  F : G1
deriving DecidableEq, Repr

/-- wol19.go:197-204: the scalars `tEncr` takes in `k` rounds -/
def powersLoop (q : Nat) (x : Int) (t : Int) : Nat → List Int
  | 0 => []
  | k + 1 => t :: powersLoop q x (Fq.mul q t x) k

/-- wol19.go:236-239: `α R_i(x) + β L_i(x) + β E_i(x) + O_i(x)` -/
def rleo (q : Nat) (tox : Toxic) (v : Int × Int × Int × Int) : Int :=
  Fq.add q (Fq.add q (Fq.add q (Fq.mul q tox.alpha v.2.1) (Fq.mul q tox.beta v.1)) (Fq.mul q tox.beta v.2.2.1)) v.2.2.2

/-- wol19.go:181-251: everything after the interpolation, from the values `(L_i(x), R_i(x), E_i(x), O_i(x))`.
`pub < number of columns` is checked by the caller. -/
def setupFrom {G1 G2 GT : Type} (api : Api G1 G2 GT) (q : Nat) (pub gates : Nat) (tox : Toxic)
    (vals : List (Int × Int × Int × Int)) : Option (Pk G1 G2 GT) := do
  let domain ← Dense.domainPolynomial q gates
  let dx ← Fq.evalPoly q domain tox.x
  let invDelta ← Fq.inverse q tox.delta
  let invGamma ← Fq.inverse q tox.gamma
  let dd := Fq.mul q invDelta dx
  let ts := powersLoop q tox.x tox.x (gates - 1)
  pure {
    domain := domain
    eGH := api.pair (api.base1 1) (api.base2 1)
    eGHab := api.pair (api.base1 tox.alpha) (api.base2 tox.beta)
    rleoDelta := (vals.drop pub).map fun v => api.base1 (Fq.mul q invDelta (rleo q tox v))
    alpha := api.base1 tox.alpha
    beta1 := api.base1 tox.beta
    delta1 := api.base1 tox.delta
    rleoGamma := (vals.take pub).map fun v => api.base1 (Fq.mul q invGamma (rleo q tox v))
    powersX1 := api.base1 1 :: ts.map api.base1
    powersXDD := api.base1 dd :: ts.map fun t => api.base1 (Fq.mul q t dd)
    LE := vals.map fun v => api.base1 (Fq.add q v.2.2.1 v.1)
    Ex := vals.map fun v => api.base1 v.2.2.1
    beta2 := api.base2 tox.beta
    gamma2 := api.base2 tox.gamma
    delta2 := api.base2 tox.delta
    powersX2 := api.base2 1 :: ts.map api.base2
    Rx := vals.map fun v => api.base2 (Fq.copy q v.2.1) }

/-- wol19.go:219-227: evaluate the four polynomials of one column at the secret point -/
def evalQuad (q : Nat) (x : Int) (p : List Int × List Int × List Int × List Int) : Option (Int × Int × Int × Int) := do
  let l ← Fq.evalPoly q p.1 x
  let r ← Fq.evalPoly q p.2.1 x
  let o ← Fq.evalPoly q p.2.2.2 x
  let e ← Fq.evalPoly q p.2.2.1 x
  pure (l, r, e, o)

/-- wol19.go:137-253 `GenerateTrustedSetup`.  The loop at 218 runs to `witnessLength`; indexing past the columns
panics, columns beyond it are ignored. -/
def trustedSetup {G1 G2 GT : Type} (api : Api G1 G2 GT) (q : Nat) (pub : Nat) (t : Transposed) (tox : Toxic) :
    Option (Pk G1 G2 GT) := do
  let cols ← er1csToEAP q t
  if cols.length ≤ pub then none
  else if cols.length < t.witnessLength then none
  else do
    let vals ← (cols.take t.witnessLength).mapM (evalQuad q tox.x)
    setupFrom api q pub t.numberOfGates tox vals

/-- `ScalarMult(bases[i], ks[i])` for all positions of `ks`; a missing base panics -/
def scaleAll {G : Type} (mul : G → Int → G) : List G → List Int → Option (List G)
  | _, [] => some []
  | [], _ :: _ => none
  | b :: bs, k :: ks => (scaleAll mul bs ks).map (mul b k :: ·)

/-- an accumulator started with the first term and extended by in-place additions; no first term panics -/
def accumulate {G : Type} (addTo : G → G → G) : List G → Option G
  | [] => none
  | t :: ts => some (ts.foldl addTo t)

/-- wol19.go:377-414: the proof elements, given the accumulated `Q(x)D(x)/δ`.  The four accumulators are independent, so
the single Go loop is four folds here; `RLEO_Delta[i-pub]` for `i ≥ pub` pairs the dropped witness with that slice. -/
def proofFrom {G1 G2 GT : Type} (api : Api G1 G2 GT) (pub : Nat) (pk : Pk G1 G2 GT) (w : List Int) (qd : G1) :
    Option (Proof G1 G2) := do
  let a ← (scaleAll api.mul1 pk.LE w).bind (accumulate api.addTo1)
  let b ← (scaleAll api.mul2 pk.Rx w).bind (accumulate api.addTo2)
  let c ← (scaleAll api.mul1 pk.rleoDelta (w.drop pub)).bind (accumulate api.addTo1)
  let f ← (scaleAll api.mul1 pk.Ex w).bind (accumulate api.addTo1)
  pure ⟨api.addTo1 a pk.alpha, b, api.addTo1 c qd, f⟩

/-- wol19.go:373-415 `GenerateProofs` -/
def generateProofs {G1 G2 GT : Type} (api : Api G1 G2 GT) (q : Nat) (pub : Nat) (pk : Pk G1 G2 GT) (w : List Int)
    (px : List Int) : Option (Proof G1 G2) := do
  let (qx, r) ← Dense.div q px pk.domain
  if Dense.isZeroArray r then do
    let qd ← (scaleAll api.mul1 pk.powersXDD qx).bind (accumulate api.addTo1)
    proofFrom api pub pk w qd
  else none

/-- wol19.go:463-496 `VerifyProof` -/
def verifyProof {G1 G2 GT : Type} (api : Api G1 G2 GT) (pk : Pk G1 G2 GT) (p : Proof G1 G2) (signals : List Int) :
    Option Bool :=
  if signals.length ≠ pk.rleoGamma.length then some false
  else do
    let ic ← (scaleAll api.mul1 pk.rleoGamma signals).bind (accumulate api.addTo1)
    let a := api.pair p.A (api.addFresh2 p.B pk.beta2)
    let b := api.mulT pk.eGH (api.x1 p.F)
    let d := api.pair ic pk.gamma2
    let e := api.pair p.C pk.delta2
    let f := api.pair p.F p.B
    pure (api.eqT (api.addT a b) (api.addT (api.addT pk.eGHab d) (api.addT e f)))

/-! ### the sparse pipeline -/

/-- ER1CS.go:35-42 `ER1CSsPARSETransposed` -/
structure TransposedS where
  witnessLength : Nat
  numberOfGates : Nat
  L : List Tree
  R : List Tree
  E : List Tree
  O : List Tree

/-- ER1CS.go:52-64 `TransposeSparse` -/
def transposeR1CSS (r : R1CS Tree) : Option TransposedS := do
  let L ← Sparse.transposeSparse (r.rows.map Row.L) r.witnessLength
  let R ← Sparse.transposeSparse (r.rows.map Row.R) r.witnessLength
  let E ← Sparse.transposeSparse (r.rows.map Row.E) r.witnessLength
  let O ← Sparse.transposeSparse (r.rows.map Row.O) r.witnessLength
  pure ⟨r.witnessLength, r.numberOfGates, L, R, E, O⟩

/-- `InterpolateSparseArray`; cache left out as in `interp` (C26) -/
def interpS (q : Nat) (degree : Nat) (t : Tree) : Option Tree := (Sparse.interpolate q [] t degree).map Prod.fst

/-- ER1CS.go:129-137, the degree is the WITNESS LENGTH -/
def eapLoopS (q : Nat) (degree : Nat) : List Tree → List Tree → List Tree → List Tree →
    Option (List (Tree × Tree × Tree × Tree))
  | [], _, _, _ => some []
  | l :: ls, r :: rs, e :: es, o :: os => do
    let lp ← interpS q degree l
    let rp ← interpS q degree r
    let ep ← interpS q degree e
    let op ← interpS q degree o
    let rest ← eapLoopS q degree ls rs es os
    pure ((lp, rp, ep, op) :: rest)
  | _ :: _, _, _, _ => none

/-- ER1CS.go:123-139 `ER1CSToEAPSparse` -/
def er1csToEAPSparse (q : Nat) (t : TransposedS) : Option (List (Tree × Tree × Tree × Tree)) :=
  eapLoopS q t.witnessLength t.L t.R t.E t.O

/-- wol19.go:336-344 -/
def evalQuadS (q : Nat) (x : Int) (p : Tree × Tree × Tree × Tree) : Option (Int × Int × Int × Int) := do
  let l ← Sparse.evalSparsePoly q p.1 x
  let r ← Sparse.evalSparsePoly q p.2.1 x
  let o ← Sparse.evalSparsePoly q p.2.2.2 x
  let e ← Sparse.evalSparsePoly q p.2.2.1 x
  pure (l, r, e, o)

/-- wol19.go:256-370 `GenerateTrustedSetupSparse` -/
def trustedSetupSparse {G1 G2 GT : Type} (api : Api G1 G2 GT) (q : Nat) (pub : Nat) (t : TransposedS) (tox : Toxic) :
    Option (Pk G1 G2 GT) := do
  let cols ← er1csToEAPSparse q t
  if cols.length ≤ pub then none
  else if cols.length < t.witnessLength then none
  else do
    let vals ← (cols.take t.witnessLength).mapM (evalQuadS q tox.x)
    setupFrom api q pub t.numberOfGates tox vals

/-- wol19.go:107-110 `scalarProduct` -/
def columnSumS (q : Nat) (m : List Tree) (w : List Int) : Option Tree :=
  (Sparse.linearCombine q m w).bind (Sparse.addPolynomials q)

/-- wol19.go:117-121 -/
def gPointsS {G1 G2 GT : Type} (api : Api G1 G2 GT) (e : Tree) : Option Tree :=
  e.ascendingNodes.foldlM (fun t kv => t.insertNoOverwrite kv.1 (api.x1 (api.base1 kv.2))) Tree.nil

/-- wol19.go:103-127 `CombineSparsePolynomials` -/
def combineSparsePolynomials {G1 G2 GT : Type} (api : Api G1 G2 GT) (q : Nat) (w : List Int) (t : TransposedS) :
    Option Tree := do
  let l ← (columnSumS q t.L w).bind (interpS q t.numberOfGates)
  let r ← (columnSumS q t.R w).bind (interpS q t.numberOfGates)
  let e ← columnSumS q t.E w
  let o ← (columnSumS q t.O w).bind (interpS q t.numberOfGates)
  let gp ← gPointsS api e
  let g ← interpS q t.numberOfGates gp
  let p ← Sparse.mulSparse q l r
  let p ← Sparse.addToSparse q p g
  Sparse.subToSparse q p o

/-- wol19.go:434-437: `PowersX_Domain_Delta[L.Key]` scaled by the coefficient, added in place to the point at infinity -/
def quotientTerms {G1 G2 GT : Type} (api : Api G1 G2 GT) (pk : Pk G1 G2 GT) : List (Nat × Int) → Option (List G1)
  | [] => some []
  | kv :: rest => do
    let b ← pk.powersXDD[kv.1]?
    let ts ← quotientTerms api pk rest
    pure (api.mul1 b kv.2 :: ts)

/-- wol19.go:418-460 `GenerateProof_Sparse`; `fuel` bounds the division loop (which may run for ever, C23); the nodes of
the quotient arrive in `ChannelNodes(true)` order -/
def generateProofSparse {G1 G2 GT : Type} (api : Api G1 G2 GT) (q : Nat) (fuel : Nat) (pub : Nat) (pk : Pk G1 G2 GT)
    (w : List Int) (px : Tree) : Option (Proof G1 G2) := do
  let dom ← Avl.Tree.fromArray pk.domain
  match Sparse.divideSparse q fuel px dom with
  | .done (qx, r) =>
    if 0 < r.size then none
    else do
      let ts ← quotientTerms api pk qx.ascendingNodes
      proofFrom api pub pk w (ts.foldl api.addTo1 (api.base1 0))
  | _ => none

end APS.Snark
