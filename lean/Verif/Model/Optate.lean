import Verif.Model.Curve

/-! pairing/optate.go and the GT part of pairing/bn256.go.

Local field elements are plain values; `pool` and the `Put` calls only recycle numbers (C67).  The points `aAffine`, `bAffine`,
`minusA` of `miller` are objects of a local memory, because `MakeAffine` and `Negative` write them in place. -/
namespace APS.Pairing
open Mem

/-- optate.go:7-79 `lineFunctionAdd`; the result is `(a, b, c, rOut)` -/
def lineFunctionAdd (r p : Pt Gfp2) (q : Pt Int) (r2 : Gfp2) : Gfp2 × Gfp2 × Gfp2 × Pt Gfp2 :=
  let B := p.x.mul P r.t
  let D := p.y.add r.z
  let D := D.square P
  let D := D.sub r2
  let D := D.sub r.t
  let D := D.mul P r.t
  let H := B.sub r.x
  let I := H.square P
  let E := I.add I
  let E := E.add E
  let J := H.mul P E
  let L1 := D.sub r.y
  let L1 := L1.sub r.y
  let V := r.x.mul P E
  let ox := L1.square P
  let ox := ox.sub J
  let ox := ox.sub V
  let ox := ox.sub V
  let oz := r.z.add H
  let oz := oz.square P
  let oz := oz.sub r.t
  let oz := oz.sub I
  let t := V.sub ox
  let t := t.mul P L1
  let t2 := r.y.mul P J
  let t2 := t2.add t2
  let oy := t.sub t2
  let ot := oz.square P
  let t := p.y.add oz
  let t := t.square P
  let t := t.sub r2
  let t := t.sub ot
  let t2 := L1.mul P p.x
  let t2 := t2.add t2
  let a := t2.sub t
  let c := oz.mulScalar q.y
  let c := c.add c
  let b := Gfp2.zero
  let b := b.sub L1
  let b := b.mulScalar q.x
  let b := b.add b
  (a, b, c, ⟨ox, oy, oz, ot⟩)

/-- optate.go:81-144 `lineFunctionDouble` -/
def lineFunctionDouble (r : Pt Gfp2) (q : Pt Int) : Gfp2 × Gfp2 × Gfp2 × Pt Gfp2 :=
  let A := r.x.square P
  let B := r.y.square P
  let C := B.square P
  let D := r.x.add B
  let D := D.square P
  let D := D.sub A
  let D := D.sub C
  let D := D.add D
  let E := A.add A
  let E := E.add A
  let G := E.square P
  let ox := G.sub D
  let ox := ox.sub D
  let oz := r.y.add r.z
  let oz := oz.square P
  let oz := oz.sub B
  let oz := oz.sub r.t
  let oy := D.sub ox
  let oy := oy.mul P E
  let t := C.add C
  let t := t.add t
  let t := t.add t
  let oy := oy.sub t
  let ot := oz.square P
  let t := E.mul P r.t
  let t := t.add t
  let b := Gfp2.zero
  let b := b.sub t
  let b := b.mulScalar q.x
  let a := r.x.add E
  let a := a.square P
  let a := a.sub A
  let a := a.sub G
  let t := B.add B
  let t := t.add t
  let a := a.sub t
  let c := oz.mul P r.t
  let c := c.add c
  let c := c.mulScalar q.y
  (a, b, c, ⟨ox, oy, oz, ot⟩)

/-- optate.go:146-180 `mulLine`: the value left in `ret` -/
def mulLine (ret : Gfp12) (a b c : Gfp2) : Gfp12 :=
  let a2 : Gfp6 := ⟨Gfp2.zero, a, b⟩
  let a2 := a2.mul P ret.x
  let t3 := ret.y.mulScalar P c
  let t := b.add c
  let t2 : Gfp6 := ⟨Gfp2.zero, a, t⟩
  let x := ret.x.add ret.y
  let y := t3
  let x := x.mul P t2
  let x := x.sub a2
  let x := x.sub y
  let a2 := a2.mulTau
  let y := y.add a2
  ⟨x, y⟩

/-- optate.go:183-186 `sixuPlus2NAF` -/
def sixuPlus2NAF : List Int :=
  [0, 0, 0, 1, 0, 1, 0, -1, 0, 0, 1, -1, 0, 0, 1, 0,
   0, 1, 1, 0, -1, 0, 0, 1, 0, -1, 0, 0, 0, 0, 1, 1,
   1, 0, 0, -1, 0, 0, 1, 0, 0, 0, 0, 0, -1, 0, 0, 1,
   1, 0, 0, -1, 0, 0, 0, 1, 1, 0, -1, 0, 0, 1, 0, 1, 1]

/-- optate.go:211-240, the body of the loop for one `i`; the state is `(ret, r)` -/
def millerStep (aAffine minusA : Pt Gfp2) (bAffine : Pt Int) (r2 : Gfp2) (i : Nat) (s : Gfp12 × Pt Gfp2) : Gfp12 × Pt Gfp2 :=
  let (ret, r) := s
  let (a, b, c, newR) := lineFunctionDouble r bAffine
  let ret := if i ≠ sixuPlus2NAF.length - 1 then ret.square P else ret
  let ret := mulLine ret a b c
  let r := newR
  let d := sixuPlus2NAF.getD (i - 1) 0
  if d = 1 then
    let (a, b, c, newR) := lineFunctionAdd r aAffine bAffine r2
    (mulLine ret a b c, newR)
  else if d = -1 then
    let (a, b, c, newR) := lineFunctionAdd r minusA bAffine r2
    (mulLine ret a b c, newR)
  else (ret, r)

/-- optate.go:211-240, the loop: `i` runs from the argument down to 1 -/
def millerLoop (aAffine minusA : Pt Gfp2) (bAffine : Pt Int) (r2 : Gfp2) : Nat → Gfp12 × Pt Gfp2 → Gfp12 × Pt Gfp2
  | 0, s => s
  | i + 1, s => millerLoop aAffine minusA bAffine r2 i (millerStep aAffine minusA bAffine r2 (i + 1) s)

/-- optate.go:192-304 `miller` -/
def miller (q : Pt Gfp2) (p : Pt Int) : Gfp12 :=
  let m : Mem Gfp2 := fun _ => q
  let m := twistMakeAffine P m (.obj 0)
  let aAffine := m (.obj 0)
  let n : Mem Int := fun _ => p
  let n := curveMakeAffine P n (.obj 0)
  let bAffine := n (.obj 0)
  let m := twistNegative m (.obj 1) (.obj 0)
  let minusA := m (.obj 1)
  let r := aAffine
  let r2 := aAffine.y.square P
  let s := millerLoop aAffine minusA bAffine r2 (sixuPlus2NAF.length - 1) (Gfp12.one, r)
  let ret := s.1
  let r := s.2
  let q1 : Pt Gfp2 := ⟨aAffine.x.conjugate.mul P xiToPMinus1Over3, aAffine.y.conjugate.mul P xiToPMinus1Over2, Gfp2.one, Gfp2.one⟩
  let minusQ2 : Pt Gfp2 := ⟨aAffine.x.mulScalar xiToPSquaredMinus1Over3, aAffine.y, Gfp2.one, Gfp2.one⟩
  let r2 := q1.y.square P
  let (a, b, c, newR) := lineFunctionAdd r q1 bAffine r2
  let ret := mulLine ret a b c
  let r := newR
  let r2 := minusQ2.y.square P
  let (a, b, c, _) := lineFunctionAdd r minusQ2 bAffine r2
  mulLine ret a b c

/-- optate.go:308-386 `finalExponentiation`; `Conjugate` is used for the value it leaves in the receiver -/
def finalExponentiation (inp : Gfp12) : Gfp12 :=
  let t1 : Gfp12 := ⟨inp.x.negative, inp.y⟩
  let inv := inp.invert P
  let t1 := t1.mul P inv
  let t2 := t1.frobeniusP2
  let t1 := t1.mul P t2
  let fp := t1.frobenius
  let fp2 := t1.frobeniusP2
  let fp3 := fp2.frobenius
  let fu := t1.exp P u
  let fu2 := fu.exp P u
  let fu3 := fu2.exp P u
  let y3 := fu.frobenius
  let fu2p := fu2.frobenius
  let fu3p := fu3.frobenius
  let y2 := fu2.frobeniusP2
  let y0 := fp.mul P fp2
  let y0 := y0.mul P fp3
  let y1 := t1.conjugate.1
  let y5 := fu2.conjugate.1
  let y3 := y3.conjugate.1
  let y4 := fu.mul P fu2p
  let y4 := y4.conjugate.1
  let y6 := fu3.mul P fu3p
  let y6 := y6.conjugate.1
  let t0 := y6.square P
  let t0 := t0.mul P y4
  let t0 := t0.mul P y5
  let t1 := y3.mul P y5
  let t1 := t1.mul P t0
  let t0 := t0.mul P y2
  let t1 := t1.square P
  let t1 := t1.mul P t0
  let t1 := t1.square P
  let t0 := t1.mul P y1
  let t1 := t1.mul P y0
  let t0 := t0.square P
  t0.mul P t1

/-- optate.go:388-397 `optimalAte` -/
def optimalAte (a : Pt Gfp2) (b : Pt Int) : Gfp12 :=
  let e := miller a b
  let ret := finalExponentiation e
  if twistIsInf a || curveIsInf b then Gfp12.one else ret

/-! ### bn256.go: GT, Pair, PairingCheck -/

/-- bn256.go:320-326 `GT.ScalarMult` -/
def gtScalarMult (a : Gfp12) (k : Int) : Gfp12 := a.exp P k
/-- bn256.go:329-335 `GT.Add` -/
def gtAdd (a b : Gfp12) : Gfp12 := a.mul P b
/-- bn256.go:338-344 `GT.Neg` -/
def gtNeg (a : Gfp12) : Gfp12 := a.invert P
/-- bn256.go:415-420 `ZeroGT` -/
def zeroGT : Gfp12 := Gfp12.zero
/-- bn256.go:423-428 `OneGT` -/
def oneGT : Gfp12 := Gfp12.one

/-- bn256.go:431-433 `Pair` -/
def pair (g1 : Pt Int) (g2 : Pt Gfp2) : Gfp12 := optimalAte g2 g1

/-- bn256.go:442-447: the loop of `PairingCheck`; `none` is the index panic when `b` is shorter than `a` -/
def pairingCheckLoop : List (Pt Int) → List (Pt Gfp2) → Gfp12 → Option Gfp12
  | [], _, acc => some acc
  | a :: as, b :: bs, acc =>
    if curveIsInf a || twistIsInf b then pairingCheckLoop as bs acc
    else pairingCheckLoop as bs (acc.mul P (miller b a))
  | a :: as, [], acc =>
    -- the index `b[i]` is evaluated only when `a[i]` is not infinite (`||` stops early)
    if curveIsInf a then pairingCheckLoop as [] acc else none

/-- bn256.go:436-452 `PairingCheck` -/
def pairingCheck (a : List (Pt Int)) (b : List (Pt Gfp2)) : Option Bool :=
  (pairingCheckLoop a b Gfp12.one).map fun acc => (finalExponentiation acc).isOne P

/-- bn256.go:347-382 `GT.Marshal` (minimises its argument in place, which does not change the value) -/
def gtMarshal (n : Gfp12) : List UInt8 :=
  let n := n.minimal P
  slot n.x.x.x ++ slot n.x.x.y ++ slot n.x.y.x ++ slot n.x.y.y ++ slot n.x.z.x ++ slot n.x.z.y ++
  slot n.y.x.x ++ slot n.y.x.y ++ slot n.y.y.x ++ slot n.y.y.y ++ slot n.y.z.x ++ slot n.y.z.y

/-- the `i`-th 32 byte number of `m` -/
def word (m : List UInt8) (i : Nat) : Int := ofBytes ((m.drop (32 * i)).take 32)

/-- bn256.go:386-412 `GT.Unmarshal`: `none` is `(nil, false)` -/
def gtUnmarshal (m : List UInt8) : Option Gfp12 :=
  if m.length ≠ 384 then none
  else some ⟨⟨⟨word m 0, word m 1⟩, ⟨word m 2, word m 3⟩, ⟨word m 4, word m 5⟩⟩,
             ⟨⟨word m 6, word m 7⟩, ⟨word m 8, word m 9⟩, ⟨word m 10, word m 11⟩⟩⟩

end APS.Pairing
