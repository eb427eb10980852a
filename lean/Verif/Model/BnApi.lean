import Verif.Model.Snark
import Verif.Model.Optate

/-! The functions of package bn256 that zkSNARK/wol19.go calls, as the `Api` of Model/Snark.lean, on the objects (coordinates) of
Model/Curve.lean and Model/Optate.lean.  Every call starts in a memory with the two generators and new (zero) objects; the operands are
put into it.  `X()` and `Marshal()` also normalise their receiver (`MakeAffine`, `Minimal`); that side effect is left out: it does
not change which element the object represents (C61_makeAffine, C76_encoding). -/
namespace APS.Pairing
open APS.Snark

/-- new objects, and the generator `curveGen` of bn256.go -/
def newMem1 : Mem Int := fun r => if r = .gen then curveGen else ⟨0, 0, 0, 0⟩
/-- new objects, and `twistGen` -/
def newMem2 : Mem Gfp2 := fun r => if r = .gen then twistGen else ⟨Gfp2.zero, Gfp2.zero, Gfp2.zero, Gfp2.zero⟩

/-- package bn256 as wol19.go uses it -/
def bnRaw : Api (Pt Int) (Pt Gfp2) Gfp12 where
  /- wol19.go:129-131 `new(bn256.G1).ScalarBaseMult(k)` -/
  base1 k := g1ScalarBaseMult newMem1 (.obj 0) k (.obj 0)
  /- wol19.go:132-134 `new(bn256.G2).ScalarBaseMult(k)` -/
  base2 k := g2ScalarBaseMult newMem2 (.obj 0) k (.obj 0)
  /- wol19.go:377, 379, 380, 387, .. `new(bn256.G1).ScalarMult(a, k)` -/
  mul1 a k := g1ScalarMult (newMem1.set (.obj 1) a) (.obj 0) (.obj 1) k (.obj 0)
  /- wol19.go:378 `new(bn256.G2).ScalarMult(a, k)` -/
  mul2 a k := g2ScalarMult (newMem2.set (.obj 1) a) (.obj 0) (.obj 1) k (.obj 0)
  mulT a k := gtScalarMult a k
  /- wol19.go:391 `a.Add(a, b)`: the receiver is the first operand -/
  addTo1 a b := g1Add ((newMem1.set (.obj 0) a).set (.obj 1) b) (.obj 0) (.obj 0) (.obj 1) (.obj 0)
  addTo2 a b := g2Add ((newMem2.set (.obj 0) a).set (.obj 1) b) (.obj 0) (.obj 0) (.obj 1) (.obj 0)
  /- `new(bn256.G2).Add(a, b)` in `VerifyProof` -/
  addFresh2 a b := g2Add ((newMem2.set (.obj 1) a).set (.obj 2) b) (.obj 0) (.obj 1) (.obj 2) (.obj 0)
  addT a b := gtAdd a b
  x1 a := (g1X (newMem1.set (.obj 0) a) (.obj 0)).1
  pair a b := Pairing.pair a b
  eqT a b := gtMarshal a == gtMarshal b

end APS.Pairing
