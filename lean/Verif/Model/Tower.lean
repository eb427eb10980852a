import Verif.Model.Field

/-! pairing/constants.go, gfp2.go, gfp6.go, gfp12.go.

Numbers are `Int` (math/big); the modulus `P` is the parameter `p`.  Every function is a function of the argument VALUES:
the code reads all components it needs before (or componentwise together with) overwriting the receiver, so `e.Op(e, ..)`
gives the same result; the exceptions relevant to callers are modelled in Model/Curve.lean with an explicit memory, and
`Gfp12.mulScalar` below takes the receiver as an argument because the code reads it.  `pool` only recycles numbers (C67). -/
namespace APS.Pairing

/-- `new(big.Int).ModInverse(a, P)`; when there is no inverse Go leaves the receiver unchanged (a number from the pool,
here 0; for a prime modulus this happens only for multiples of `P`, where every caller multiplies it by 0). -/
def modInv (p : Nat) (a : Int) : Int := (Fq.modInverse a p).getD 0

/-- math/big `BitLen` of the absolute value -/
def bitLenInt (k : Int) : Nat := Fq.bitLen k.natAbs

/-- math/big `Bit`: two's complement for negative numbers -/
def bitInt (k : Int) (i : Nat) : Bool := if 0 ≤ k then k.natAbs.testBit i else !(k.natAbs - 1).testBit i

/-! ### gfp2.go -/

/-- gfp2.go:17-19, the value is `x i + y` with `i² = -1` -/
@[ext] structure Gfp2 where
  x : Int
  y : Int
deriving DecidableEq, Repr

namespace Gfp2

/-- gfp2.go:42-46 `SetZero` -/
def zero : Gfp2 := ⟨0, 0⟩
/-- gfp2.go:48-52 `SetOne` -/
def one : Gfp2 := ⟨0, 1⟩

/-- gfp2.go:54-61 `Minimal` -/
def minimal (p : Nat) (a : Gfp2) : Gfp2 :=
  ⟨if a.x < 0 ∨ (p : Int) ≤ a.x then a.x % p else a.x, if a.y < 0 ∨ (p : Int) ≤ a.y then a.y % p else a.y⟩

/-- gfp2.go:63-65 `IsZero` -/
def isZero (a : Gfp2) : Bool := a.x == 0 && a.y == 0

/-- gfp2.go:67-73 `IsOne`; `Bits` are the words of the absolute value -/
def isOne (a : Gfp2) : Bool := a.x == 0 && a.y.natAbs == 1

/-- gfp2.go:75-79 `Conjugate` -/
def conjugate (a : Gfp2) : Gfp2 := ⟨-a.x, a.y⟩
/-- gfp2.go:81-85 `Negative` -/
def negative (a : Gfp2) : Gfp2 := ⟨-a.x, -a.y⟩
/-- gfp2.go:87-91 `Add` -/
def add (a b : Gfp2) : Gfp2 := ⟨a.x + b.x, a.y + b.y⟩
/-- gfp2.go:93-97 `Sub` -/
def sub (a b : Gfp2) : Gfp2 := ⟨a.x - b.x, a.y - b.y⟩
/-- gfp2.go:99-103 `Double` (`Lsh` by one) -/
def double (a : Gfp2) : Gfp2 := ⟨a.x * 2, a.y * 2⟩

/-- gfp2.go:129-147 `Mul` -/
def mul (p : Nat) (a b : Gfp2) : Gfp2 :=
  let tx := (a.x * b.y + b.x * a.y) % p
  let ty := a.y * b.y - a.x * b.x
  ⟨tx, ty % p⟩

/-- gfp2.go:148-152 `MulScalar` -/
def mulScalar (a : Gfp2) (b : Int) : Gfp2 := ⟨a.x * b, a.y * b⟩

/-- gfp2.go:154-172 `MulXi` -/
def mulXi (a : Gfp2) : Gfp2 :=
  let tx := a.x * 8 + a.x + a.y
  let ty := a.y * 8 + a.y - a.x
  ⟨tx, ty⟩

/-- gfp2.go:174-193 `Square` -/
def square (p : Nat) (a : Gfp2) : Gfp2 :=
  let t1 := a.y - a.x
  let t2 := a.x + a.y
  let ty := (t1 * t2) % p
  let t1 := a.x * a.y * 2
  ⟨t1 % p, ty⟩

/-- gfp2.go:195-219 `Invert` -/
def invert (p : Nat) (a : Gfp2) : Gfp2 :=
  let t := a.y * a.y
  let t2 := a.x * a.x
  let t := t + t2
  let inv := modInv p t
  ⟨(-a.x * inv) % p, (a.y * inv) % p⟩

/-- gfp2.go:110-117: the loop of `Exp`, `i` runs down -/
def expLoop (p : Nat) (a : Gfp2) (power : Int) : Nat → Gfp2 → Gfp2
  | 0, sum => sum
  | i + 1, sum =>
    let t := square p sum
    expLoop p a power i (if bitInt power i then mul p t a else t)

/-- gfp2.go:105-125 `Exp` -/
def exp (p : Nat) (a : Gfp2) (power : Int) : Gfp2 := expLoop p a power (bitLenInt power) one

end Gfp2

/-! ### gfp6.go -/

/-- gfp6.go:17-19, the value is `x τ² + y τ + z` with `τ³ = ξ = i + 9` -/
@[ext] structure Gfp6 where
  x : Gfp2
  y : Gfp2
  z : Gfp2
deriving DecidableEq, Repr

namespace Gfp6

/-- gfp6.go:42-47 `SetZero` -/
def zero : Gfp6 := ⟨Gfp2.zero, Gfp2.zero, Gfp2.zero⟩
/-- gfp6.go:49-54 `SetOne` -/
def one : Gfp6 := ⟨Gfp2.zero, Gfp2.zero, Gfp2.one⟩
/-- gfp6.go:56-60 `Minimal` -/
def minimal (p : Nat) (a : Gfp6) : Gfp6 := ⟨a.x.minimal p, a.y.minimal p, a.z.minimal p⟩
/-- gfp6.go:62-64 `IsZero` -/
def isZero (a : Gfp6) : Bool := a.x.isZero && a.y.isZero && a.z.isZero
/-- gfp6.go:66-68 `IsOne` -/
def isOne (a : Gfp6) : Bool := a.x.isZero && a.y.isZero && a.z.isOne
/-- gfp6.go:70-75 `Negative` -/
def negative (a : Gfp6) : Gfp6 := ⟨a.x.negative, a.y.negative, a.z.negative⟩
/-- gfp6.go:97-102 `Add` -/
def add (a b : Gfp6) : Gfp6 := ⟨a.x.add b.x, a.y.add b.y, a.z.add b.z⟩
/-- gfp6.go:104-109 `Sub` -/
def sub (a b : Gfp6) : Gfp6 := ⟨a.x.sub b.x, a.y.sub b.y, a.z.sub b.z⟩
/-- gfp6.go:111-116 `Double` -/
def double (a : Gfp6) : Gfp6 := ⟨a.x.double, a.y.double, a.z.double⟩

/-- gfp6.go:118-172 `Mul` -/
def mul (p : Nat) (a b : Gfp6) : Gfp6 :=
  let v0 := a.z.mul p b.z
  let v1 := a.y.mul p b.y
  let v2 := a.x.mul p b.x
  let t0 := a.x.add a.y
  let t1 := b.x.add b.y
  let tz := t0.mul p t1
  let tz := tz.sub v1
  let tz := tz.sub v2
  let tz := tz.mulXi
  let tz := tz.add v0
  let t0 := a.y.add a.z
  let t1 := b.y.add b.z
  let ty := t0.mul p t1
  let ty := ty.sub v0
  let ty := ty.sub v1
  let t0 := v2.mulXi
  let ty := ty.add t0
  let t0 := a.x.add a.z
  let t1 := b.x.add b.z
  let tx := t0.mul p t1
  let tx := tx.sub v0
  let tx := tx.add v1
  let tx := tx.sub v2
  ⟨tx, ty, tz⟩

/-- gfp6.go:174-179 `MulScalar` -/
def mulScalar (p : Nat) (a : Gfp6) (b : Gfp2) : Gfp6 := ⟨a.x.mul p b, a.y.mul p b, a.z.mul p b⟩
/-- gfp6.go:181-186 `MulGFP` -/
def mulGFP (a : Gfp6) (b : Int) : Gfp6 := ⟨a.x.mulScalar b, a.y.mulScalar b, a.z.mulScalar b⟩
/-- gfp6.go:188-199 `MulTau` -/
def mulTau (a : Gfp6) : Gfp6 :=
  let tz := a.x.mulXi
  let ty := a.y
  ⟨ty, a.z, tz⟩

/-- gfp6.go:201-239 `Square` -/
def square (p : Nat) (a : Gfp6) : Gfp6 :=
  let v0 := a.z.square p
  let v1 := a.y.square p
  let v2 := a.x.square p
  let c0 := a.x.add a.y
  let c0 := c0.square p
  let c0 := c0.sub v1
  let c0 := c0.sub v2
  let c0 := c0.mulXi
  let c0 := c0.add v0
  let c1 := a.y.add a.z
  let c1 := c1.square p
  let c1 := c1.sub v0
  let c1 := c1.sub v1
  let xiV2 := v2.mulXi
  let c1 := c1.add xiV2
  let c2 := a.x.add a.z
  let c2 := c2.square p
  let c2 := c2.sub v0
  let c2 := c2.add v1
  let c2 := c2.sub v2
  ⟨c2, c1, c0⟩

/-- gfp6.go:241-296 `Invert` -/
def invert (p : Nat) (a : Gfp6) : Gfp6 :=
  let A := a.z.square p
  let t1 := a.x.mul p a.y
  let t1 := t1.mulXi
  let A := A.sub t1
  let B := a.x.square p
  let B := B.mulXi
  let t1 := a.y.mul p a.z
  let B := B.sub t1
  let C := a.y.square p
  let t1 := a.x.mul p a.z
  let C := C.sub t1
  let F := C.mul p a.y
  let F := F.mulXi
  let t1 := A.mul p a.z
  let F := F.add t1
  let t1 := B.mul p a.x
  let t1 := t1.mulXi
  let F := F.add t1
  let F := F.invert p
  ⟨C.mul p F, B.mul p F, A.mul p F⟩

end Gfp6

/-! ### constants.go -/

/-- constants.go:17 -/
def u : Nat := 4965661367192848881
/-- constants.go:20 -/
def P : Nat := 21888242871839275222246405745257275088696311157297823662689037894645226208583
/-- constants.go:23 -/
def Order : Nat := 21888242871839275222246405745257275088548364400416034343698204186575808495617
/-- constants.go:26 -/
def xiToPMinus1Over6 : Gfp2 := ⟨16469823323077808223889137241176536799009286646108169935659301613961712198316, 8376118865763821496583973867626364092589906065868298776909617916018768340080⟩
/-- constants.go:29 -/
def xiToPMinus1Over3 : Gfp2 := ⟨10307601595873709700152284273816112264069230130616436755625194854815875713954, 21575463638280843010398324269430826099269044274347216827212613867836435027261⟩
/-- constants.go:32 -/
def xiToPMinus1Over2 : Gfp2 := ⟨3505843767911556378687030309984248845540243509899259641013678093033130930403, 2821565182194536844548159561693502659359617185244120367078079554186484126554⟩
/-- constants.go:35 -/
def xiToPSquaredMinus1Over3 : Int := 21888242871839275220042445260109153167277707414472061641714758635765020556616
/-- constants.go:38 -/
def xiTo2PSquaredMinus2Over3 : Int := 2203960485148121921418603742825762020974279258880205651966
/-- constants.go:41 -/
def xiToPSquaredMinus1Over6 : Int := 21888242871839275220042445260109153167277707414472061641714758635765020556617
/-- constants.go:44 -/
def xiTo2PMinus2Over3 : Gfp2 := ⟨19937756971775647987995932169929341994314640652964949448313374472400716661030, 2581911344467009335267311115468803099551665605076196740867805258568234346338⟩

namespace Gfp6

/-- gfp6.go:77-85 `Frobenius` (the modulus is `P`: the constants are tied to it) -/
def frobenius (a : Gfp6) : Gfp6 :=
  let x := a.x.conjugate
  let y := a.y.conjugate
  let z := a.z.conjugate
  ⟨x.mul P xiTo2PMinus2Over3, y.mul P xiToPMinus1Over3, z⟩

/-- gfp6.go:87-95 `FrobeniusP2` -/
def frobeniusP2 (a : Gfp6) : Gfp6 :=
  ⟨a.x.mulScalar xiTo2PSquaredMinus2Over3, a.y.mulScalar xiToPSquaredMinus1Over3, a.z⟩

end Gfp6

/-! ### gfp12.go -/

/-- gfp12.go:17-19, the value is `x ω + y` with `ω² = τ` -/
@[ext] structure Gfp12 where
  x : Gfp6
  y : Gfp6
deriving DecidableEq, Repr

namespace Gfp12

/-- gfp12.go:40-44 `SetZero` -/
def zero : Gfp12 := ⟨Gfp6.zero, Gfp6.zero⟩
/-- gfp12.go:46-50 `SetOne` -/
def one : Gfp12 := ⟨Gfp6.zero, Gfp6.one⟩
/-- gfp12.go:52-55 `Minimal` -/
def minimal (p : Nat) (a : Gfp12) : Gfp12 := ⟨a.x.minimal p, a.y.minimal p⟩
/-- gfp12.go:57-60 `IsZero` (minimises its argument in place, which does not change the value) -/
def isZero (p : Nat) (a : Gfp12) : Bool := (a.minimal p).x.isZero && (a.minimal p).y.isZero
/-- gfp12.go:62-65 `IsOne` -/
def isOne (p : Nat) (a : Gfp12) : Bool := (a.minimal p).x.isZero && (a.minimal p).y.isOne

/-- gfp12.go:67-71 `Conjugate`: the value left in the receiver, and the value RETURNED, which is that of the argument -/
def conjugate (a : Gfp12) : Gfp12 × Gfp12 := (⟨a.x.negative, a.y⟩, a)
/-- gfp12.go:73-77 `Negative` -/
def negative (a : Gfp12) : Gfp12 := ⟨a.x.negative, a.y.negative⟩
/-- gfp12.go:80-85 `Frobenius` -/
def frobenius (a : Gfp12) : Gfp12 :=
  let x := a.x.frobenius
  let y := a.y.frobenius
  ⟨x.mulScalar P xiToPMinus1Over6, y⟩
/-- gfp12.go:88-93 `FrobeniusP2` -/
def frobeniusP2 (a : Gfp12) : Gfp12 :=
  let x := a.x.frobeniusP2
  let x := x.mulGFP xiToPSquaredMinus1Over6
  ⟨x, a.y.frobeniusP2⟩
/-- gfp12.go:95-99 `Add` -/
def add (a b : Gfp12) : Gfp12 := ⟨a.x.add b.x, a.y.add b.y⟩
/-- gfp12.go:101-105 `Sub` -/
def sub (a b : Gfp12) : Gfp12 := ⟨a.x.sub b.x, a.y.sub b.y⟩

/-- gfp12.go:107-125 `Mul` -/
def mul (p : Nat) (a b : Gfp12) : Gfp12 :=
  let tx := a.x.mul p b.y
  let t := b.x.mul p a.y
  let tx := tx.add t
  let ty := a.y.mul p b.y
  let t := a.x.mul p b.x
  let t := t.mulTau
  ⟨tx, ty.add t⟩

/-- gfp12.go:127-131 `MulScalar`: the receiver `e` is multiplied, the argument `a` is not looked at -/
def mulScalar (p : Nat) (e _a : Gfp12) (b : Gfp6) : Gfp12 := ⟨e.x.mul p b, e.y.mul p b⟩

/-- gfp12.go:155-177 `Square` -/
def square (p : Nat) (a : Gfp12) : Gfp12 :=
  let v0 := a.x.mul p a.y
  let t := a.x.mulTau
  let t := a.y.add t
  let ty := a.x.add a.y
  let ty := ty.mul p t
  let ty := ty.sub v0
  let t := v0.mulTau
  let ty := ty.sub t
  ⟨v0.double, ty⟩

/-- gfp12.go:138-145: the loop of `Exp` -/
def expLoop (p : Nat) (a : Gfp12) (power : Int) : Nat → Gfp12 → Gfp12
  | 0, sum => sum
  | i + 1, sum =>
    let t := square p sum
    expLoop p a power i (if bitInt power i then mul p t a else t)

/-- gfp12.go:133-153 `Exp` -/
def exp (p : Nat) (a : Gfp12) (power : Int) : Gfp12 := expLoop p a power (bitLenInt power) one

/-- gfp12.go:180-201 `Invert` -/
def invert (p : Nat) (a : Gfp12) : Gfp12 :=
  let t1 := a.x.square p
  let t2 := a.y.square p
  let t1 := t1.mulTau
  let t1 := t2.sub t1
  let t2 := t1.invert p
  let e : Gfp12 := ⟨a.x.negative, a.y⟩
  mulScalar p e e t2

end Gfp12
end APS.Pairing
