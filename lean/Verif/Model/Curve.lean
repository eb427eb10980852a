import Verif.Model.Tower

/-! pairing/curve.go, pairing/twist.go and the G1/G2 part of pairing/bn256.go.

Points are objects that are overwritten field by field, so the model has a memory: a function from object names to points.
Two parameters with the same name are the same object (`e.Add(e, f)`).  Every point owns its numbers; local numbers are
plain values.  `sum` and `tmp` are the two local points of `Mul`; their initial content (numbers recycled by the pool) is
whatever the memory holds. -/
namespace APS.Pairing

/-- the objects of a history: user points, the package variable `curveGen`/`twistGen`, the locals of `Mul` -/
inductive Ref where
  | obj (n : Nat)
  | gen
  | sum
  | tmp
deriving DecidableEq, Repr

/-- curve.go:14-16 `curvePoint` (`K = Int`), twist.go:14-16 `twistPoint` (`K = Gfp2`) -/
@[ext] structure Pt (K : Type) where
  x : K
  y : K
  z : K
  t : K
deriving DecidableEq, Repr

/-- what the objects hold -/
def Mem (K : Type) := Ref → Pt K

namespace Mem
variable {K : Type}
/-- curve.go:49-54, twist.go:63-68 `Set` (with the point read before) -/
def set (m : Mem K) (c : Ref) (v : Pt K) : Mem K := fun r => if r = c then v else m r
/-- write one field -/
def setX (m : Mem K) (c : Ref) (v : K) : Mem K := m.set c { m c with x := v }
/-- write one field -/
def setY (m : Mem K) (c : Ref) (v : K) : Mem K := m.set c { m c with y := v }
/-- write one field -/
def setZ (m : Mem K) (c : Ref) (v : K) : Mem K := m.set c { m c with z := v }
/-- write one field -/
def setT (m : Mem K) (c : Ref) (v : K) : Mem K := m.set c { m c with t := v }
end Mem

/-! ### curve.go -/

/-- curve.go:21-26 `curveGen` -/
def curveGen : Pt Int := ⟨1, 2, 1, 1⟩

/-- curve.go:57-67 `IsOnCurve` -/
def curveIsOn (p : Nat) (a : Pt Int) : Bool :=
  let yy := a.y * a.y
  let xxx := a.x * a.x
  let xxx := xxx * a.x
  let yy := yy - xxx
  let yy := yy - 3
  let yy := if yy < 0 ∨ (p : Int) ≤ yy then yy % p else yy
  yy == 0

/-- curve.go:73-75 `IsInfinity` -/
def curveIsInf (a : Pt Int) : Bool := a.z == 0

/-- curve.go:183-226 `c.Double(a)` -/
def curveDouble (p : Nat) (m : Mem Int) (c a : Ref) : Mem Int :=
  let A := ((m a).x * (m a).x) % p
  let B := ((m a).y * (m a).y) % p
  let C := (B * B) % p
  let t := (m a).x + B
  let t2 := (t * t) % p
  let t := t2 - A
  let t2 := t - C
  let d := t2 + t2
  let t := A + A
  let e := t + A
  let f := (e * e) % p
  let t := d + d
  let m := m.setX c (f - t)
  let t := C + C
  let t2 := t + t
  let t := t2 + t2
  let m := m.setY c (d - (m c).x)
  let t2 := (e * (m c).y) % p
  let m := m.setY c (t2 - t)
  let t := ((m a).y * (m a).z) % p
  m.setZ c (t + t)

/-- curve.go:77-181 `c.Add(a, b)` -/
def curveAdd (p : Nat) (m : Mem Int) (c a b : Ref) : Mem Int :=
  if curveIsInf (m a) then m.set c (m b)
  else if curveIsInf (m b) then m.set c (m a)
  else
    let z1z1 := ((m a).z * (m a).z) % p
    let z2z2 := ((m b).z * (m b).z) % p
    let u1 := ((m a).x * z2z2) % p
    let u2 := ((m b).x * z1z1) % p
    let t := ((m b).z * z2z2) % p
    let s1 := ((m a).y * t) % p
    let t := ((m a).z * z1z1) % p
    let s2 := ((m b).y * t) % p
    let h := u2 - u1
    let xEqual := h == 0
    let t := h + h
    let i := (t * t) % p
    let j := (h * i) % p
    let t := s2 - s1
    let yEqual := t == 0
    if xEqual && yEqual then curveDouble p m c a
    else
      let r := t + t
      let v := (u1 * i) % p
      let t4 := (r * r) % p
      let t := v + v
      let t6 := t4 - j
      let m := m.setX c (t6 - t)
      let t := v - (m c).x
      let t4 := (s1 * j) % p
      let t6 := t4 + t4
      let t4 := (r * t) % p
      let m := m.setY c (t4 - t6)
      let t := (m a).z + (m b).z
      let t4 := (t * t) % p
      let t := t4 - z1z1
      let t4 := t - z2z2
      let m := m.setZ c (t4 * h)
      m.setZ c ((m c).z % p)

/-- curve.go:233-240: the loop of `Mul`; `n` rounds, the current bit is `n - 1` -/
def curveMulLoop (p : Nat) (a : Ref) (k : Int) : Nat → Mem Int → Mem Int
  | 0, m => m
  | i + 1, m =>
    let m := curveDouble p m .tmp .sum
    curveMulLoop p a k i (if bitInt k i then curveAdd p m .sum .tmp a else m.set .sum (m .tmp))

/-- curve.go:228-246 `c.Mul(a, k)`: bits `BitLen` down to 0 -/
def curveMul (p : Nat) (m : Mem Int) (c a : Ref) (k : Int) : Mem Int :=
  let m := m.setZ .sum 0
  let m := curveMulLoop p a k (bitLenInt k + 1) m
  m.set c (m .sum)

/-- curve.go:250-279 `c.MakeAffine()` -/
def curveMakeAffine (p : Nat) (m : Mem Int) (c : Ref) : Mem Int :=
  if (m c).z.natAbs = 1 then m
  else if curveIsInf (m c) then m.set c ⟨0, 1, 0, 0⟩
  else
    let zInv := modInv p (m c).z
    let t := ((m c).y * zInv) % p
    let zInv2 := (zInv * zInv) % p
    let m := m.setY c ((t * zInv2) % p)
    let t := ((m c).x * zInv2) % p
    let m := m.setX c t
    let m := m.setZ c 1
    m.setT c 1

/-- curve.go:281-286 `c.Negative(a)` -/
def curveNegative (m : Mem Int) (c a : Ref) : Mem Int :=
  let m := m.setX c (m a).x
  let m := m.setY c (-(m a).y)
  let m := m.setZ c (m a).z
  m.setT c 0

/-! ### twist.go -/

/-- twist.go:18-21 `twistB` -/
def twistB : Gfp2 := ⟨266929791119991161246907387137283842545076965332900288569378510910307636690, 19485874751759354771024239261021720505790618469301721065564631296452457478373⟩

/-- twist.go:24-41 `twistGen` -/
def twistGen : Pt Gfp2 where
  x := ⟨11559732032986387107991004021392285783925812861821192530917403151452391805634, 10857046999023057135944570762232829481370756359578518086990519993285655852781⟩
  y := ⟨4082367875863433681332203403145435568316851327593401208105741076214120093531, 8495653923123431417604973247489272438418190587263600148770280649306958101930⟩
  z := ⟨0, 1⟩
  t := ⟨0, 1⟩

/-- twist.go:92-94 `IsInfinity` -/
def twistIsInf (a : Pt Gfp2) : Bool := a.z.isZero

/-- twist.go:170-206 `c.Double(a)` -/
def twistDouble (p : Nat) (m : Mem Gfp2) (c a : Ref) : Mem Gfp2 :=
  let A := (m a).x.square p
  let B := (m a).y.square p
  let C := B.square p
  let t := (m a).x.add B
  let t2 := t.square p
  let t := t2.sub A
  let t2 := t.sub C
  let d := t2.add t2
  let t := A.add A
  let e := t.add A
  let f := e.square p
  let t := d.add d
  let m := m.setX c (f.sub t)
  let t := C.add C
  let t2 := t.add t
  let t := t2.add t2
  let m := m.setY c (d.sub (m c).x)
  let t2 := e.mul p (m c).y
  let m := m.setY c (t2.sub t)
  let t := (m a).y.mul p (m a).z
  m.setZ c (t.add t)

/-- twist.go:96-168 `c.Add(a, b)` -/
def twistAdd (p : Nat) (m : Mem Gfp2) (c a b : Ref) : Mem Gfp2 :=
  if twistIsInf (m a) then m.set c (m b)
  else if twistIsInf (m b) then m.set c (m a)
  else
    let z1z1 := (m a).z.square p
    let z2z2 := (m b).z.square p
    let u1 := (m a).x.mul p z2z2
    let u2 := (m b).x.mul p z1z1
    let t := (m b).z.mul p z2z2
    let s1 := (m a).y.mul p t
    let t := (m a).z.mul p z1z1
    let s2 := (m b).y.mul p t
    let h := u2.sub u1
    let xEqual := h.isZero
    let t := h.add h
    let i := t.square p
    let j := h.mul p i
    let t := s2.sub s1
    let yEqual := t.isZero
    if xEqual && yEqual then twistDouble p m c a
    else
      let r := t.add t
      let v := u1.mul p i
      let t4 := r.square p
      let t := v.add v
      let t6 := t4.sub j
      let m := m.setX c (t6.sub t)
      let t := v.sub (m c).x
      let t4 := s1.mul p j
      let t6 := t4.add t4
      let t4 := r.mul p t
      let m := m.setY c (t4.sub t6)
      let t := (m a).z.add (m b).z
      let t4 := t.square p
      let t := t4.sub z1z1
      let t4 := t.sub z2z2
      m.setZ c (t4.mul p h)

/-- twist.go:213-220: the loop of `Mul` -/
def twistMulLoop (p : Nat) (a : Ref) (k : Int) : Nat → Mem Gfp2 → Mem Gfp2
  | 0, m => m
  | i + 1, m =>
    let m := twistDouble p m .tmp .sum
    twistMulLoop p a k i (if bitInt k i then twistAdd p m .sum .tmp a else m.set .sum (m .tmp))

/-- twist.go:208-226 `c.Mul(a, k)` -/
def twistMul (p : Nat) (m : Mem Gfp2) (c a : Ref) (k : Int) : Mem Gfp2 :=
  let m := m.setZ .sum Gfp2.zero
  let m := twistMulLoop p a k (bitLenInt k + 1) m
  m.set c (m .sum)

/-- twist.go:230-255 `c.MakeAffine()` -/
def twistMakeAffine (p : Nat) (m : Mem Gfp2) (c : Ref) : Mem Gfp2 :=
  if (m c).z.isOne then m
  else if twistIsInf (m c) then m.set c ⟨Gfp2.zero, Gfp2.one, Gfp2.zero, Gfp2.zero⟩
  else
    let zInv := (m c).z.invert p
    let t := (m c).y.mul p zInv
    let zInv2 := zInv.square p
    let m := m.setY c (t.mul p zInv2)
    let t := (m c).x.mul p zInv2
    let m := m.setX c t
    let m := m.setZ c Gfp2.one
    m.setT c Gfp2.one

/-- twist.go:257-263 `c.Negative(a)` -/
def twistNegative (m : Mem Gfp2) (c a : Ref) : Mem Gfp2 :=
  let m := m.setX c (m a).x
  let m := m.setY c Gfp2.zero
  let m := m.setY c ((m c).y.sub (m a).y)
  let m := m.setZ c (m a).z
  m.setT c Gfp2.zero

/-- twist.go:71-86 `IsOnCurve`: the equation, and the order (computed in a fresh point, object `sum` after `Mul`) -/
def twistIsOn (p : Nat) (order : Int) (m : Mem Gfp2) (c : Ref) : Bool :=
  let yy := (m c).y.square p
  let xxx := (m c).x.square p
  let xxx := xxx.mul p (m c).x
  let yy := yy.sub xxx
  let yy := yy.sub twistB
  let yy := yy.minimal p
  if yy.x ≠ 0 ∨ yy.y ≠ 0 then false
  else
    let cneg := twistMulLoop p c order (bitLenInt order + 1) (m.setZ .sum Gfp2.zero)
    (cneg .sum).z.isZero

/-! ### bn256.go: G1 and G2

A G1/G2 value is a pointer to a point; `e.p == nil` means that a new point is made, i.e. `e` names an object not used
before. -/

/-- bn256.go:68-75 `e.ScalarBaseMult(k)` on G1 -/
def g1ScalarBaseMult (m : Mem Int) (e : Ref) (k : Int) : Mem Int := curveMul P m e .gen k
/-- bn256.go:78-85 `e.ScalarMult(a, k)` on G1 -/
def g1ScalarMult (m : Mem Int) (e a : Ref) (k : Int) : Mem Int := curveMul P m e a k
/-- bn256.go:89-95 `e.Add(a, b)` on G1 -/
def g1Add (m : Mem Int) (e a b : Ref) : Mem Int := curveAdd P m e a b
/-- bn256.go:98-104 `e.Neg(a)` on G1 -/
def g1Neg (m : Mem Int) (e a : Ref) : Mem Int := curveNegative m e a
/-- bn256.go:107-114 `e.X()`: the number, and the memory after `MakeAffine` -/
def g1X (m : Mem Int) (e : Ref) : Int × Mem Int :=
  if curveIsInf (m e) then (0, m)
  else
    let m := curveMakeAffine P m e
    ((m e).x % P, m)

/-- bn256.go:210-216 `e.ScalarBaseMult(k)` on G2 -/
def g2ScalarBaseMult (m : Mem Gfp2) (e : Ref) (k : Int) : Mem Gfp2 := twistMul P m e .gen k
/-- bn256.go:219-225 `e.ScalarMult(a, k)` on G2 -/
def g2ScalarMult (m : Mem Gfp2) (e a : Ref) (k : Int) : Mem Gfp2 := twistMul P m e a k
/-- bn256.go:229-235 `e.Add(a, b)` on G2 -/
def g2Add (m : Mem Gfp2) (e a b : Ref) : Mem Gfp2 := twistAdd P m e a b

/-- math/big `Bytes`: big-endian, no leading zeros -/
def natBytes (n : Nat) : List UInt8 :=
  if h : n = 0 then [] else natBytes (n / 256) ++ [UInt8.ofNat (n % 256)]
termination_by n
decreasing_by omega

/-- math/big `SetBytes` -/
def ofBytes (bs : List UInt8) : Nat := bs.foldl (fun acc b => acc * 256 + b.toNat) 0

/-- `copy(ret[(i+1)*32 - len(b):], b)` into a zeroed slot of 32 bytes; longer slices than 32 bytes do not occur (they would
overwrite the preceding slot or panic), here they are cut -/
def slot (n : Int) : List UInt8 :=
  let b := natBytes n.natAbs
  List.replicate (32 - b.length) 0 ++ b

/-- bn256.go:117-135 `G1.Marshal`: the bytes, and the memory after `MakeAffine` -/
def g1Marshal (m : Mem Int) (e : Ref) : List UInt8 × Mem Int :=
  if curveIsInf (m e) then (List.replicate 64 0, m)
  else
    let m := curveMakeAffine P m e
    (slot ((m e).x % P) ++ slot ((m e).y % P), m)

/-- bn256.go:139-172 `G1.Unmarshal`: `true` stands for a nil error -/
def g1Unmarshal (m : Mem Int) (e : Ref) (b : List UInt8) : Bool × Mem Int :=
  if b.length ≠ 64 then (false, m)
  else
    let m := m.setX e (ofBytes (b.take 32))
    if (P : Int) ≤ (m e).x then (false, m)
    else
      let m := m.setY e (ofBytes ((b.drop 32).take 32))
      if (P : Int) ≤ (m e).y then (false, m)
      else if (m e).x = 0 ∧ (m e).y = 0 then
        let m := m.setY e 1
        let m := m.setZ e 0
        (true, m.setT e 0)
      else
        let m := m.setZ e 1
        let m := m.setT e 1
        if !curveIsOn P (m e) then (false, m) else (true, m)

/-- bn256.go:238-260 `G2.Marshal` -/
def g2Marshal (m : Mem Gfp2) (e : Ref) : List UInt8 × Mem Gfp2 :=
  if twistIsInf (m e) then (List.replicate 128 0, m)
  else
    let m := twistMakeAffine P m e
    (slot ((m e).x.x % P) ++ slot ((m e).x.y % P) ++ slot ((m e).y.x % P) ++ slot ((m e).y.y % P), m)

/-- bn256.go:264-308 `G2.Unmarshal` -/
def g2Unmarshal (m : Mem Gfp2) (e : Ref) (b : List UInt8) : Bool × Mem Gfp2 :=
  if b.length ≠ 128 then (false, m)
  else
    let m := m.setX e { (m e).x with x := ofBytes (b.take 32) }
    if (P : Int) ≤ (m e).x.x then (false, m)
    else
      let m := m.setX e { (m e).x with y := ofBytes ((b.drop 32).take 32) }
      if (P : Int) ≤ (m e).x.y then (false, m)
      else
        let m := m.setY e { (m e).y with x := ofBytes ((b.drop 64).take 32) }
        if (P : Int) ≤ (m e).y.x then (false, m)
        else
          let m := m.setY e { (m e).y with y := ofBytes ((b.drop 96).take 32) }
          if (P : Int) ≤ (m e).y.y then (false, m)
          else if (m e).x.x = 0 ∧ (m e).x.y = 0 ∧ (m e).y.x = 0 ∧ (m e).y.y = 0 then
            let m := m.setY e Gfp2.one
            let m := m.setZ e Gfp2.zero
            (true, m.setT e Gfp2.zero)
          else
            let m := m.setZ e Gfp2.one
            let m := m.setT e Gfp2.one
            if !twistIsOn P Order m e then (false, m) else (true, m)

end APS.Pairing
