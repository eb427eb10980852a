import Mathlib.Data.Int.GCD

/-!
Model of `utils/finiteField.go`.

`*big.Int` is `Int`.  Go's `big.Int.Mod` is the Euclidean modulus, which is Lean's `%` on `Int`.
The modulus `fq.Q` is the parameter `q : Nat` (the code never uses a negative or zero modulus; the zero modulus
would make `Mod` panic).  A nil `*big.Int` and a panic are both `none`.
-/
namespace APS.Fq

/-- utils/finiteField.go:82-86 `Fq.Add` -/
def add (q : Nat) (a b : Int) : Int := (a + b) % q
/-- utils/finiteField.go:89-93 `Fq.Double` -/
def double (q : Nat) (a : Int) : Int := (a + a) % q
/-- utils/finiteField.go:96-100 `Fq.Sub` -/
def sub (q : Nat) (a b : Int) : Int := (a - b) % q
/-- utils/finiteField.go:103-107 `Fq.Neg` -/
def neg (q : Nat) (a : Int) : Int := (-a) % q
/-- utils/finiteField.go:110-114 `Fq.Mul` -/
def mul (q : Nat) (a b : Int) : Int := (a * b) % q
/-- utils/finiteField.go:116-118 `Fq.MulScalar` -/
def mulScalar (q : Nat) (base e : Int) : Int := mul q base e
/-- utils/finiteField.go:136-139 `Fq.Square` -/
def square (q : Nat) (a : Int) : Int := (a * a) % q
/-- utils/finiteField.go:223-225 `Fq.Copy` -/
def copy (q : Nat) (a : Int) : Int := a % q

/-- math/big `new(big.Int).ModInverse(a, Q)`: the inverse in `[0,Q)`, or nil when `a` and `Q` are not coprime
(library behaviour, part of the trusted base). -/
def modInverse (a : Int) (q : Nat) : Option Int :=
  if Int.gcd a q = 1 then some (Int.gcdA a q % q) else none

/-- utils/finiteField.go:121-127 `Fq.Inverse`.  `a == 0` returns `a`, i.e. 0, with no error. -/
def inverse (q : Nat) (a : Int) : Option Int :=
  if a = 0 then some 0 else modInverse a q

/-- utils/finiteField.go:130-133 `Fq.Div`.  A nil inverse is dereferenced by `Mul`: panic = `none`. -/
def div (q : Nat) (a b : Int) : Option Int :=
  match inverse q b with
  | none => none
  | some i => some (mul q a i % q)

/-- utils/finiteField.go:146-153, 161-168: the square-and-multiply loop shared by `Exp` and `ExpInt`
(`e` is the remaining exponent, non-negative in both callers). -/
def expLoop (q : Nat) (res exp : Int) (e : Nat) : Int :=
  if h : e = 0 then res
  else expLoop q (if e % 2 = 1 then mul q res exp else res) (square q exp) (e / 2)
termination_by e
decreasing_by omega

/-- utils/finiteField.go:142-155 `Fq.Exp`.  `rem := fq.Copy(e)` reduces the EXPONENT modulo Q. -/
def exp (q : Nat) (base e : Int) : Int := expLoop q 1 base (copy q e).toNat
/-- utils/finiteField.go:158-170 `Fq.ExpInt` -/
def expInt (q : Nat) (base : Int) (e : Nat) : Int := expLoop q 1 base e

/-- utils/finiteField.go:173-179 `Fq.EvalPoly`.  Empty slice: `v[1:]` out of range, panic. -/
def evalPoly (q : Nat) : List Int → Int → Option Int
  | [], _ => none
  | [a], _ => some a
  | a :: b :: l, x =>
    match evalPoly q (b :: l) x with
    | none => none
    | some r => some (add q (mul q r x) a)

/-- utils/finiteField.go:67-79 `Fq.ScalarProduct` (loop body 73-77) -/
def scalarLoop (q : Nat) (sum : Int) : List Int → List Int → Int
  | a :: l, b :: r => scalarLoop q ((sum + a * b) % q) l r
  | _, _ => sum
/-- utils/finiteField.go:67-79 `Fq.ScalarProduct`; panics on different lengths. -/
def scalarProduct (q : Nat) (l r : List Int) : Option Int :=
  if l.length ≠ r.length then none else some (scalarLoop q 0 l r)

/-- utils/finiteField.go:219-221 `Fq.IsZero`: compares the big-endian bytes of |a| with those of 0. -/
def isZero (a : Int) : Bool := a.natAbs == 0

/-- utils/finiteField.go:227-244 `Fq.Affine` -/
def affine (q : Nat) (a : Int) : Int :=
  let nq := neg q q
  if a < 0 then
    let aux := if a ≤ nq then a % q else a
    if aux < 0 then aux + q else aux
  else if (q : Int) ≤ a then a % q else a

/-- utils/finiteField.go:246-250 `Fq.Equal`: compares the bytes of the absolute values of the affine forms. -/
def equal (q : Nat) (a b : Int) : Bool := (affine q a).natAbs == (affine q b).natAbs

/-- math/big `BitLen` of a natural number. -/
def bitLen (q : Nat) : Nat := if q = 0 then 0 else Nat.log2 q + 1

/-- math/big `SetBytes`: big-endian bytes. -/
def setBytes (b : List (Fin 256)) : Nat := b.foldl (fun acc x => 256 * acc + x.val) 0

/-- utils/finiteField.go:205-206: number of random bytes requested. -/
def randBytes (q : Nat) : Nat := bitLen q / 8 - 1

/-- utils/finiteField.go:199-217 `Fq.Rand`, as a function of the bytes `b` delivered by crypto/rand. -/
def rand (q : Nat) (b : List (Fin 256)) : Int := (setBytes b : Int) % q

/-- utils/finiteField.go:62-65 `Fq.StringToFieldElement`, the arithmetic part: `v` is the parsed decimal;
an unparsable string leaves `v` nil and the following `Mod` panics. -/
def stringToField (q : Nat) (parsed : Option Int) : Option Int := parsed.map (· % (q : Int))

end APS.Fq
