import Verif.Model.Field

/-! Model of `utils/polynomialField.go`: polynomials as coefficient slices, lowest coefficient first. -/
namespace APS.Dense

/-- utils/polynomialField.go:24-31 `ArrayOfBigZeros` (a negative length panics in the callers, modelled there). -/
def zeros (n : Nat) : List Int := List.replicate n 0

/-- utils/polynomialField.go:69-78, the inner loop over `j` of `Mul` for fixed `i`; `bs` is `b[j:]`. -/
def mulInner (q : Nat) (ai : Int) (k : Nat) (r : List Int) : List Int → List Int
  | [] => r
  | bj :: bs =>
    let r' := if ai = 0 ∨ bj = 0 then r.set k (r.getD k 0)
              else r.set k (Fq.add q (r.getD k 0) (Fq.mul q ai bj))
    mulInner q ai (k + 1) r' bs

/-- utils/polynomialField.go:68-79, the outer loop over `i` of `Mul`; `as` is `a[i:]`. -/
def mulOuter (q : Nat) (i : Nat) (r b : List Int) : List Int → List Int
  | [] => r
  | ai :: as => mulOuter q (i + 1) (mulInner q ai i r b) b as

/-- utils/polynomialField.go:66-80 `PolynomialField.Mul`.  Two empty slices: `make` with length -1 panics. -/
def mul (q : Nat) (a b : List Int) : Option (List Int) :=
  if a.length + b.length = 0 then none
  else some (mulOuter q 0 (zeros (a.length + b.length - 1)) b a)

/-- the loop `for i < len(a) { r[i] = f(r[i], a[i]) }` used by `Add`, `Sub`, `MulSimple`
(utils/polynomialField.go:85-90, 121-126, 133-138); `r` is at least as long as `a` in all callers. -/
def zipInto (f : Int → Int → Int) : List Int → List Int → List Int
  | x :: r, a :: as => f x a :: zipInto f r as
  | r, [] => r
  | [], _ => []

/-- utils/polynomialField.go:119-128 `PolynomialField.Add` -/
def add (q : Nat) (a b : List Int) : List Int :=
  zipInto (Fq.add q) (zipInto (Fq.add q) (zeros (max a.length b.length)) a) b

/-- utils/polynomialField.go:131-140 `PolynomialField.Sub` -/
def sub (q : Nat) (a b : List Int) : List Int :=
  zipInto (Fq.sub q) (zipInto (Fq.add q) (zeros (max a.length b.length)) a) b

/-- utils/polynomialField.go:83-92 `PolynomialField.MulSimple` -/
def mulSimple (q : Nat) (a b : List Int) : List Int :=
  zipInto (Fq.mul q) (zipInto (Fq.add q) (zeros (max a.length b.length)) a) b

/-- utils/polynomialField.go:99-107, the loop of `Div`; `r` is the quotient under construction, `rem` the
remainder.  Panics: a nil inverse; an index out of range.  The recursion is on the length of `rem`, which
shrinks by one each round (`rem = aux2[:len(aux2)-1]`). -/
def divLoop (q : Nat) (b : List Int) (r rem : List Int) : Option (List Int × List Int) :=
  if _h : b.length ≤ rem.length ∧ 0 < b.length then
    match Fq.div q (rem.getD (rem.length - 1) 0) (b.getD (b.length - 1) 0) with
    | none => none
    | some l =>
      let pos := rem.length - b.length
      match mul q b (zeros pos ++ [l]) with
      | none => none
      | some m =>
        let aux2 := sub q rem m
        divLoop q b (r.set pos l) ((aux2.take (rem.length - 1)))
  else if b.length = 0 then none
  else some (r, rem)
termination_by rem.length
decreasing_by
  simp only [List.length_take]; omega

/-- utils/polynomialField.go:95-109 `PolynomialField.Div`.  A divisor longer than `len a + 1` panics in
`make`; an empty divisor panics at `b[len(b)-1]`.
(`aux2[:len(aux2)-1]`: `aux2` has the length of `rem`, see `sub_length` in Proofs.) -/
def div (q : Nat) (a b : List Int) : Option (List Int × List Int) :=
  if a.length + 1 < b.length then none
  else divLoop q b (zeros (a.length + 1 - b.length)) a

/-- utils/polynomialField.go:246-252 `PolynomialField.MulScalar` -/
def mulScalar (q : Nat) (p : List Int) (w : Int) : List Int := p.map (fun c => Fq.mul q w c)

/-- utils/polynomialField.go:155-165 / 206-212: the product of `pointPos - i` over `i ≠ pointPos`. -/
def facBig (q : Nat) (pointPos totalPoints : Nat) : Int :=
  let f1 := (List.range pointPos).foldl (fun (acc : Int) (i : Nat) => Fq.mul q acc ((pointPos : Int) - (i : Int))) 1
  (List.range' (pointPos + 1) (totalPoints - (pointPos + 1))).foldl
    (fun (acc : Int) (i : Nat) => Fq.mul q acc ((pointPos : Int) - (i : Int))) f1

/-- utils/polynomialField.go:169-176 / 216-220: multiply `r` by `(x - i)` for all `i < totalPoints`, `i ≠ pointPos`. -/
def rootsLoop (q : Nat) (pointPos : Nat) (r : List Int) : List Nat → Option (List Int)
  | [] => some r
  | i :: is =>
    if i ≠ pointPos then
      match mul q r [-(i : Int), 1] with
      | none => none
      | some r' => rootsLoop q pointPos r' is
    else rootsLoop q pointPos r is

/-- utils/polynomialField.go:154-178 `PolynomialField.NewPolZeroAt` -/
def newPolZeroAt (q : Nat) (pointPos totalPoints : Nat) (height : Int) : Option (List Int) :=
  match Fq.div q height (facBig q pointPos totalPoints) with
  | none => none
  | some hf => rootsLoop q pointPos [hf] (List.range totalPoints)

/-- utils/polynomialField.go:184-190: the loop of `DomainPolynomial`. -/
def domainLoop (q : Nat) (r : List Int) : List Nat → Option (List Int)
  | [] => some r
  | i :: is =>
    match mul q r [Fq.neg q (i : Int), 1] with
    | none => none
    | some r' => domainLoop q r' is

/-- utils/polynomialField.go:181-192 `PolynomialField.DomainPolynomial` -/
def domainPolynomial (q : Nat) (len : Nat) : Option (List Int) :=
  domainLoop q [0, 1] (List.range' 1 (len - 1))

/-- The cache `basesClassic` (utils/finiteField.go:40), a Go map keyed by (baseIndex, Length);
an association list, most recent first. -/
abbrev Cache := List ((Nat × Nat) × List Int)

/-- Go map lookup in the cache. -/
def Cache.find (c : Cache) (k : Nat × Nat) : Option (List Int) := (c.lookup k)

/-- utils/polynomialField.go:205-221: the uncached computation of the Lagrange base polynomial. -/
def computeBase (q : Nat) (pointPos totalPoints : Nat) : Option (List Int) :=
  match Fq.inverse q (facBig q pointPos totalPoints) with
  | none => none
  | some hf =>
    match rootsLoop q pointPos [1] (List.range totalPoints) with
    | none => none
    | some r => some (mulScalar q r hf)

/-- utils/polynomialField.go:200-224: closure `base` with its cache. -/
def base (q : Nat) (c : Cache) (pointPos totalPoints : Nat) : Option (List Int × Cache) :=
  match c.find (pointPos, totalPoints) with
  | some v => some (v, c)
  | none =>
    match computeBase q pointPos totalPoints with
    | none => none
    | some r => some (r, ((pointPos, totalPoints), r) :: c)

/-- utils/polynomialField.go:235-241: loop over the data points `i, i+1, ...`. -/
def lagrangeLoop (q : Nat) (n : Nat) (i : Nat) (polynom : List Int) (c : Cache) :
    List Int → Option (List Int × Cache)
  | [] => some (polynom, c)
  | v :: vs =>
    if v = 0 then lagrangeLoop q n (i + 1) polynom c vs
    else match base q c i n with
      | none => none
      | some (b, c') => lagrangeLoop q n (i + 1) (add q polynom (mulScalar q b v)) c' vs

/-- utils/polynomialField.go:197-244 `PolynomialField.LagrangeInterpolation`; returns the polynomial and the new cache. -/
def lagrangeInterpolation (q : Nat) (c : Cache) (pts : List Int) : Option (List Int × Cache) :=
  lagrangeLoop q pts.length 0 (zeros pts.length) c pts

/-- utils/polynomialField.go:253-260 `PolynomialField.LinearCombine`; `polynomials[i]` out of range panics. -/
def linearCombine (q : Nat) : List (List Int) → List Int → Option (List (List Int))
  | _, [] => some []
  | [], _ :: _ => none
  | p :: ps, w :: ws =>
    match mul q [w] p with
    | none => none
    | some m => (linearCombine q ps ws).map (m :: ·)

/-- utils/polynomialField.go:261-267 `PolynomialField.AddPolynomials` -/
def addPolynomials (q : Nat) (ps : List (List Int)) : List Int := ps.foldl (add q) []

/-- utils/polynomialField.go:10-21 `Transpose`: `r[x][y] = matrix[y][x]`.  Empty matrix: `matrix[0]` panics; a row
longer than row 0 panics; cells of `r` not written stay nil (`none`). -/
def transpose (m : List (List Int)) : Option (List (List (Option Int))) :=
  match m with
  | [] => none
  | row0 :: _ =>
    if m.all (fun s => s.length ≤ row0.length) then
      some ((List.range row0.length).map fun x => m.map fun s => s[x]?)
    else none

/-- utils/polynomialField.go:32-43 `BigArraysEqual` -/
def bigArraysEqual (a b : List Int) : Bool :=
  if a.length ≠ b.length then false else (a.zip b).all (fun p => p.1 == p.2)

/-- utils/polynomialField.go:44-52 `IsZeroArray` -/
def isZeroArray (a : List Int) : Bool := a.all (fun x => x == 0)

end APS.Dense
