import Verif.Props.RepoRows

/-!
C106: test programs of the repository (testPrograms/codes.go) with recursion, closures, functions as values, globals, `addGateConstraint`,
`scalarBaseMultiply` and `equal`, taken over character by character.  The rows of each text are computed once, by the kernel; a text compiles in one way
only (`compiled_only`), and the statements are then proved about these rows, for ALL inputs and all witnesses.
-/
namespace APS.Prog
open APS.Circuit hiding execute compile Prog
open APS.Pairing (Order)
open APS.Spec hiding Err

set_option linter.unusedSimpArgs false
namespace Repo

/-- testPrograms/codes.go:82-95 -/
def srcRec : List Char := "\nfunc main(x){\n\treturn (x*fubunaci(7))\n}\nfunc fubunaci(a){\n\tif a==0{\n\t\treturn 1\n\t}\n\tif a==1{\n\t\treturn 1\n\t}\n\treturn addGateConstraint(fubunaci(a-1),fubunaci(a-2))\n}\n".toList

/-- the form returned by `srcRec` -/
def formRec : Factors := [⟨⟨false, "6340263247423740".toList⟩, 1⟩]

/-- the rows of `srcRec`, with the randomizer -/
def rowsRec1 : R1CS (List Int) :=
  ⟨[("1".toList, 0), ("x".toList, 1), ("1460240694310083".toList, 2), ("6615475869573118".toList, 3), ("4678213826687773".toList, 4), ("4922510547842772".toList, 5), ("5100688798737687".toList, 6), ("5100681273421437".toList, 7), ("6340263247423740".toList, 8), ("1@randomIn".toList, 9), ("1@randomOut".toList, 10)], [],
    [⟨[2, 0, 0, 0, 0, 0, 0, 0, 0, 0, 0], [1, 0, 0, 0, 0, 0, 0, 0, 0, 0, 0], [0, 0, 0, 0, 0, 0, 0, 0, 0, 0, 0], [0, 0, 1, 0, 0, 0, 0, 0, 0, 0, 0]⟩, ⟨[1, 0, 1, 0, 0, 0, 0, 0, 0, 0, 0], [1, 0, 0, 0, 0, 0, 0, 0, 0, 0, 0], [0, 0, 0, 0, 0, 0, 0, 0, 0, 0, 0], [0, 0, 0, 1, 0, 0, 0, 0, 0, 0, 0]⟩, ⟨[0, 0, 1, 1, 0, 0, 0, 0, 0, 0, 0], [1, 0, 0, 0, 0, 0, 0, 0, 0, 0, 0], [0, 0, 0, 0, 0, 0, 0, 0, 0, 0, 0], [0, 0, 0, 0, 1, 0, 0, 0, 0, 0, 0]⟩, ⟨[0, 0, 0, 1, 1, 0, 0, 0, 0, 0, 0], [1, 0, 0, 0, 0, 0, 0, 0, 0, 0, 0], [0, 0, 0, 0, 0, 0, 0, 0, 0, 0, 0], [0, 0, 0, 0, 0, 1, 0, 0, 0, 0, 0]⟩, ⟨[0, 0, 0, 0, 1, 1, 0, 0, 0, 0, 0], [1, 0, 0, 0, 0, 0, 0, 0, 0, 0, 0], [0, 0, 0, 0, 0, 0, 0, 0, 0, 0, 0], [0, 0, 0, 0, 0, 0, 1, 0, 0, 0, 0]⟩, ⟨[0, 0, 0, 0, 0, 1, 1, 0, 0, 0, 0], [1, 0, 0, 0, 0, 0, 0, 0, 0, 0, 0], [0, 0, 0, 0, 0, 0, 0, 0, 0, 0, 0], [0, 0, 0, 0, 0, 0, 0, 1, 0, 0, 0]⟩, ⟨[0, 1, 0, 0, 0, 0, 0, 0, 0, 0, 0], [0, 0, 0, 0, 0, 0, 0, 1, 0, 0, 0], [0, 0, 0, 0, 0, 0, 0, 0, 0, 0, 0], [0, 0, 0, 0, 0, 0, 0, 0, 1, 0, 0]⟩, ⟨[0, 0, 0, 0, 0, 0, 0, 0, 0, 1, 0], [0, 0, 0, 0, 0, 0, 0, 0, 0, 1, 0], [0, 0, 0, 0, 0, 0, 0, 0, 0, 1, 0], [0, 0, 0, 0, 0, 0, 0, 0, 0, 0, 1]⟩]⟩

/-- the rows of `srcRec`, without the randomizer -/
def rowsRec0 : R1CS (List Int) :=
  ⟨[("1".toList, 0), ("x".toList, 1), ("1460240694310083".toList, 2), ("6615475869573118".toList, 3), ("4678213826687773".toList, 4), ("4922510547842772".toList, 5), ("5100688798737687".toList, 6), ("5100681273421437".toList, 7), ("6340263247423740".toList, 8)], [],
    [⟨[2, 0, 0, 0, 0, 0, 0, 0, 0], [1, 0, 0, 0, 0, 0, 0, 0, 0], [0, 0, 0, 0, 0, 0, 0, 0, 0], [0, 0, 1, 0, 0, 0, 0, 0, 0]⟩, ⟨[1, 0, 1, 0, 0, 0, 0, 0, 0], [1, 0, 0, 0, 0, 0, 0, 0, 0], [0, 0, 0, 0, 0, 0, 0, 0, 0], [0, 0, 0, 1, 0, 0, 0, 0, 0]⟩, ⟨[0, 0, 1, 1, 0, 0, 0, 0, 0], [1, 0, 0, 0, 0, 0, 0, 0, 0], [0, 0, 0, 0, 0, 0, 0, 0, 0], [0, 0, 0, 0, 1, 0, 0, 0, 0]⟩, ⟨[0, 0, 0, 1, 1, 0, 0, 0, 0], [1, 0, 0, 0, 0, 0, 0, 0, 0], [0, 0, 0, 0, 0, 0, 0, 0, 0], [0, 0, 0, 0, 0, 1, 0, 0, 0]⟩, ⟨[0, 0, 0, 0, 1, 1, 0, 0, 0], [1, 0, 0, 0, 0, 0, 0, 0, 0], [0, 0, 0, 0, 0, 0, 0, 0, 0], [0, 0, 0, 0, 0, 0, 1, 0, 0]⟩, ⟨[0, 0, 0, 0, 0, 1, 1, 0, 0], [1, 0, 0, 0, 0, 0, 0, 0, 0], [0, 0, 0, 0, 0, 0, 0, 0, 0], [0, 0, 0, 0, 0, 0, 0, 1, 0]⟩, ⟨[0, 1, 0, 0, 0, 0, 0, 0, 0], [0, 0, 0, 0, 0, 0, 0, 1, 0], [0, 0, 0, 0, 0, 0, 0, 0, 0], [0, 0, 0, 0, 0, 0, 0, 0, 1]⟩]⟩

theorem runRec : compiled H0 Order 3000 600 60 srcRec = some (["1".toList], ["x".toList], formRec, rowsRec1, rowsRec0) := by decide +kernel

theorem rowsRec1_compute : RowsCompute ["x".toList] formRec rowsRec1 (fun v => 21 * v "x".toList) := by
  have i0 : rowsRec1.index.get "x".toList = 1 := by decide +kernel
  have i1 : rowsRec1.index.get "6340263247423740".toList = 8 := by decide +kernel
  have hf : ∀ vs : List (ZMod Order), formVal (nameVal rowsRec1 vs) formRec = ((1 : Int) : ZMod Order) * vs.getD 8 0 := by
    intro vs
    simp only [formRec, formVal, factorVal, List.map_cons, List.map_nil, List.sum_cons, List.sum_nil, add_zero, nameVal, i0, i1, reduceIte, Bool.false_eq_true]
  constructor
  · intro gx hgx vs hl h1 hs
    rw [hf]
    match vs, hl with
    | [u0, u1, u2, u3, u4, u5, u6, u7, u8, u9, u10], _ =>
      obtain rfl : u0 = 1 := h1
      simp only [rowsRec1, SatV, List.forall_mem_cons, List.not_mem_nil, List.map_cons, List.map_nil, dotL, hgx, reduceIte, add_zero, zero_add, one_ne_zero, mul_zero, zero_mul, IsEmpty.forall_iff, implies_true, and_true, Int.reduceEq, Int.reduceNeg, OfNat.ofNat_ne_zero, OfNat.ofNat_ne_one, Int.cast_ofNat, Int.cast_one] at hs
      obtain ⟨rfl, rfl, rfl, rfl, rfl, rfl, rfl, rfl⟩ := hs
      simp only [nameVal, i0, List.getD_cons_succ, List.getD_cons_zero]
      push_cast
      ring
  · intro gx hgx vals
    obtain ⟨v2, h2⟩ : ∃ v, v = ((2 : ZMod Order) * 1) * (1) := ⟨_, rfl⟩
    obtain ⟨v3, h3⟩ : ∃ v, v = (1 + v2) * (1) := ⟨_, rfl⟩
    obtain ⟨v4, h4⟩ : ∃ v, v = (v2 + v3) * (1) := ⟨_, rfl⟩
    obtain ⟨v5, h5⟩ : ∃ v, v = (v3 + v4) * (1) := ⟨_, rfl⟩
    obtain ⟨v6, h6⟩ : ∃ v, v = (v4 + v5) * (1) := ⟨_, rfl⟩
    obtain ⟨v7, h7⟩ : ∃ v, v = (v5 + v6) * (1) := ⟨_, rfl⟩
    obtain ⟨v8, h8⟩ : ∃ v, v = (vals "x".toList) * (v7) := ⟨_, rfl⟩
    refine ⟨[1, vals "x".toList, v2, v3, v4, v5, v6, v7, v8, 0, 0], rfl, rfl, ?_, ?_, ?_⟩
    · simp only [nameVal, List.forall_mem_cons, i0, List.getD_cons_succ, List.getD_cons_zero, List.not_mem_nil, IsEmpty.forall_iff, implies_true, and_true]
    · simp only [rowsRec1, SatV, List.forall_mem_cons, List.not_mem_nil, List.map_cons, List.map_nil, dotL, hgx, reduceIte, add_zero, zero_add, one_ne_zero, mul_zero, zero_mul, IsEmpty.forall_iff, implies_true, and_true, Int.reduceEq, Int.reduceNeg, OfNat.ofNat_ne_zero, OfNat.ofNat_ne_one, Int.cast_ofNat, Int.cast_one]
      simp only [h2, h3, h4, h5, h6, h7, h8, mul_one, one_mul, and_self, true_and]
    · rw [hf]
      simp only [List.getD_cons_succ, List.getD_cons_zero, h2, h3, h4, h5, h6, h7, h8]
      push_cast
      ring

theorem rowsRec0_compute : RowsCompute ["x".toList] formRec rowsRec0 (fun v => 21 * v "x".toList) := by
  have i0 : rowsRec0.index.get "x".toList = 1 := by decide +kernel
  have i1 : rowsRec0.index.get "6340263247423740".toList = 8 := by decide +kernel
  have hf : ∀ vs : List (ZMod Order), formVal (nameVal rowsRec0 vs) formRec = ((1 : Int) : ZMod Order) * vs.getD 8 0 := by
    intro vs
    simp only [formRec, formVal, factorVal, List.map_cons, List.map_nil, List.sum_cons, List.sum_nil, add_zero, nameVal, i0, i1, reduceIte, Bool.false_eq_true]
  constructor
  · intro gx hgx vs hl h1 hs
    rw [hf]
    match vs, hl with
    | [u0, u1, u2, u3, u4, u5, u6, u7, u8], _ =>
      obtain rfl : u0 = 1 := h1
      simp only [rowsRec0, SatV, List.forall_mem_cons, List.not_mem_nil, List.map_cons, List.map_nil, dotL, hgx, reduceIte, add_zero, zero_add, one_ne_zero, mul_zero, zero_mul, IsEmpty.forall_iff, implies_true, and_true, Int.reduceEq, Int.reduceNeg, OfNat.ofNat_ne_zero, OfNat.ofNat_ne_one, Int.cast_ofNat, Int.cast_one] at hs
      obtain ⟨rfl, rfl, rfl, rfl, rfl, rfl, rfl⟩ := hs
      simp only [nameVal, i0, List.getD_cons_succ, List.getD_cons_zero]
      push_cast
      ring
  · intro gx hgx vals
    obtain ⟨v2, h2⟩ : ∃ v, v = ((2 : ZMod Order) * 1) * (1) := ⟨_, rfl⟩
    obtain ⟨v3, h3⟩ : ∃ v, v = (1 + v2) * (1) := ⟨_, rfl⟩
    obtain ⟨v4, h4⟩ : ∃ v, v = (v2 + v3) * (1) := ⟨_, rfl⟩
    obtain ⟨v5, h5⟩ : ∃ v, v = (v3 + v4) * (1) := ⟨_, rfl⟩
    obtain ⟨v6, h6⟩ : ∃ v, v = (v4 + v5) * (1) := ⟨_, rfl⟩
    obtain ⟨v7, h7⟩ : ∃ v, v = (v5 + v6) * (1) := ⟨_, rfl⟩
    obtain ⟨v8, h8⟩ : ∃ v, v = (vals "x".toList) * (v7) := ⟨_, rfl⟩
    refine ⟨[1, vals "x".toList, v2, v3, v4, v5, v6, v7, v8], rfl, rfl, ?_, ?_, ?_⟩
    · simp only [nameVal, List.forall_mem_cons, i0, List.getD_cons_succ, List.getD_cons_zero, List.not_mem_nil, IsEmpty.forall_iff, implies_true, and_true]
    · simp only [rowsRec0, SatV, List.forall_mem_cons, List.not_mem_nil, List.map_cons, List.map_nil, dotL, hgx, reduceIte, add_zero, zero_add, one_ne_zero, mul_zero, zero_mul, IsEmpty.forall_iff, implies_true, and_true, Int.reduceEq, Int.reduceNeg, OfNat.ofNat_ne_zero, OfNat.ofNat_ne_one, Int.cast_ofNat, Int.cast_one]
      simp only [h2, h3, h4, h5, h6, h7, h8, mul_one, one_mul, and_self, true_and]
    · rw [hf]
      simp only [List.getD_cons_succ, List.getD_cons_zero, h2, h3, h4, h5, h6, h7, h8]
      push_cast
      ring

/-- C106: recursive Fibonacci numbers with `addGateConstraint` (codes.go:82-95): x times the eighth number. -/
theorem C106_rec : Computes srcRec (fun v => 21 * v "x".toList) := computes_text runRec rowsRec1_compute rowsRec0_compute

/-- testPrograms/codes.go:237-257 -/
def srcCurry : List Char := "\nfunc main(x,y){\t\n\tvar multiply = func(b,h){\n\t\treturn b*h*6\n\t}\n\tvar execute = func(j,m){\n\t\treturn j(m)\n\t}\n\t#var kk = x*7\t\n\tvar k = execute(multiply,x) \n\titerate(2,4,1,k)\n\treturn k(x)\n}\n\tfunc iterate(fromX,toX,stepSize, call){       \n\t\tif fromX==toX{           \n\t\t\treturn\n\t\t}\t\t\t\n\t\tcall(fromX)\n\t\titerate(fromX+stepSize,toX,stepSize,call)\n\t}\t\n".toList

/-- the form returned by `srcCurry` -/
def formCurry : Factors := [⟨⟨false, "6616740472431544".toList⟩, 6⟩]

/-- the rows of `srcCurry`, with the randomizer -/
def rowsCurry1 : R1CS (List Int) :=
  ⟨[("1".toList, 0), ("x".toList, 1), ("y".toList, 2), ("6616740472431544".toList, 3), ("9848952095996636".toList, 4), ("1@randomIn".toList, 5), ("1@randomOut".toList, 6)], [],
    [⟨[0, 1, 0, 0, 0, 0, 0], [0, 1, 0, 0, 0, 0, 0], [0, 0, 0, 0, 0, 0, 0], [0, 0, 0, 1, 0, 0, 0]⟩, ⟨[0, 0, 0, 6, 0, 0, 0], [1, 0, 0, 0, 0, 0, 0], [0, 0, 0, 0, 0, 0, 0], [0, 0, 0, 0, 1, 0, 0]⟩, ⟨[0, 0, 0, 0, 0, 1, 0], [0, 0, 0, 0, 0, 1, 0], [0, 0, 0, 0, 0, 1, 0], [0, 0, 0, 0, 0, 0, 1]⟩]⟩

/-- the rows of `srcCurry`, without the randomizer -/
def rowsCurry0 : R1CS (List Int) :=
  ⟨[("1".toList, 0), ("x".toList, 1), ("y".toList, 2), ("6616740472431544".toList, 3), ("9848952095996636".toList, 4)], [],
    [⟨[0, 1, 0, 0, 0], [0, 1, 0, 0, 0], [0, 0, 0, 0, 0], [0, 0, 0, 1, 0]⟩, ⟨[0, 0, 0, 6, 0], [1, 0, 0, 0, 0], [0, 0, 0, 0, 0], [0, 0, 0, 0, 1]⟩]⟩

theorem runCurry : compiled H0 Order 3000 600 60 srcCurry = some (["1".toList], ["x".toList, "y".toList], formCurry, rowsCurry1, rowsCurry0) := by decide +kernel

theorem rowsCurry1_compute : RowsCompute ["x".toList, "y".toList] formCurry rowsCurry1 (fun v => 6 * v "x".toList ^ 2) := by
  have i0 : rowsCurry1.index.get "x".toList = 1 := by decide +kernel
  have i1 : rowsCurry1.index.get "y".toList = 2 := by decide +kernel
  have i2 : rowsCurry1.index.get "6616740472431544".toList = 3 := by decide +kernel
  have hf : ∀ vs : List (ZMod Order), formVal (nameVal rowsCurry1 vs) formCurry = ((6 : Int) : ZMod Order) * vs.getD 3 0 := by
    intro vs
    simp only [formCurry, formVal, factorVal, List.map_cons, List.map_nil, List.sum_cons, List.sum_nil, add_zero, nameVal, i0, i1, i2, reduceIte, Bool.false_eq_true]
  constructor
  · intro gx hgx vs hl h1 hs
    rw [hf]
    match vs, hl with
    | [u0, u1, u2, u3, u4, u5, u6], _ =>
      obtain rfl : u0 = 1 := h1
      simp only [rowsCurry1, SatV, List.forall_mem_cons, List.not_mem_nil, List.map_cons, List.map_nil, dotL, hgx, reduceIte, add_zero, zero_add, one_ne_zero, mul_zero, zero_mul, IsEmpty.forall_iff, implies_true, and_true, Int.reduceEq, Int.reduceNeg, OfNat.ofNat_ne_zero, OfNat.ofNat_ne_one, Int.cast_ofNat, Int.cast_one] at hs
      obtain ⟨rfl, rfl, rfl⟩ := hs
      simp only [nameVal, i0, i1, List.getD_cons_succ, List.getD_cons_zero]
      push_cast
      ring
  · intro gx hgx vals
    obtain ⟨v3, h3⟩ : ∃ v, v = (vals "x".toList) * (vals "x".toList) := ⟨_, rfl⟩
    obtain ⟨v4, h4⟩ : ∃ v, v = ((6 : ZMod Order) * v3) * (1) := ⟨_, rfl⟩
    refine ⟨[1, vals "x".toList, vals "y".toList, v3, v4, 0, 0], rfl, rfl, ?_, ?_, ?_⟩
    · simp only [nameVal, List.forall_mem_cons, i0, i1, List.getD_cons_succ, List.getD_cons_zero, List.not_mem_nil, IsEmpty.forall_iff, implies_true, and_true]
    · simp only [rowsCurry1, SatV, List.forall_mem_cons, List.not_mem_nil, List.map_cons, List.map_nil, dotL, hgx, reduceIte, add_zero, zero_add, one_ne_zero, mul_zero, zero_mul, IsEmpty.forall_iff, implies_true, and_true, Int.reduceEq, Int.reduceNeg, OfNat.ofNat_ne_zero, OfNat.ofNat_ne_one, Int.cast_ofNat, Int.cast_one]
      simp only [h3, h4, mul_one, one_mul, and_self, true_and]
    · rw [hf]
      simp only [List.getD_cons_succ, List.getD_cons_zero, h3, h4]
      push_cast
      ring

theorem rowsCurry0_compute : RowsCompute ["x".toList, "y".toList] formCurry rowsCurry0 (fun v => 6 * v "x".toList ^ 2) := by
  have i0 : rowsCurry0.index.get "x".toList = 1 := by decide +kernel
  have i1 : rowsCurry0.index.get "y".toList = 2 := by decide +kernel
  have i2 : rowsCurry0.index.get "6616740472431544".toList = 3 := by decide +kernel
  have hf : ∀ vs : List (ZMod Order), formVal (nameVal rowsCurry0 vs) formCurry = ((6 : Int) : ZMod Order) * vs.getD 3 0 := by
    intro vs
    simp only [formCurry, formVal, factorVal, List.map_cons, List.map_nil, List.sum_cons, List.sum_nil, add_zero, nameVal, i0, i1, i2, reduceIte, Bool.false_eq_true]
  constructor
  · intro gx hgx vs hl h1 hs
    rw [hf]
    match vs, hl with
    | [u0, u1, u2, u3, u4], _ =>
      obtain rfl : u0 = 1 := h1
      simp only [rowsCurry0, SatV, List.forall_mem_cons, List.not_mem_nil, List.map_cons, List.map_nil, dotL, hgx, reduceIte, add_zero, zero_add, one_ne_zero, mul_zero, zero_mul, IsEmpty.forall_iff, implies_true, and_true, Int.reduceEq, Int.reduceNeg, OfNat.ofNat_ne_zero, OfNat.ofNat_ne_one, Int.cast_ofNat, Int.cast_one] at hs
      obtain ⟨rfl, rfl⟩ := hs
      simp only [nameVal, i0, i1, List.getD_cons_succ, List.getD_cons_zero]
      push_cast
      ring
  · intro gx hgx vals
    obtain ⟨v3, h3⟩ : ∃ v, v = (vals "x".toList) * (vals "x".toList) := ⟨_, rfl⟩
    obtain ⟨v4, h4⟩ : ∃ v, v = ((6 : ZMod Order) * v3) * (1) := ⟨_, rfl⟩
    refine ⟨[1, vals "x".toList, vals "y".toList, v3, v4], rfl, rfl, ?_, ?_, ?_⟩
    · simp only [nameVal, List.forall_mem_cons, i0, i1, List.getD_cons_succ, List.getD_cons_zero, List.not_mem_nil, IsEmpty.forall_iff, implies_true, and_true]
    · simp only [rowsCurry0, SatV, List.forall_mem_cons, List.not_mem_nil, List.map_cons, List.map_nil, dotL, hgx, reduceIte, add_zero, zero_add, one_ne_zero, mul_zero, zero_mul, IsEmpty.forall_iff, implies_true, and_true, Int.reduceEq, Int.reduceNeg, OfNat.ofNat_ne_zero, OfNat.ofNat_ne_one, Int.cast_ofNat, Int.cast_one]
      simp only [h3, h4, mul_one, one_mul, and_self, true_and]
    · rw [hf]
      simp only [List.getD_cons_succ, List.getD_cons_zero, h3, h4]
      push_cast
      ring

/-- C106: a function as argument, partly applied and returned, and a recursive iteration that calls it (codes.go:237-257): 6 x². -/
theorem C106_curry : Computes srcCurry (fun v => 6 * v "x".toList ^ 2) := computes_text runCurry rowsCurry1_compute rowsCurry0_compute

/-- testPrograms/codes.go:264-282 -/
def srcLoop : List Char := "\n#import \"/github.com/mottla/go-AlgebraicProgram-SNARK/utils/basicOperations\"\n\nfunc main(x){\n\tpublic{x}\n\treturn (1*fubunaci(8,x))\n}\n\nfunc fubunaci(a,v){\n\tvar dyn[] = {v,v}\n\tvar i = 2\n\tfor (i<a;i=i+1){\n\t\tvar n = addGateConstraint(dyn[0],dyn[1])\n\t\tdyn[0] = dyn[1]\n\t\tdyn[1] = n\n\t}\n    return dyn[1]\n}\n".toList

/-- the form returned by `srcLoop` -/
def formLoop : Factors := [⟨⟨false, "1667405433658011".toList⟩, 1⟩]

/-- the rows of `srcLoop`, with the randomizer -/
def rowsLoop1 : R1CS (List Int) :=
  ⟨[("1".toList, 0), ("x".toList, 1), ("2561673458792473".toList, 2), ("2856935623508520".toList, 3), ("4181796103539163".toList, 4), ("1791625940437358".toList, 5), ("4965110742613001".toList, 6), ("1667405433658011".toList, 7), ("1@randomIn".toList, 8), ("1@randomOut".toList, 9)], [],
    [⟨[0, 2, 0, 0, 0, 0, 0, 0, 0, 0], [1, 0, 0, 0, 0, 0, 0, 0, 0, 0], [0, 0, 0, 0, 0, 0, 0, 0, 0, 0], [0, 0, 1, 0, 0, 0, 0, 0, 0, 0]⟩, ⟨[0, 1, 1, 0, 0, 0, 0, 0, 0, 0], [1, 0, 0, 0, 0, 0, 0, 0, 0, 0], [0, 0, 0, 0, 0, 0, 0, 0, 0, 0], [0, 0, 0, 1, 0, 0, 0, 0, 0, 0]⟩, ⟨[0, 0, 1, 1, 0, 0, 0, 0, 0, 0], [1, 0, 0, 0, 0, 0, 0, 0, 0, 0], [0, 0, 0, 0, 0, 0, 0, 0, 0, 0], [0, 0, 0, 0, 1, 0, 0, 0, 0, 0]⟩, ⟨[0, 0, 0, 1, 1, 0, 0, 0, 0, 0], [1, 0, 0, 0, 0, 0, 0, 0, 0, 0], [0, 0, 0, 0, 0, 0, 0, 0, 0, 0], [0, 0, 0, 0, 0, 1, 0, 0, 0, 0]⟩, ⟨[0, 0, 0, 0, 1, 1, 0, 0, 0, 0], [1, 0, 0, 0, 0, 0, 0, 0, 0, 0], [0, 0, 0, 0, 0, 0, 0, 0, 0, 0], [0, 0, 0, 0, 0, 0, 1, 0, 0, 0]⟩, ⟨[0, 0, 0, 0, 0, 1, 1, 0, 0, 0], [1, 0, 0, 0, 0, 0, 0, 0, 0, 0], [0, 0, 0, 0, 0, 0, 0, 0, 0, 0], [0, 0, 0, 0, 0, 0, 0, 1, 0, 0]⟩, ⟨[0, 0, 0, 0, 0, 0, 0, 0, 1, 0], [0, 0, 0, 0, 0, 0, 0, 0, 1, 0], [0, 0, 0, 0, 0, 0, 0, 0, 1, 0], [0, 0, 0, 0, 0, 0, 0, 0, 0, 1]⟩]⟩

/-- the rows of `srcLoop`, without the randomizer -/
def rowsLoop0 : R1CS (List Int) :=
  ⟨[("1".toList, 0), ("x".toList, 1), ("2561673458792473".toList, 2), ("2856935623508520".toList, 3), ("4181796103539163".toList, 4), ("1791625940437358".toList, 5), ("4965110742613001".toList, 6), ("1667405433658011".toList, 7)], [],
    [⟨[0, 2, 0, 0, 0, 0, 0, 0], [1, 0, 0, 0, 0, 0, 0, 0], [0, 0, 0, 0, 0, 0, 0, 0], [0, 0, 1, 0, 0, 0, 0, 0]⟩, ⟨[0, 1, 1, 0, 0, 0, 0, 0], [1, 0, 0, 0, 0, 0, 0, 0], [0, 0, 0, 0, 0, 0, 0, 0], [0, 0, 0, 1, 0, 0, 0, 0]⟩, ⟨[0, 0, 1, 1, 0, 0, 0, 0], [1, 0, 0, 0, 0, 0, 0, 0], [0, 0, 0, 0, 0, 0, 0, 0], [0, 0, 0, 0, 1, 0, 0, 0]⟩, ⟨[0, 0, 0, 1, 1, 0, 0, 0], [1, 0, 0, 0, 0, 0, 0, 0], [0, 0, 0, 0, 0, 0, 0, 0], [0, 0, 0, 0, 0, 1, 0, 0]⟩, ⟨[0, 0, 0, 0, 1, 1, 0, 0], [1, 0, 0, 0, 0, 0, 0, 0], [0, 0, 0, 0, 0, 0, 0, 0], [0, 0, 0, 0, 0, 0, 1, 0]⟩, ⟨[0, 0, 0, 0, 0, 1, 1, 0], [1, 0, 0, 0, 0, 0, 0, 0], [0, 0, 0, 0, 0, 0, 0, 0], [0, 0, 0, 0, 0, 0, 0, 1]⟩]⟩

theorem runLoop : compiled H0 Order 3000 600 60 srcLoop = some (["1".toList, "x".toList], ["x".toList], formLoop, rowsLoop1, rowsLoop0) := by decide +kernel

theorem rowsLoop1_compute : RowsCompute ["x".toList] formLoop rowsLoop1 (fun v => 21 * v "x".toList) := by
  have i0 : rowsLoop1.index.get "x".toList = 1 := by decide +kernel
  have i1 : rowsLoop1.index.get "1667405433658011".toList = 7 := by decide +kernel
  have hf : ∀ vs : List (ZMod Order), formVal (nameVal rowsLoop1 vs) formLoop = ((1 : Int) : ZMod Order) * vs.getD 7 0 := by
    intro vs
    simp only [formLoop, formVal, factorVal, List.map_cons, List.map_nil, List.sum_cons, List.sum_nil, add_zero, nameVal, i0, i1, reduceIte, Bool.false_eq_true]
  constructor
  · intro gx hgx vs hl h1 hs
    rw [hf]
    match vs, hl with
    | [u0, u1, u2, u3, u4, u5, u6, u7, u8, u9], _ =>
      obtain rfl : u0 = 1 := h1
      simp only [rowsLoop1, SatV, List.forall_mem_cons, List.not_mem_nil, List.map_cons, List.map_nil, dotL, hgx, reduceIte, add_zero, zero_add, one_ne_zero, mul_zero, zero_mul, IsEmpty.forall_iff, implies_true, and_true, Int.reduceEq, Int.reduceNeg, OfNat.ofNat_ne_zero, OfNat.ofNat_ne_one, Int.cast_ofNat, Int.cast_one] at hs
      obtain ⟨rfl, rfl, rfl, rfl, rfl, rfl, rfl⟩ := hs
      simp only [nameVal, i0, List.getD_cons_succ, List.getD_cons_zero]
      push_cast
      ring
  · intro gx hgx vals
    obtain ⟨v2, h2⟩ : ∃ v, v = ((2 : ZMod Order) * vals "x".toList) * (1) := ⟨_, rfl⟩
    obtain ⟨v3, h3⟩ : ∃ v, v = (vals "x".toList + v2) * (1) := ⟨_, rfl⟩
    obtain ⟨v4, h4⟩ : ∃ v, v = (v2 + v3) * (1) := ⟨_, rfl⟩
    obtain ⟨v5, h5⟩ : ∃ v, v = (v3 + v4) * (1) := ⟨_, rfl⟩
    obtain ⟨v6, h6⟩ : ∃ v, v = (v4 + v5) * (1) := ⟨_, rfl⟩
    obtain ⟨v7, h7⟩ : ∃ v, v = (v5 + v6) * (1) := ⟨_, rfl⟩
    refine ⟨[1, vals "x".toList, v2, v3, v4, v5, v6, v7, 0, 0], rfl, rfl, ?_, ?_, ?_⟩
    · simp only [nameVal, List.forall_mem_cons, i0, List.getD_cons_succ, List.getD_cons_zero, List.not_mem_nil, IsEmpty.forall_iff, implies_true, and_true]
    · simp only [rowsLoop1, SatV, List.forall_mem_cons, List.not_mem_nil, List.map_cons, List.map_nil, dotL, hgx, reduceIte, add_zero, zero_add, one_ne_zero, mul_zero, zero_mul, IsEmpty.forall_iff, implies_true, and_true, Int.reduceEq, Int.reduceNeg, OfNat.ofNat_ne_zero, OfNat.ofNat_ne_one, Int.cast_ofNat, Int.cast_one]
      simp only [h2, h3, h4, h5, h6, h7, mul_one, one_mul, and_self, true_and]
    · rw [hf]
      simp only [List.getD_cons_succ, List.getD_cons_zero, h2, h3, h4, h5, h6, h7]
      push_cast
      ring

theorem rowsLoop0_compute : RowsCompute ["x".toList] formLoop rowsLoop0 (fun v => 21 * v "x".toList) := by
  have i0 : rowsLoop0.index.get "x".toList = 1 := by decide +kernel
  have i1 : rowsLoop0.index.get "1667405433658011".toList = 7 := by decide +kernel
  have hf : ∀ vs : List (ZMod Order), formVal (nameVal rowsLoop0 vs) formLoop = ((1 : Int) : ZMod Order) * vs.getD 7 0 := by
    intro vs
    simp only [formLoop, formVal, factorVal, List.map_cons, List.map_nil, List.sum_cons, List.sum_nil, add_zero, nameVal, i0, i1, reduceIte, Bool.false_eq_true]
  constructor
  · intro gx hgx vs hl h1 hs
    rw [hf]
    match vs, hl with
    | [u0, u1, u2, u3, u4, u5, u6, u7], _ =>
      obtain rfl : u0 = 1 := h1
      simp only [rowsLoop0, SatV, List.forall_mem_cons, List.not_mem_nil, List.map_cons, List.map_nil, dotL, hgx, reduceIte, add_zero, zero_add, one_ne_zero, mul_zero, zero_mul, IsEmpty.forall_iff, implies_true, and_true, Int.reduceEq, Int.reduceNeg, OfNat.ofNat_ne_zero, OfNat.ofNat_ne_one, Int.cast_ofNat, Int.cast_one] at hs
      obtain ⟨rfl, rfl, rfl, rfl, rfl, rfl⟩ := hs
      simp only [nameVal, i0, List.getD_cons_succ, List.getD_cons_zero]
      push_cast
      ring
  · intro gx hgx vals
    obtain ⟨v2, h2⟩ : ∃ v, v = ((2 : ZMod Order) * vals "x".toList) * (1) := ⟨_, rfl⟩
    obtain ⟨v3, h3⟩ : ∃ v, v = (vals "x".toList + v2) * (1) := ⟨_, rfl⟩
    obtain ⟨v4, h4⟩ : ∃ v, v = (v2 + v3) * (1) := ⟨_, rfl⟩
    obtain ⟨v5, h5⟩ : ∃ v, v = (v3 + v4) * (1) := ⟨_, rfl⟩
    obtain ⟨v6, h6⟩ : ∃ v, v = (v4 + v5) * (1) := ⟨_, rfl⟩
    obtain ⟨v7, h7⟩ : ∃ v, v = (v5 + v6) * (1) := ⟨_, rfl⟩
    refine ⟨[1, vals "x".toList, v2, v3, v4, v5, v6, v7], rfl, rfl, ?_, ?_, ?_⟩
    · simp only [nameVal, List.forall_mem_cons, i0, List.getD_cons_succ, List.getD_cons_zero, List.not_mem_nil, IsEmpty.forall_iff, implies_true, and_true]
    · simp only [rowsLoop0, SatV, List.forall_mem_cons, List.not_mem_nil, List.map_cons, List.map_nil, dotL, hgx, reduceIte, add_zero, zero_add, one_ne_zero, mul_zero, zero_mul, IsEmpty.forall_iff, implies_true, and_true, Int.reduceEq, Int.reduceNeg, OfNat.ofNat_ne_zero, OfNat.ofNat_ne_one, Int.cast_ofNat, Int.cast_one]
      simp only [h2, h3, h4, h5, h6, h7, mul_one, one_mul, and_self, true_and]
    · rw [hf]
      simp only [List.getD_cons_succ, List.getD_cons_zero, h2, h3, h4, h5, h6, h7]
      push_cast
      ring

/-- C106: Fibonacci numbers by a loop over an array with `addGateConstraint` and a public input (codes.go:264-282): 21 x. -/
theorem C106_loop : Computes srcLoop (fun v => 21 * v "x".toList) := computes_text runLoop rowsLoop1_compute rowsLoop0_compute

/-- testPrograms/codes.go:330-344 -/
def srcGlobal : List Char := "\nfunc main(x){\n\treturn (1*fubunaci(8))*(x*x)\n}\nvar dyn[] = {1,1}\nfunc fubunaci(a){\n\tvar i = 2\n\tfor (i<a;i=i+1){\n\t\tvar n = dyn[0]+dyn[1]\n\t\tdyn[0] = dyn[1]\n\t\tdyn[1] = n\n\t}\n    return dyn[1]\n}\n".toList

/-- the form returned by `srcGlobal` -/
def formGlobal : Factors := [⟨⟨false, "6616740472431544".toList⟩, 21⟩]

/-- the rows of `srcGlobal`, with the randomizer -/
def rowsGlobal1 : R1CS (List Int) :=
  ⟨[("1".toList, 0), ("x".toList, 1), ("6616740472431544".toList, 2), ("4409146006172401".toList, 3), ("1@randomIn".toList, 4), ("1@randomOut".toList, 5)], [],
    [⟨[0, 1, 0, 0, 0, 0], [0, 1, 0, 0, 0, 0], [0, 0, 0, 0, 0, 0], [0, 0, 1, 0, 0, 0]⟩, ⟨[0, 0, 21, 0, 0, 0], [1, 0, 0, 0, 0, 0], [0, 0, 0, 0, 0, 0], [0, 0, 0, 1, 0, 0]⟩, ⟨[0, 0, 0, 0, 1, 0], [0, 0, 0, 0, 1, 0], [0, 0, 0, 0, 1, 0], [0, 0, 0, 0, 0, 1]⟩]⟩

/-- the rows of `srcGlobal`, without the randomizer -/
def rowsGlobal0 : R1CS (List Int) :=
  ⟨[("1".toList, 0), ("x".toList, 1), ("6616740472431544".toList, 2), ("4409146006172401".toList, 3)], [],
    [⟨[0, 1, 0, 0], [0, 1, 0, 0], [0, 0, 0, 0], [0, 0, 1, 0]⟩, ⟨[0, 0, 21, 0], [1, 0, 0, 0], [0, 0, 0, 0], [0, 0, 0, 1]⟩]⟩

theorem runGlobal : compiled H0 Order 3000 600 60 srcGlobal = some (["1".toList], ["x".toList], formGlobal, rowsGlobal1, rowsGlobal0) := by decide +kernel

theorem rowsGlobal1_compute : RowsCompute ["x".toList] formGlobal rowsGlobal1 (fun v => 21 * v "x".toList ^ 2) := by
  have i0 : rowsGlobal1.index.get "x".toList = 1 := by decide +kernel
  have i1 : rowsGlobal1.index.get "6616740472431544".toList = 2 := by decide +kernel
  have hf : ∀ vs : List (ZMod Order), formVal (nameVal rowsGlobal1 vs) formGlobal = ((21 : Int) : ZMod Order) * vs.getD 2 0 := by
    intro vs
    simp only [formGlobal, formVal, factorVal, List.map_cons, List.map_nil, List.sum_cons, List.sum_nil, add_zero, nameVal, i0, i1, reduceIte, Bool.false_eq_true]
  constructor
  · intro gx hgx vs hl h1 hs
    rw [hf]
    match vs, hl with
    | [u0, u1, u2, u3, u4, u5], _ =>
      obtain rfl : u0 = 1 := h1
      simp only [rowsGlobal1, SatV, List.forall_mem_cons, List.not_mem_nil, List.map_cons, List.map_nil, dotL, hgx, reduceIte, add_zero, zero_add, one_ne_zero, mul_zero, zero_mul, IsEmpty.forall_iff, implies_true, and_true, Int.reduceEq, Int.reduceNeg, OfNat.ofNat_ne_zero, OfNat.ofNat_ne_one, Int.cast_ofNat, Int.cast_one] at hs
      obtain ⟨rfl, rfl, rfl⟩ := hs
      simp only [nameVal, i0, List.getD_cons_succ, List.getD_cons_zero]
      push_cast
      ring
  · intro gx hgx vals
    obtain ⟨v2, h2⟩ : ∃ v, v = (vals "x".toList) * (vals "x".toList) := ⟨_, rfl⟩
    obtain ⟨v3, h3⟩ : ∃ v, v = ((21 : ZMod Order) * v2) * (1) := ⟨_, rfl⟩
    refine ⟨[1, vals "x".toList, v2, v3, 0, 0], rfl, rfl, ?_, ?_, ?_⟩
    · simp only [nameVal, List.forall_mem_cons, i0, List.getD_cons_succ, List.getD_cons_zero, List.not_mem_nil, IsEmpty.forall_iff, implies_true, and_true]
    · simp only [rowsGlobal1, SatV, List.forall_mem_cons, List.not_mem_nil, List.map_cons, List.map_nil, dotL, hgx, reduceIte, add_zero, zero_add, one_ne_zero, mul_zero, zero_mul, IsEmpty.forall_iff, implies_true, and_true, Int.reduceEq, Int.reduceNeg, OfNat.ofNat_ne_zero, OfNat.ofNat_ne_one, Int.cast_ofNat, Int.cast_one]
      simp only [h2, h3, mul_one, one_mul, and_self, true_and]
    · rw [hf]
      simp only [List.getD_cons_succ, List.getD_cons_zero, h2, h3]
      push_cast
      ring

theorem rowsGlobal0_compute : RowsCompute ["x".toList] formGlobal rowsGlobal0 (fun v => 21 * v "x".toList ^ 2) := by
  have i0 : rowsGlobal0.index.get "x".toList = 1 := by decide +kernel
  have i1 : rowsGlobal0.index.get "6616740472431544".toList = 2 := by decide +kernel
  have hf : ∀ vs : List (ZMod Order), formVal (nameVal rowsGlobal0 vs) formGlobal = ((21 : Int) : ZMod Order) * vs.getD 2 0 := by
    intro vs
    simp only [formGlobal, formVal, factorVal, List.map_cons, List.map_nil, List.sum_cons, List.sum_nil, add_zero, nameVal, i0, i1, reduceIte, Bool.false_eq_true]
  constructor
  · intro gx hgx vs hl h1 hs
    rw [hf]
    match vs, hl with
    | [u0, u1, u2, u3], _ =>
      obtain rfl : u0 = 1 := h1
      simp only [rowsGlobal0, SatV, List.forall_mem_cons, List.not_mem_nil, List.map_cons, List.map_nil, dotL, hgx, reduceIte, add_zero, zero_add, one_ne_zero, mul_zero, zero_mul, IsEmpty.forall_iff, implies_true, and_true, Int.reduceEq, Int.reduceNeg, OfNat.ofNat_ne_zero, OfNat.ofNat_ne_one, Int.cast_ofNat, Int.cast_one] at hs
      obtain ⟨rfl, rfl⟩ := hs
      simp only [nameVal, i0, List.getD_cons_succ, List.getD_cons_zero]
      push_cast
      ring
  · intro gx hgx vals
    obtain ⟨v2, h2⟩ : ∃ v, v = (vals "x".toList) * (vals "x".toList) := ⟨_, rfl⟩
    obtain ⟨v3, h3⟩ : ∃ v, v = ((21 : ZMod Order) * v2) * (1) := ⟨_, rfl⟩
    refine ⟨[1, vals "x".toList, v2, v3], rfl, rfl, ?_, ?_, ?_⟩
    · simp only [nameVal, List.forall_mem_cons, i0, List.getD_cons_succ, List.getD_cons_zero, List.not_mem_nil, IsEmpty.forall_iff, implies_true, and_true]
    · simp only [rowsGlobal0, SatV, List.forall_mem_cons, List.not_mem_nil, List.map_cons, List.map_nil, dotL, hgx, reduceIte, add_zero, zero_add, one_ne_zero, mul_zero, zero_mul, IsEmpty.forall_iff, implies_true, and_true, Int.reduceEq, Int.reduceNeg, OfNat.ofNat_ne_zero, OfNat.ofNat_ne_one, Int.cast_ofNat, Int.cast_one]
      simp only [h2, h3, mul_one, one_mul, and_self, true_and]
    · rw [hf]
      simp only [List.getD_cons_succ, List.getD_cons_zero, h2, h3]
      push_cast
      ring

/-- C106: Fibonacci numbers in a global array (codes.go:330-344): 21 x². -/
theorem C106_global : Computes srcGlobal (fun v => 21 * v "x".toList ^ 2) := computes_text runGlobal rowsGlobal1_compute rowsGlobal0_compute

end Repo
end APS.Prog
