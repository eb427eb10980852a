import Verif.Props.RepoRows

/-!
C106: test programs of the repository (testPrograms/codes.go) with recursion, closures, functions as values, globals, `addGateConstraint`,
`scalarBaseMultiply` and `equal`, taken over character by character.  The rows of each text are computed once, by the kernel; a text compiles in one way
only (`compiled_only`), and the statements are then proved about these rows, for ALL inputs and all witnesses.
-/
namespace APS.Prog
open APS.Circuit hiding execute compile Prog
open APS.Pairing (Order)
open APS.Spec hiding Err

set_option linter.unusedSimpArgs false
namespace Repo

/-- testPrograms/codes.go:352-364 -/
def srcGlobal9 : List Char := "\nfunc main(x){\n\treturn (1*fubunaci(8))*(x*x)\n}\nvar dyn[] = {1,1,0,0,0,0,0,0,0}\nfunc fubunaci(a){\n\tvar i = 2\n\tfor (i<a;i=i+1){\n\t\tdyn[i] = dyn[i-1]+dyn[i-2]\n\t}\n    return dyn[a-1]\n}\n".toList

/-- the form returned by `srcGlobal9` -/
def formGlobal9 : Factors := [⟨⟨false, "6616740472431544".toList⟩, 21⟩]

/-- the rows of `srcGlobal9`, with the randomizer -/
def rowsGlobal91 : R1CS (List Int) :=
  ⟨[("1".toList, 0), ("x".toList, 1), ("6616740472431544".toList, 2), ("4409146006172401".toList, 3), ("1@randomIn".toList, 4), ("1@randomOut".toList, 5)], [],
    [⟨[0, 1, 0, 0, 0, 0], [0, 1, 0, 0, 0, 0], [0, 0, 0, 0, 0, 0], [0, 0, 1, 0, 0, 0]⟩, ⟨[0, 0, 21, 0, 0, 0], [1, 0, 0, 0, 0, 0], [0, 0, 0, 0, 0, 0], [0, 0, 0, 1, 0, 0]⟩, ⟨[0, 0, 0, 0, 1, 0], [0, 0, 0, 0, 1, 0], [0, 0, 0, 0, 1, 0], [0, 0, 0, 0, 0, 1]⟩]⟩

/-- the rows of `srcGlobal9`, without the randomizer -/
def rowsGlobal90 : R1CS (List Int) :=
  ⟨[("1".toList, 0), ("x".toList, 1), ("6616740472431544".toList, 2), ("4409146006172401".toList, 3)], [],
    [⟨[0, 1, 0, 0], [0, 1, 0, 0], [0, 0, 0, 0], [0, 0, 1, 0]⟩, ⟨[0, 0, 21, 0], [1, 0, 0, 0], [0, 0, 0, 0], [0, 0, 0, 1]⟩]⟩

theorem runGlobal9 : compiled H0 Order 3000 600 60 srcGlobal9 = some (["1".toList], ["x".toList], formGlobal9, rowsGlobal91, rowsGlobal90) := by decide +kernel

theorem rowsGlobal91_compute : RowsCompute ["x".toList] formGlobal9 rowsGlobal91 (fun v => 21 * v "x".toList ^ 2) := by
  have i0 : rowsGlobal91.index.get "x".toList = 1 := by decide +kernel
  have i1 : rowsGlobal91.index.get "6616740472431544".toList = 2 := by decide +kernel
  have hf : ∀ vs : List (ZMod Order), formVal (nameVal rowsGlobal91 vs) formGlobal9 = ((21 : Int) : ZMod Order) * vs.getD 2 0 := by
    intro vs
    simp only [formGlobal9, formVal, factorVal, List.map_cons, List.map_nil, List.sum_cons, List.sum_nil, add_zero, nameVal, i0, i1, reduceIte, Bool.false_eq_true]
  constructor
  · intro gx hgx vs hl h1 hs
    rw [hf]
    match vs, hl with
    | [u0, u1, u2, u3, u4, u5], _ =>
      obtain rfl : u0 = 1 := h1
      simp only [rowsGlobal91, SatV, List.forall_mem_cons, List.not_mem_nil, List.map_cons, List.map_nil, dotL, hgx, reduceIte, add_zero, zero_add, one_ne_zero, mul_zero, zero_mul, IsEmpty.forall_iff, implies_true, and_true, Int.reduceEq, Int.reduceNeg, OfNat.ofNat_ne_zero, OfNat.ofNat_ne_one, Int.cast_ofNat, Int.cast_one] at hs
      obtain ⟨rfl, rfl, rfl⟩ := hs
      simp only [nameVal, i0, List.getD_cons_succ, List.getD_cons_zero]
      push_cast
      ring
  · intro gx hgx vals
    obtain ⟨v2, h2⟩ : ∃ v, v = (vals "x".toList) * (vals "x".toList) := ⟨_, rfl⟩
    obtain ⟨v3, h3⟩ : ∃ v, v = ((21 : ZMod Order) * v2) * (1) := ⟨_, rfl⟩
    refine ⟨[1, vals "x".toList, v2, v3, 0, 0], rfl, rfl, ?_, ?_, ?_⟩
    · simp only [nameVal, List.forall_mem_cons, i0, List.getD_cons_succ, List.getD_cons_zero, List.not_mem_nil, IsEmpty.forall_iff, implies_true, and_true]
    · simp only [rowsGlobal91, SatV, List.forall_mem_cons, List.not_mem_nil, List.map_cons, List.map_nil, dotL, hgx, reduceIte, add_zero, zero_add, one_ne_zero, mul_zero, zero_mul, IsEmpty.forall_iff, implies_true, and_true, Int.reduceEq, Int.reduceNeg, OfNat.ofNat_ne_zero, OfNat.ofNat_ne_one, Int.cast_ofNat, Int.cast_one]
      simp only [h2, h3, mul_one, one_mul, and_self, true_and]
    · rw [hf]
      simp only [List.getD_cons_succ, List.getD_cons_zero, h2, h3]
      push_cast
      ring

theorem rowsGlobal90_compute : RowsCompute ["x".toList] formGlobal9 rowsGlobal90 (fun v => 21 * v "x".toList ^ 2) := by
  have i0 : rowsGlobal90.index.get "x".toList = 1 := by decide +kernel
  have i1 : rowsGlobal90.index.get "6616740472431544".toList = 2 := by decide +kernel
  have hf : ∀ vs : List (ZMod Order), formVal (nameVal rowsGlobal90 vs) formGlobal9 = ((21 : Int) : ZMod Order) * vs.getD 2 0 := by
    intro vs
    simp only [formGlobal9, formVal, factorVal, List.map_cons, List.map_nil, List.sum_cons, List.sum_nil, add_zero, nameVal, i0, i1, reduceIte, Bool.false_eq_true]
  constructor
  · intro gx hgx vs hl h1 hs
    rw [hf]
    match vs, hl with
    | [u0, u1, u2, u3], _ =>
      obtain rfl : u0 = 1 := h1
      simp only [rowsGlobal90, SatV, List.forall_mem_cons, List.not_mem_nil, List.map_cons, List.map_nil, dotL, hgx, reduceIte, add_zero, zero_add, one_ne_zero, mul_zero, zero_mul, IsEmpty.forall_iff, implies_true, and_true, Int.reduceEq, Int.reduceNeg, OfNat.ofNat_ne_zero, OfNat.ofNat_ne_one, Int.cast_ofNat, Int.cast_one] at hs
      obtain ⟨rfl, rfl⟩ := hs
      simp only [nameVal, i0, List.getD_cons_succ, List.getD_cons_zero]
      push_cast
      ring
  · intro gx hgx vals
    obtain ⟨v2, h2⟩ : ∃ v, v = (vals "x".toList) * (vals "x".toList) := ⟨_, rfl⟩
    obtain ⟨v3, h3⟩ : ∃ v, v = ((21 : ZMod Order) * v2) * (1) := ⟨_, rfl⟩
    refine ⟨[1, vals "x".toList, v2, v3], rfl, rfl, ?_, ?_, ?_⟩
    · simp only [nameVal, List.forall_mem_cons, i0, List.getD_cons_succ, List.getD_cons_zero, List.not_mem_nil, IsEmpty.forall_iff, implies_true, and_true]
    · simp only [rowsGlobal90, SatV, List.forall_mem_cons, List.not_mem_nil, List.map_cons, List.map_nil, dotL, hgx, reduceIte, add_zero, zero_add, one_ne_zero, mul_zero, zero_mul, IsEmpty.forall_iff, implies_true, and_true, Int.reduceEq, Int.reduceNeg, OfNat.ofNat_ne_zero, OfNat.ofNat_ne_one, Int.cast_ofNat, Int.cast_one]
      simp only [h2, h3, mul_one, one_mul, and_self, true_and]
    · rw [hf]
      simp only [List.getD_cons_succ, List.getD_cons_zero, h2, h3]
      push_cast
      ring

/-- C106: Fibonacci numbers in a global array of nine elements, indices computed (codes.go:352-364): 21 x². -/
theorem C106_global9 : Computes srcGlobal9 (fun v => 21 * v "x".toList ^ 2) := computes_text runGlobal9 rowsGlobal91_compute rowsGlobal90_compute

/-- testPrograms/codes.go:371-391 -/
def srcClosure : List Char := "\nfunc main(x){\n\tvar a = func(i){\n\t\tif i == 0 {\n\t\t\treturn\n\t\t}\n\t\ti = i-1\n\t\treturn x*a(i)\t\t\t\n\t}\n\tvar b = 7\n\tvar c = 123 * b    \n\t return mul(1/c,a(array[3]*2))\n}\n\nvar xx = 4\nvar array[] = {1,4,7,xx}\n\nfunc mul(a,b){\n    return a*b\n}\n".toList

/-- the form returned by `srcClosure` -/
def formClosure : Factors := [⟨⟨false, "5476948594590666".toList⟩, 1804953825668511661764802332071157411483082314087733377935624270902302442728⟩]

/-- the rows of `srcClosure`, with the randomizer -/
def rowsClosure1 : R1CS (List Int) :=
  ⟨[("1".toList, 0), ("x".toList, 1), ("6616740472431544".toList, 2), ("8026749332931927".toList, 3), ("5157332951221527".toList, 4), ("8495973709339848".toList, 5), ("6060126141057242".toList, 6), ("4342146011896382".toList, 7), ("5476948594590666".toList, 8), ("3471354576792796".toList, 9), ("1@randomIn".toList, 10), ("1@randomOut".toList, 11)], [],
    [⟨[0, 1, 0, 0, 0, 0, 0, 0, 0, 0, 0, 0], [0, 1, 0, 0, 0, 0, 0, 0, 0, 0, 0, 0], [0, 0, 0, 0, 0, 0, 0, 0, 0, 0, 0, 0], [0, 0, 1, 0, 0, 0, 0, 0, 0, 0, 0, 0]⟩, ⟨[0, 1, 0, 0, 0, 0, 0, 0, 0, 0, 0, 0], [0, 0, 1, 0, 0, 0, 0, 0, 0, 0, 0, 0], [0, 0, 0, 0, 0, 0, 0, 0, 0, 0, 0, 0], [0, 0, 0, 1, 0, 0, 0, 0, 0, 0, 0, 0]⟩, ⟨[0, 1, 0, 0, 0, 0, 0, 0, 0, 0, 0, 0], [0, 0, 0, 1, 0, 0, 0, 0, 0, 0, 0, 0], [0, 0, 0, 0, 0, 0, 0, 0, 0, 0, 0, 0], [0, 0, 0, 0, 1, 0, 0, 0, 0, 0, 0, 0]⟩, ⟨[0, 1, 0, 0, 0, 0, 0, 0, 0, 0, 0, 0], [0, 0, 0, 0, 1, 0, 0, 0, 0, 0, 0, 0], [0, 0, 0, 0, 0, 0, 0, 0, 0, 0, 0, 0], [0, 0, 0, 0, 0, 1, 0, 0, 0, 0, 0, 0]⟩, ⟨[0, 1, 0, 0, 0, 0, 0, 0, 0, 0, 0, 0], [0, 0, 0, 0, 0, 1, 0, 0, 0, 0, 0, 0], [0, 0, 0, 0, 0, 0, 0, 0, 0, 0, 0, 0], [0, 0, 0, 0, 0, 0, 1, 0, 0, 0, 0, 0]⟩, ⟨[0, 1, 0, 0, 0, 0, 0, 0, 0, 0, 0, 0], [0, 0, 0, 0, 0, 0, 1, 0, 0, 0, 0, 0], [0, 0, 0, 0, 0, 0, 0, 0, 0, 0, 0, 0], [0, 0, 0, 0, 0, 0, 0, 1, 0, 0, 0, 0]⟩, ⟨[0, 1, 0, 0, 0, 0, 0, 0, 0, 0, 0, 0], [0, 0, 0, 0, 0, 0, 0, 1, 0, 0, 0, 0], [0, 0, 0, 0, 0, 0, 0, 0, 0, 0, 0, 0], [0, 0, 0, 0, 0, 0, 0, 0, 1, 0, 0, 0]⟩, ⟨[0, 0, 0, 0, 0, 0, 0, 0, 1804953825668511661764802332071157411483082314087733377935624270902302442728, 0, 0, 0], [1, 0, 0, 0, 0, 0, 0, 0, 0, 0, 0, 0], [0, 0, 0, 0, 0, 0, 0, 0, 0, 0, 0, 0], [0, 0, 0, 0, 0, 0, 0, 0, 0, 1, 0, 0]⟩, ⟨[0, 0, 0, 0, 0, 0, 0, 0, 0, 0, 1, 0], [0, 0, 0, 0, 0, 0, 0, 0, 0, 0, 1, 0], [0, 0, 0, 0, 0, 0, 0, 0, 0, 0, 1, 0], [0, 0, 0, 0, 0, 0, 0, 0, 0, 0, 0, 1]⟩]⟩

/-- the rows of `srcClosure`, without the randomizer -/
def rowsClosure0 : R1CS (List Int) :=
  ⟨[("1".toList, 0), ("x".toList, 1), ("6616740472431544".toList, 2), ("8026749332931927".toList, 3), ("5157332951221527".toList, 4), ("8495973709339848".toList, 5), ("6060126141057242".toList, 6), ("4342146011896382".toList, 7), ("5476948594590666".toList, 8), ("3471354576792796".toList, 9)], [],
    [⟨[0, 1, 0, 0, 0, 0, 0, 0, 0, 0], [0, 1, 0, 0, 0, 0, 0, 0, 0, 0], [0, 0, 0, 0, 0, 0, 0, 0, 0, 0], [0, 0, 1, 0, 0, 0, 0, 0, 0, 0]⟩, ⟨[0, 1, 0, 0, 0, 0, 0, 0, 0, 0], [0, 0, 1, 0, 0, 0, 0, 0, 0, 0], [0, 0, 0, 0, 0, 0, 0, 0, 0, 0], [0, 0, 0, 1, 0, 0, 0, 0, 0, 0]⟩, ⟨[0, 1, 0, 0, 0, 0, 0, 0, 0, 0], [0, 0, 0, 1, 0, 0, 0, 0, 0, 0], [0, 0, 0, 0, 0, 0, 0, 0, 0, 0], [0, 0, 0, 0, 1, 0, 0, 0, 0, 0]⟩, ⟨[0, 1, 0, 0, 0, 0, 0, 0, 0, 0], [0, 0, 0, 0, 1, 0, 0, 0, 0, 0], [0, 0, 0, 0, 0, 0, 0, 0, 0, 0], [0, 0, 0, 0, 0, 1, 0, 0, 0, 0]⟩, ⟨[0, 1, 0, 0, 0, 0, 0, 0, 0, 0], [0, 0, 0, 0, 0, 1, 0, 0, 0, 0], [0, 0, 0, 0, 0, 0, 0, 0, 0, 0], [0, 0, 0, 0, 0, 0, 1, 0, 0, 0]⟩, ⟨[0, 1, 0, 0, 0, 0, 0, 0, 0, 0], [0, 0, 0, 0, 0, 0, 1, 0, 0, 0], [0, 0, 0, 0, 0, 0, 0, 0, 0, 0], [0, 0, 0, 0, 0, 0, 0, 1, 0, 0]⟩, ⟨[0, 1, 0, 0, 0, 0, 0, 0, 0, 0], [0, 0, 0, 0, 0, 0, 0, 1, 0, 0], [0, 0, 0, 0, 0, 0, 0, 0, 0, 0], [0, 0, 0, 0, 0, 0, 0, 0, 1, 0]⟩, ⟨[0, 0, 0, 0, 0, 0, 0, 0, 1804953825668511661764802332071157411483082314087733377935624270902302442728, 0], [1, 0, 0, 0, 0, 0, 0, 0, 0, 0], [0, 0, 0, 0, 0, 0, 0, 0, 0, 0], [0, 0, 0, 0, 0, 0, 0, 0, 0, 1]⟩]⟩

theorem runClosure : compiled H0 Order 3000 600 60 srcClosure = some (["1".toList], ["x".toList], formClosure, rowsClosure1, rowsClosure0) := by decide +kernel

theorem rowsClosure1_compute : RowsCompute ["x".toList] formClosure rowsClosure1 (fun v => 1804953825668511661764802332071157411483082314087733377935624270902302442728 * v "x".toList ^ 8) := by
  have i0 : rowsClosure1.index.get "x".toList = 1 := by decide +kernel
  have i1 : rowsClosure1.index.get "5476948594590666".toList = 8 := by decide +kernel
  have hf : ∀ vs : List (ZMod Order), formVal (nameVal rowsClosure1 vs) formClosure = ((1804953825668511661764802332071157411483082314087733377935624270902302442728 : Int) : ZMod Order) * vs.getD 8 0 := by
    intro vs
    simp only [formClosure, formVal, factorVal, List.map_cons, List.map_nil, List.sum_cons, List.sum_nil, add_zero, nameVal, i0, i1, reduceIte, Bool.false_eq_true]
  constructor
  · intro gx hgx vs hl h1 hs
    rw [hf]
    match vs, hl with
    | [u0, u1, u2, u3, u4, u5, u6, u7, u8, u9, u10, u11], _ =>
      obtain rfl : u0 = 1 := h1
      simp only [rowsClosure1, SatV, List.forall_mem_cons, List.not_mem_nil, List.map_cons, List.map_nil, dotL, hgx, reduceIte, add_zero, zero_add, one_ne_zero, mul_zero, zero_mul, IsEmpty.forall_iff, implies_true, and_true, Int.reduceEq, Int.reduceNeg, OfNat.ofNat_ne_zero, OfNat.ofNat_ne_one, Int.cast_ofNat, Int.cast_one] at hs
      obtain ⟨rfl, rfl, rfl, rfl, rfl, rfl, rfl, rfl, rfl⟩ := hs
      simp only [nameVal, i0, List.getD_cons_succ, List.getD_cons_zero]
      push_cast
      ring
  · intro gx hgx vals
    obtain ⟨v2, h2⟩ : ∃ v, v = (vals "x".toList) * (vals "x".toList) := ⟨_, rfl⟩
    obtain ⟨v3, h3⟩ : ∃ v, v = (vals "x".toList) * (v2) := ⟨_, rfl⟩
    obtain ⟨v4, h4⟩ : ∃ v, v = (vals "x".toList) * (v3) := ⟨_, rfl⟩
    obtain ⟨v5, h5⟩ : ∃ v, v = (vals "x".toList) * (v4) := ⟨_, rfl⟩
    obtain ⟨v6, h6⟩ : ∃ v, v = (vals "x".toList) * (v5) := ⟨_, rfl⟩
    obtain ⟨v7, h7⟩ : ∃ v, v = (vals "x".toList) * (v6) := ⟨_, rfl⟩
    obtain ⟨v8, h8⟩ : ∃ v, v = (vals "x".toList) * (v7) := ⟨_, rfl⟩
    obtain ⟨v9, h9⟩ : ∃ v, v = ((1804953825668511661764802332071157411483082314087733377935624270902302442728 : ZMod Order) * v8) * (1) := ⟨_, rfl⟩
    refine ⟨[1, vals "x".toList, v2, v3, v4, v5, v6, v7, v8, v9, 0, 0], rfl, rfl, ?_, ?_, ?_⟩
    · simp only [nameVal, List.forall_mem_cons, i0, List.getD_cons_succ, List.getD_cons_zero, List.not_mem_nil, IsEmpty.forall_iff, implies_true, and_true]
    · simp only [rowsClosure1, SatV, List.forall_mem_cons, List.not_mem_nil, List.map_cons, List.map_nil, dotL, hgx, reduceIte, add_zero, zero_add, one_ne_zero, mul_zero, zero_mul, IsEmpty.forall_iff, implies_true, and_true, Int.reduceEq, Int.reduceNeg, OfNat.ofNat_ne_zero, OfNat.ofNat_ne_one, Int.cast_ofNat, Int.cast_one]
      simp only [h2, h3, h4, h5, h6, h7, h8, h9, mul_one, one_mul, and_self, true_and]
    · rw [hf]
      simp only [List.getD_cons_succ, List.getD_cons_zero, h2, h3, h4, h5, h6, h7, h8, h9]
      push_cast
      ring

theorem rowsClosure0_compute : RowsCompute ["x".toList] formClosure rowsClosure0 (fun v => 1804953825668511661764802332071157411483082314087733377935624270902302442728 * v "x".toList ^ 8) := by
  have i0 : rowsClosure0.index.get "x".toList = 1 := by decide +kernel
  have i1 : rowsClosure0.index.get "5476948594590666".toList = 8 := by decide +kernel
  have hf : ∀ vs : List (ZMod Order), formVal (nameVal rowsClosure0 vs) formClosure = ((1804953825668511661764802332071157411483082314087733377935624270902302442728 : Int) : ZMod Order) * vs.getD 8 0 := by
    intro vs
    simp only [formClosure, formVal, factorVal, List.map_cons, List.map_nil, List.sum_cons, List.sum_nil, add_zero, nameVal, i0, i1, reduceIte, Bool.false_eq_true]
  constructor
  · intro gx hgx vs hl h1 hs
    rw [hf]
    match vs, hl with
    | [u0, u1, u2, u3, u4, u5, u6, u7, u8, u9], _ =>
      obtain rfl : u0 = 1 := h1
      simp only [rowsClosure0, SatV, List.forall_mem_cons, List.not_mem_nil, List.map_cons, List.map_nil, dotL, hgx, reduceIte, add_zero, zero_add, one_ne_zero, mul_zero, zero_mul, IsEmpty.forall_iff, implies_true, and_true, Int.reduceEq, Int.reduceNeg, OfNat.ofNat_ne_zero, OfNat.ofNat_ne_one, Int.cast_ofNat, Int.cast_one] at hs
      obtain ⟨rfl, rfl, rfl, rfl, rfl, rfl, rfl, rfl⟩ := hs
      simp only [nameVal, i0, List.getD_cons_succ, List.getD_cons_zero]
      push_cast
      ring
  · intro gx hgx vals
    obtain ⟨v2, h2⟩ : ∃ v, v = (vals "x".toList) * (vals "x".toList) := ⟨_, rfl⟩
    obtain ⟨v3, h3⟩ : ∃ v, v = (vals "x".toList) * (v2) := ⟨_, rfl⟩
    obtain ⟨v4, h4⟩ : ∃ v, v = (vals "x".toList) * (v3) := ⟨_, rfl⟩
    obtain ⟨v5, h5⟩ : ∃ v, v = (vals "x".toList) * (v4) := ⟨_, rfl⟩
    obtain ⟨v6, h6⟩ : ∃ v, v = (vals "x".toList) * (v5) := ⟨_, rfl⟩
    obtain ⟨v7, h7⟩ : ∃ v, v = (vals "x".toList) * (v6) := ⟨_, rfl⟩
    obtain ⟨v8, h8⟩ : ∃ v, v = (vals "x".toList) * (v7) := ⟨_, rfl⟩
    obtain ⟨v9, h9⟩ : ∃ v, v = ((1804953825668511661764802332071157411483082314087733377935624270902302442728 : ZMod Order) * v8) * (1) := ⟨_, rfl⟩
    refine ⟨[1, vals "x".toList, v2, v3, v4, v5, v6, v7, v8, v9], rfl, rfl, ?_, ?_, ?_⟩
    · simp only [nameVal, List.forall_mem_cons, i0, List.getD_cons_succ, List.getD_cons_zero, List.not_mem_nil, IsEmpty.forall_iff, implies_true, and_true]
    · simp only [rowsClosure0, SatV, List.forall_mem_cons, List.not_mem_nil, List.map_cons, List.map_nil, dotL, hgx, reduceIte, add_zero, zero_add, one_ne_zero, mul_zero, zero_mul, IsEmpty.forall_iff, implies_true, and_true, Int.reduceEq, Int.reduceNeg, OfNat.ofNat_ne_zero, OfNat.ofNat_ne_one, Int.cast_ofNat, Int.cast_one]
      simp only [h2, h3, h4, h5, h6, h7, h8, h9, mul_one, one_mul, and_self, true_and]
    · rw [hf]
      simp only [List.getD_cons_succ, List.getD_cons_zero, h2, h3, h4, h5, h6, h7, h8, h9]
      push_cast
      ring

/-- A recursive closure over a parameter, global variables and division of constants (codes.go:371-391); the constant is the inverse of 861, see `C106_closure`. -/
theorem closure_literal : Computes srcClosure (fun v => 1804953825668511661764802332071157411483082314087733377935624270902302442728 * v "x".toList ^ 8) := computes_text runClosure rowsClosure1_compute rowsClosure0_compute

/-- testPrograms/codes.go:397-409 -/
def srcApply : List Char := "\n\tfunc main(x){\n\t\tvar a = func(c,b){\n\t\t\treturn (c*c)*b\n\t\t}\n\t\tvar c[] = {x, 2*x,a }\n\t\treturn a(applyFunction(c[0],a),x)\n\t}\n\n\tfunc applyFunction(a,fkt){\n\t\treturn fkt(a,a)\n\t}\n".toList

/-- the form returned by `srcApply` -/
def formApply : Factors := [⟨⟨false, "4180829326123184".toList⟩, 1⟩]

/-- the rows of `srcApply`, with the randomizer -/
def rowsApply1 : R1CS (List Int) :=
  ⟨[("1".toList, 0), ("x".toList, 1), ("2561673458792473".toList, 2), ("6616740472431544".toList, 3), ("8026749332931927".toList, 4), ("3697925430011511".toList, 5), ("4180829326123184".toList, 6), ("1@randomIn".toList, 7), ("1@randomOut".toList, 8)], [],
    [⟨[0, 2, 0, 0, 0, 0, 0, 0, 0], [1, 0, 0, 0, 0, 0, 0, 0, 0], [0, 0, 0, 0, 0, 0, 0, 0, 0], [0, 0, 1, 0, 0, 0, 0, 0, 0]⟩, ⟨[0, 1, 0, 0, 0, 0, 0, 0, 0], [0, 1, 0, 0, 0, 0, 0, 0, 0], [0, 0, 0, 0, 0, 0, 0, 0, 0], [0, 0, 0, 1, 0, 0, 0, 0, 0]⟩, ⟨[0, 0, 0, 1, 0, 0, 0, 0, 0], [0, 1, 0, 0, 0, 0, 0, 0, 0], [0, 0, 0, 0, 0, 0, 0, 0, 0], [0, 0, 0, 0, 1, 0, 0, 0, 0]⟩, ⟨[0, 0, 0, 0, 1, 0, 0, 0, 0], [0, 0, 0, 0, 1, 0, 0, 0, 0], [0, 0, 0, 0, 0, 0, 0, 0, 0], [0, 0, 0, 0, 0, 1, 0, 0, 0]⟩, ⟨[0, 0, 0, 0, 0, 1, 0, 0, 0], [0, 1, 0, 0, 0, 0, 0, 0, 0], [0, 0, 0, 0, 0, 0, 0, 0, 0], [0, 0, 0, 0, 0, 0, 1, 0, 0]⟩, ⟨[0, 0, 0, 0, 0, 0, 0, 1, 0], [0, 0, 0, 0, 0, 0, 0, 1, 0], [0, 0, 0, 0, 0, 0, 0, 1, 0], [0, 0, 0, 0, 0, 0, 0, 0, 1]⟩]⟩

/-- the rows of `srcApply`, without the randomizer -/
def rowsApply0 : R1CS (List Int) :=
  ⟨[("1".toList, 0), ("x".toList, 1), ("2561673458792473".toList, 2), ("6616740472431544".toList, 3), ("8026749332931927".toList, 4), ("3697925430011511".toList, 5), ("4180829326123184".toList, 6)], [],
    [⟨[0, 2, 0, 0, 0, 0, 0], [1, 0, 0, 0, 0, 0, 0], [0, 0, 0, 0, 0, 0, 0], [0, 0, 1, 0, 0, 0, 0]⟩, ⟨[0, 1, 0, 0, 0, 0, 0], [0, 1, 0, 0, 0, 0, 0], [0, 0, 0, 0, 0, 0, 0], [0, 0, 0, 1, 0, 0, 0]⟩, ⟨[0, 0, 0, 1, 0, 0, 0], [0, 1, 0, 0, 0, 0, 0], [0, 0, 0, 0, 0, 0, 0], [0, 0, 0, 0, 1, 0, 0]⟩, ⟨[0, 0, 0, 0, 1, 0, 0], [0, 0, 0, 0, 1, 0, 0], [0, 0, 0, 0, 0, 0, 0], [0, 0, 0, 0, 0, 1, 0]⟩, ⟨[0, 0, 0, 0, 0, 1, 0], [0, 1, 0, 0, 0, 0, 0], [0, 0, 0, 0, 0, 0, 0], [0, 0, 0, 0, 0, 0, 1]⟩]⟩

theorem runApply : compiled H0 Order 3000 600 60 srcApply = some (["1".toList], ["x".toList], formApply, rowsApply1, rowsApply0) := by decide +kernel

theorem rowsApply1_compute : RowsCompute ["x".toList] formApply rowsApply1 (fun v => v "x".toList ^ 7) := by
  have i0 : rowsApply1.index.get "x".toList = 1 := by decide +kernel
  have i1 : rowsApply1.index.get "4180829326123184".toList = 6 := by decide +kernel
  have hf : ∀ vs : List (ZMod Order), formVal (nameVal rowsApply1 vs) formApply = ((1 : Int) : ZMod Order) * vs.getD 6 0 := by
    intro vs
    simp only [formApply, formVal, factorVal, List.map_cons, List.map_nil, List.sum_cons, List.sum_nil, add_zero, nameVal, i0, i1, reduceIte, Bool.false_eq_true]
  constructor
  · intro gx hgx vs hl h1 hs
    rw [hf]
    match vs, hl with
    | [u0, u1, u2, u3, u4, u5, u6, u7, u8], _ =>
      obtain rfl : u0 = 1 := h1
      simp only [rowsApply1, SatV, List.forall_mem_cons, List.not_mem_nil, List.map_cons, List.map_nil, dotL, hgx, reduceIte, add_zero, zero_add, one_ne_zero, mul_zero, zero_mul, IsEmpty.forall_iff, implies_true, and_true, Int.reduceEq, Int.reduceNeg, OfNat.ofNat_ne_zero, OfNat.ofNat_ne_one, Int.cast_ofNat, Int.cast_one] at hs
      obtain ⟨rfl, rfl, rfl, rfl, rfl, rfl⟩ := hs
      simp only [nameVal, i0, List.getD_cons_succ, List.getD_cons_zero]
      push_cast
      ring
  · intro gx hgx vals
    obtain ⟨v2, h2⟩ : ∃ v, v = ((2 : ZMod Order) * vals "x".toList) * (1) := ⟨_, rfl⟩
    obtain ⟨v3, h3⟩ : ∃ v, v = (vals "x".toList) * (vals "x".toList) := ⟨_, rfl⟩
    obtain ⟨v4, h4⟩ : ∃ v, v = (v3) * (vals "x".toList) := ⟨_, rfl⟩
    obtain ⟨v5, h5⟩ : ∃ v, v = (v4) * (v4) := ⟨_, rfl⟩
    obtain ⟨v6, h6⟩ : ∃ v, v = (v5) * (vals "x".toList) := ⟨_, rfl⟩
    refine ⟨[1, vals "x".toList, v2, v3, v4, v5, v6, 0, 0], rfl, rfl, ?_, ?_, ?_⟩
    · simp only [nameVal, List.forall_mem_cons, i0, List.getD_cons_succ, List.getD_cons_zero, List.not_mem_nil, IsEmpty.forall_iff, implies_true, and_true]
    · simp only [rowsApply1, SatV, List.forall_mem_cons, List.not_mem_nil, List.map_cons, List.map_nil, dotL, hgx, reduceIte, add_zero, zero_add, one_ne_zero, mul_zero, zero_mul, IsEmpty.forall_iff, implies_true, and_true, Int.reduceEq, Int.reduceNeg, OfNat.ofNat_ne_zero, OfNat.ofNat_ne_one, Int.cast_ofNat, Int.cast_one]
      simp only [h2, h3, h4, h5, h6, mul_one, one_mul, and_self, true_and]
    · rw [hf]
      simp only [List.getD_cons_succ, List.getD_cons_zero, h2, h3, h4, h5, h6]
      push_cast
      ring

theorem rowsApply0_compute : RowsCompute ["x".toList] formApply rowsApply0 (fun v => v "x".toList ^ 7) := by
  have i0 : rowsApply0.index.get "x".toList = 1 := by decide +kernel
  have i1 : rowsApply0.index.get "4180829326123184".toList = 6 := by decide +kernel
  have hf : ∀ vs : List (ZMod Order), formVal (nameVal rowsApply0 vs) formApply = ((1 : Int) : ZMod Order) * vs.getD 6 0 := by
    intro vs
    simp only [formApply, formVal, factorVal, List.map_cons, List.map_nil, List.sum_cons, List.sum_nil, add_zero, nameVal, i0, i1, reduceIte, Bool.false_eq_true]
  constructor
  · intro gx hgx vs hl h1 hs
    rw [hf]
    match vs, hl with
    | [u0, u1, u2, u3, u4, u5, u6], _ =>
      obtain rfl : u0 = 1 := h1
      simp only [rowsApply0, SatV, List.forall_mem_cons, List.not_mem_nil, List.map_cons, List.map_nil, dotL, hgx, reduceIte, add_zero, zero_add, one_ne_zero, mul_zero, zero_mul, IsEmpty.forall_iff, implies_true, and_true, Int.reduceEq, Int.reduceNeg, OfNat.ofNat_ne_zero, OfNat.ofNat_ne_one, Int.cast_ofNat, Int.cast_one] at hs
      obtain ⟨rfl, rfl, rfl, rfl, rfl⟩ := hs
      simp only [nameVal, i0, List.getD_cons_succ, List.getD_cons_zero]
      push_cast
      ring
  · intro gx hgx vals
    obtain ⟨v2, h2⟩ : ∃ v, v = ((2 : ZMod Order) * vals "x".toList) * (1) := ⟨_, rfl⟩
    obtain ⟨v3, h3⟩ : ∃ v, v = (vals "x".toList) * (vals "x".toList) := ⟨_, rfl⟩
    obtain ⟨v4, h4⟩ : ∃ v, v = (v3) * (vals "x".toList) := ⟨_, rfl⟩
    obtain ⟨v5, h5⟩ : ∃ v, v = (v4) * (v4) := ⟨_, rfl⟩
    obtain ⟨v6, h6⟩ : ∃ v, v = (v5) * (vals "x".toList) := ⟨_, rfl⟩
    refine ⟨[1, vals "x".toList, v2, v3, v4, v5, v6], rfl, rfl, ?_, ?_, ?_⟩
    · simp only [nameVal, List.forall_mem_cons, i0, List.getD_cons_succ, List.getD_cons_zero, List.not_mem_nil, IsEmpty.forall_iff, implies_true, and_true]
    · simp only [rowsApply0, SatV, List.forall_mem_cons, List.not_mem_nil, List.map_cons, List.map_nil, dotL, hgx, reduceIte, add_zero, zero_add, one_ne_zero, mul_zero, zero_mul, IsEmpty.forall_iff, implies_true, and_true, Int.reduceEq, Int.reduceNeg, OfNat.ofNat_ne_zero, OfNat.ofNat_ne_one, Int.cast_ofNat, Int.cast_one]
      simp only [h2, h3, h4, h5, h6, mul_one, one_mul, and_self, true_and]
    · rw [hf]
      simp only [List.getD_cons_succ, List.getD_cons_zero, h2, h3, h4, h5, h6]
      push_cast
      ring

/-- C106: functions in an array and as arguments (codes.go:397-409): x⁷. -/
theorem C106_apply : Computes srcApply (fun v => v "x".toList ^ 7) := computes_text runApply rowsApply1_compute rowsApply0_compute

/-- testPrograms/codes.go:430-461 -/
def srcBranch : List Char := "\n\tfunc main(x,z,w) {\n\t\tif ( (4*7) == 28){\n\t\t\tx=x*x\n\t\t}else{\n\t\t\tx=z*z\n\t\t}\n\t\tvar arra[]={x,1,2,3}\n\t\tvar mul = func(a,b){\n\t\t\treturn x*b*7\n\t\t}\n\t\tvar a =1\n\t\tvar c = w\n\t\t\n\t\tfor( a<3;a=a+1){\n\t\t\tvar b = 3\n\t\t\tfor( b<4;b=b+2){\n\t\t\t\tc = mul(c,c)\n\t\t\t}\t\t\t\t\n\t\t}\n\n\t\t#arra[2]=3\n\t\tvar k = mul(z,z)\n\t\tvar l = k*k\n\t\treturn l*(k*arra[2])*x*x\n\t}\n\n\tfunc mul(a,b){\n\treturn a*b\n\t}\n\t\n".toList

/-- the form returned by `srcBranch` -/
def formBranch : Factors := [⟨⟨false, "5780108580796740".toList⟩, 686⟩]

/-- the rows of `srcBranch`, with the randomizer -/
def rowsBranch1 : R1CS (List Int) :=
  ⟨[("1".toList, 0), ("x".toList, 1), ("z".toList, 2), ("w".toList, 3), ("6616740472431544".toList, 4), ("3371334080764361".toList, 5), ("2912689939191539".toList, 6), ("5491139653411470".toList, 7), ("3373437376374056".toList, 8), ("2779603121790171".toList, 9), ("2940358648928304".toList, 10), ("7164964387814394".toList, 11), ("3375540671983751".toList, 12), ("6278597665358167".toList, 13), ("5780108580796740".toList, 14), ("6170997843343612".toList, 15), ("1@randomIn".toList, 16), ("1@randomOut".toList, 17)], [],
    [⟨[0, 1, 0, 0, 0, 0, 0, 0, 0, 0, 0, 0, 0, 0, 0, 0, 0, 0], [0, 1, 0, 0, 0, 0, 0, 0, 0, 0, 0, 0, 0, 0, 0, 0, 0, 0], [0, 0, 0, 0, 0, 0, 0, 0, 0, 0, 0, 0, 0, 0, 0, 0, 0, 0], [0, 0, 0, 0, 1, 0, 0, 0, 0, 0, 0, 0, 0, 0, 0, 0, 0, 0]⟩, ⟨[0, 0, 1, 0, 0, 0, 0, 0, 0, 0, 0, 0, 0, 0, 0, 0, 0, 0], [0, 0, 1, 0, 0, 0, 0, 0, 0, 0, 0, 0, 0, 0, 0, 0, 0, 0], [0, 0, 0, 0, 0, 0, 0, 0, 0, 0, 0, 0, 0, 0, 0, 0, 0, 0], [0, 0, 0, 0, 0, 1, 0, 0, 0, 0, 0, 0, 0, 0, 0, 0, 0, 0]⟩, ⟨[0, 0, 0, 0, 0, 1, 0, 0, 0, 0, 0, 0, 0, 0, 0, 0, 0, 0], [0, 0, 0, 1, 0, 0, 0, 0, 0, 0, 0, 0, 0, 0, 0, 0, 0, 0], [0, 0, 0, 0, 0, 0, 0, 0, 0, 0, 0, 0, 0, 0, 0, 0, 0, 0], [0, 0, 0, 0, 0, 0, 1, 0, 0, 0, 0, 0, 0, 0, 0, 0, 0, 0]⟩, ⟨[0, 0, 0, 0, 0, 1, 0, 0, 0, 0, 0, 0, 0, 0, 0, 0, 0, 0], [0, 0, 0, 0, 0, 0, 1, 0, 0, 0, 0, 0, 0, 0, 0, 0, 0, 0], [0, 0, 0, 0, 0, 0, 0, 0, 0, 0, 0, 0, 0, 0, 0, 0, 0, 0], [0, 0, 0, 0, 0, 0, 0, 1, 0, 0, 0, 0, 0, 0, 0, 0, 0, 0]⟩, ⟨[0, 0, 0, 0, 0, 1, 0, 0, 0, 0, 0, 0, 0, 0, 0, 0, 0, 0], [0, 0, 1, 0, 0, 0, 0, 0, 0, 0, 0, 0, 0, 0, 0, 0, 0, 0], [0, 0, 0, 0, 0, 0, 0, 0, 0, 0, 0, 0, 0, 0, 0, 0, 0, 0], [0, 0, 0, 0, 0, 0, 0, 0, 1, 0, 0, 0, 0, 0, 0, 0, 0, 0]⟩, ⟨[0, 0, 0, 0, 0, 0, 0, 0, 7, 0, 0, 0, 0, 0, 0, 0, 0, 0], [1, 0, 0, 0, 0, 0, 0, 0, 0, 0, 0, 0, 0, 0, 0, 0, 0, 0], [0, 0, 0, 0, 0, 0, 0, 0, 0, 0, 0, 0, 0, 0, 0, 0, 0, 0], [0, 0, 0, 0, 0, 0, 0, 0, 0, 1, 0, 0, 0, 0, 0, 0, 0, 0]⟩, ⟨[0, 0, 0, 0, 0, 0, 0, 0, 1, 0, 0, 0, 0, 0, 0, 0, 0, 0], [0, 0, 0, 0, 0, 0, 0, 0, 1, 0, 0, 0, 0, 0, 0, 0, 0, 0], [0, 0, 0, 0, 0, 0, 0, 0, 0, 0, 0, 0, 0, 0, 0, 0, 0, 0], [0, 0, 0, 0, 0, 0, 0, 0, 0, 0, 1, 0, 0, 0, 0, 0, 0, 0]⟩, ⟨[0, 0, 0, 0, 0, 0, 0, 0, 0, 0, 49, 0, 0, 0, 0, 0, 0, 0], [1, 0, 0, 0, 0, 0, 0, 0, 0, 0, 0, 0, 0, 0, 0, 0, 0, 0], [0, 0, 0, 0, 0, 0, 0, 0, 0, 0, 0, 0, 0, 0, 0, 0, 0, 0], [0, 0, 0, 0, 0, 0, 0, 0, 0, 0, 0, 1, 0, 0, 0, 0, 0, 0]⟩, ⟨[0, 0, 0, 0, 0, 1, 0, 0, 0, 0, 0, 0, 0, 0, 0, 0, 0, 0], [0, 0, 0, 0, 0, 1, 0, 0, 0, 0, 0, 0, 0, 0, 0, 0, 0, 0], [0, 0, 0, 0, 0, 0, 0, 0, 0, 0, 0, 0, 0, 0, 0, 0, 0, 0], [0, 0, 0, 0, 0, 0, 0, 0, 0, 0, 0, 0, 1, 0, 0, 0, 0, 0]⟩, ⟨[0, 0, 0, 0, 0, 0, 0, 0, 1, 0, 0, 0, 0, 0, 0, 0, 0, 0], [0, 0, 0, 0, 0, 0, 0, 0, 0, 0, 0, 0, 1, 0, 0, 0, 0, 0], [0, 0, 0, 0, 0, 0, 0, 0, 0, 0, 0, 0, 0, 0, 0, 0, 0, 0], [0, 0, 0, 0, 0, 0, 0, 0, 0, 0, 0, 0, 0, 1, 0, 0, 0, 0]⟩, ⟨[0, 0, 0, 0, 0, 0, 0, 0, 0, 0, 1, 0, 0, 0, 0, 0, 0, 0], [0, 0, 0, 0, 0, 0, 0, 0, 0, 0, 0, 0, 0, 1, 0, 0, 0, 0], [0, 0, 0, 0, 0, 0, 0, 0, 0, 0, 0, 0, 0, 0, 0, 0, 0, 0], [0, 0, 0, 0, 0, 0, 0, 0, 0, 0, 0, 0, 0, 0, 1, 0, 0, 0]⟩, ⟨[0, 0, 0, 0, 0, 0, 0, 0, 0, 0, 0, 0, 0, 0, 686, 0, 0, 0], [1, 0, 0, 0, 0, 0, 0, 0, 0, 0, 0, 0, 0, 0, 0, 0, 0, 0], [0, 0, 0, 0, 0, 0, 0, 0, 0, 0, 0, 0, 0, 0, 0, 0, 0, 0], [0, 0, 0, 0, 0, 0, 0, 0, 0, 0, 0, 0, 0, 0, 0, 1, 0, 0]⟩, ⟨[0, 0, 0, 0, 0, 0, 0, 0, 0, 0, 0, 0, 0, 0, 0, 0, 1, 0], [0, 0, 0, 0, 0, 0, 0, 0, 0, 0, 0, 0, 0, 0, 0, 0, 1, 0], [0, 0, 0, 0, 0, 0, 0, 0, 0, 0, 0, 0, 0, 0, 0, 0, 1, 0], [0, 0, 0, 0, 0, 0, 0, 0, 0, 0, 0, 0, 0, 0, 0, 0, 0, 1]⟩]⟩

/-- the rows of `srcBranch`, without the randomizer -/
def rowsBranch0 : R1CS (List Int) :=
  ⟨[("1".toList, 0), ("x".toList, 1), ("z".toList, 2), ("w".toList, 3), ("6616740472431544".toList, 4), ("3371334080764361".toList, 5), ("2912689939191539".toList, 6), ("5491139653411470".toList, 7), ("3373437376374056".toList, 8), ("2779603121790171".toList, 9), ("2940358648928304".toList, 10), ("7164964387814394".toList, 11), ("3375540671983751".toList, 12), ("6278597665358167".toList, 13), ("5780108580796740".toList, 14), ("6170997843343612".toList, 15)], [],
    [⟨[0, 1, 0, 0, 0, 0, 0, 0, 0, 0, 0, 0, 0, 0, 0, 0], [0, 1, 0, 0, 0, 0, 0, 0, 0, 0, 0, 0, 0, 0, 0, 0], [0, 0, 0, 0, 0, 0, 0, 0, 0, 0, 0, 0, 0, 0, 0, 0], [0, 0, 0, 0, 1, 0, 0, 0, 0, 0, 0, 0, 0, 0, 0, 0]⟩, ⟨[0, 0, 1, 0, 0, 0, 0, 0, 0, 0, 0, 0, 0, 0, 0, 0], [0, 0, 1, 0, 0, 0, 0, 0, 0, 0, 0, 0, 0, 0, 0, 0], [0, 0, 0, 0, 0, 0, 0, 0, 0, 0, 0, 0, 0, 0, 0, 0], [0, 0, 0, 0, 0, 1, 0, 0, 0, 0, 0, 0, 0, 0, 0, 0]⟩, ⟨[0, 0, 0, 0, 0, 1, 0, 0, 0, 0, 0, 0, 0, 0, 0, 0], [0, 0, 0, 1, 0, 0, 0, 0, 0, 0, 0, 0, 0, 0, 0, 0], [0, 0, 0, 0, 0, 0, 0, 0, 0, 0, 0, 0, 0, 0, 0, 0], [0, 0, 0, 0, 0, 0, 1, 0, 0, 0, 0, 0, 0, 0, 0, 0]⟩, ⟨[0, 0, 0, 0, 0, 1, 0, 0, 0, 0, 0, 0, 0, 0, 0, 0], [0, 0, 0, 0, 0, 0, 1, 0, 0, 0, 0, 0, 0, 0, 0, 0], [0, 0, 0, 0, 0, 0, 0, 0, 0, 0, 0, 0, 0, 0, 0, 0], [0, 0, 0, 0, 0, 0, 0, 1, 0, 0, 0, 0, 0, 0, 0, 0]⟩, ⟨[0, 0, 0, 0, 0, 1, 0, 0, 0, 0, 0, 0, 0, 0, 0, 0], [0, 0, 1, 0, 0, 0, 0, 0, 0, 0, 0, 0, 0, 0, 0, 0], [0, 0, 0, 0, 0, 0, 0, 0, 0, 0, 0, 0, 0, 0, 0, 0], [0, 0, 0, 0, 0, 0, 0, 0, 1, 0, 0, 0, 0, 0, 0, 0]⟩, ⟨[0, 0, 0, 0, 0, 0, 0, 0, 7, 0, 0, 0, 0, 0, 0, 0], [1, 0, 0, 0, 0, 0, 0, 0, 0, 0, 0, 0, 0, 0, 0, 0], [0, 0, 0, 0, 0, 0, 0, 0, 0, 0, 0, 0, 0, 0, 0, 0], [0, 0, 0, 0, 0, 0, 0, 0, 0, 1, 0, 0, 0, 0, 0, 0]⟩, ⟨[0, 0, 0, 0, 0, 0, 0, 0, 1, 0, 0, 0, 0, 0, 0, 0], [0, 0, 0, 0, 0, 0, 0, 0, 1, 0, 0, 0, 0, 0, 0, 0], [0, 0, 0, 0, 0, 0, 0, 0, 0, 0, 0, 0, 0, 0, 0, 0], [0, 0, 0, 0, 0, 0, 0, 0, 0, 0, 1, 0, 0, 0, 0, 0]⟩, ⟨[0, 0, 0, 0, 0, 0, 0, 0, 0, 0, 49, 0, 0, 0, 0, 0], [1, 0, 0, 0, 0, 0, 0, 0, 0, 0, 0, 0, 0, 0, 0, 0], [0, 0, 0, 0, 0, 0, 0, 0, 0, 0, 0, 0, 0, 0, 0, 0], [0, 0, 0, 0, 0, 0, 0, 0, 0, 0, 0, 1, 0, 0, 0, 0]⟩, ⟨[0, 0, 0, 0, 0, 1, 0, 0, 0, 0, 0, 0, 0, 0, 0, 0], [0, 0, 0, 0, 0, 1, 0, 0, 0, 0, 0, 0, 0, 0, 0, 0], [0, 0, 0, 0, 0, 0, 0, 0, 0, 0, 0, 0, 0, 0, 0, 0], [0, 0, 0, 0, 0, 0, 0, 0, 0, 0, 0, 0, 1, 0, 0, 0]⟩, ⟨[0, 0, 0, 0, 0, 0, 0, 0, 1, 0, 0, 0, 0, 0, 0, 0], [0, 0, 0, 0, 0, 0, 0, 0, 0, 0, 0, 0, 1, 0, 0, 0], [0, 0, 0, 0, 0, 0, 0, 0, 0, 0, 0, 0, 0, 0, 0, 0], [0, 0, 0, 0, 0, 0, 0, 0, 0, 0, 0, 0, 0, 1, 0, 0]⟩, ⟨[0, 0, 0, 0, 0, 0, 0, 0, 0, 0, 1, 0, 0, 0, 0, 0], [0, 0, 0, 0, 0, 0, 0, 0, 0, 0, 0, 0, 0, 1, 0, 0], [0, 0, 0, 0, 0, 0, 0, 0, 0, 0, 0, 0, 0, 0, 0, 0], [0, 0, 0, 0, 0, 0, 0, 0, 0, 0, 0, 0, 0, 0, 1, 0]⟩, ⟨[0, 0, 0, 0, 0, 0, 0, 0, 0, 0, 0, 0, 0, 0, 686, 0], [1, 0, 0, 0, 0, 0, 0, 0, 0, 0, 0, 0, 0, 0, 0, 0], [0, 0, 0, 0, 0, 0, 0, 0, 0, 0, 0, 0, 0, 0, 0, 0], [0, 0, 0, 0, 0, 0, 0, 0, 0, 0, 0, 0, 0, 0, 0, 1]⟩]⟩

theorem runBranch : compiled H0 Order 3000 600 60 srcBranch = some (["1".toList], ["x".toList, "z".toList, "w".toList], formBranch, rowsBranch1, rowsBranch0) := by decide +kernel

theorem rowsBranch1_compute : RowsCompute ["x".toList, "z".toList, "w".toList] formBranch rowsBranch1 (fun v => 686 * v "z".toList ^ 13) := by
  have i0 : rowsBranch1.index.get "x".toList = 1 := by decide +kernel
  have i1 : rowsBranch1.index.get "z".toList = 2 := by decide +kernel
  have i2 : rowsBranch1.index.get "w".toList = 3 := by decide +kernel
  have i3 : rowsBranch1.index.get "5780108580796740".toList = 14 := by decide +kernel
  have hf : ∀ vs : List (ZMod Order), formVal (nameVal rowsBranch1 vs) formBranch = ((686 : Int) : ZMod Order) * vs.getD 14 0 := by
    intro vs
    simp only [formBranch, formVal, factorVal, List.map_cons, List.map_nil, List.sum_cons, List.sum_nil, add_zero, nameVal, i0, i1, i2, i3, reduceIte, Bool.false_eq_true]
  constructor
  · intro gx hgx vs hl h1 hs
    rw [hf]
    match vs, hl with
    | [u0, u1, u2, u3, u4, u5, u6, u7, u8, u9, u10, u11, u12, u13, u14, u15, u16, u17], _ =>
      obtain rfl : u0 = 1 := h1
      simp only [rowsBranch1, SatV, List.forall_mem_cons, List.not_mem_nil, List.map_cons, List.map_nil, dotL, hgx, reduceIte, add_zero, zero_add, one_ne_zero, mul_zero, zero_mul, IsEmpty.forall_iff, implies_true, and_true, Int.reduceEq, Int.reduceNeg, OfNat.ofNat_ne_zero, OfNat.ofNat_ne_one, Int.cast_ofNat, Int.cast_one] at hs
      obtain ⟨rfl, rfl, rfl, rfl, rfl, rfl, rfl, rfl, rfl, rfl, rfl, rfl, rfl⟩ := hs
      simp only [nameVal, i0, i1, i2, List.getD_cons_succ, List.getD_cons_zero]
      push_cast
      ring
  · intro gx hgx vals
    obtain ⟨v4, h4⟩ : ∃ v, v = (vals "x".toList) * (vals "x".toList) := ⟨_, rfl⟩
    obtain ⟨v5, h5⟩ : ∃ v, v = (vals "z".toList) * (vals "z".toList) := ⟨_, rfl⟩
    obtain ⟨v6, h6⟩ : ∃ v, v = (v5) * (vals "w".toList) := ⟨_, rfl⟩
    obtain ⟨v7, h7⟩ : ∃ v, v = (v5) * (v6) := ⟨_, rfl⟩
    obtain ⟨v8, h8⟩ : ∃ v, v = (v5) * (vals "z".toList) := ⟨_, rfl⟩
    obtain ⟨v9, h9⟩ : ∃ v, v = ((7 : ZMod Order) * v8) * (1) := ⟨_, rfl⟩
    obtain ⟨v10, h10⟩ : ∃ v, v = (v8) * (v8) := ⟨_, rfl⟩
    obtain ⟨v11, h11⟩ : ∃ v, v = ((49 : ZMod Order) * v10) * (1) := ⟨_, rfl⟩
    obtain ⟨v12, h12⟩ : ∃ v, v = (v5) * (v5) := ⟨_, rfl⟩
    obtain ⟨v13, h13⟩ : ∃ v, v = (v8) * (v12) := ⟨_, rfl⟩
    obtain ⟨v14, h14⟩ : ∃ v, v = (v10) * (v13) := ⟨_, rfl⟩
    obtain ⟨v15, h15⟩ : ∃ v, v = ((686 : ZMod Order) * v14) * (1) := ⟨_, rfl⟩
    refine ⟨[1, vals "x".toList, vals "z".toList, vals "w".toList, v4, v5, v6, v7, v8, v9, v10, v11, v12, v13, v14, v15, 0, 0], rfl, rfl, ?_, ?_, ?_⟩
    · simp only [nameVal, List.forall_mem_cons, i0, i1, i2, List.getD_cons_succ, List.getD_cons_zero, List.not_mem_nil, IsEmpty.forall_iff, implies_true, and_true]
    · simp only [rowsBranch1, SatV, List.forall_mem_cons, List.not_mem_nil, List.map_cons, List.map_nil, dotL, hgx, reduceIte, add_zero, zero_add, one_ne_zero, mul_zero, zero_mul, IsEmpty.forall_iff, implies_true, and_true, Int.reduceEq, Int.reduceNeg, OfNat.ofNat_ne_zero, OfNat.ofNat_ne_one, Int.cast_ofNat, Int.cast_one]
      simp only [h4, h5, h6, h7, h8, h9, h10, h11, h12, h13, h14, h15, mul_one, one_mul, and_self, true_and]
    · rw [hf]
      simp only [List.getD_cons_succ, List.getD_cons_zero, h4, h5, h6, h7, h8, h9, h10, h11, h12, h13, h14, h15]
      push_cast
      ring

theorem rowsBranch0_compute : RowsCompute ["x".toList, "z".toList, "w".toList] formBranch rowsBranch0 (fun v => 686 * v "z".toList ^ 13) := by
  have i0 : rowsBranch0.index.get "x".toList = 1 := by decide +kernel
  have i1 : rowsBranch0.index.get "z".toList = 2 := by decide +kernel
  have i2 : rowsBranch0.index.get "w".toList = 3 := by decide +kernel
  have i3 : rowsBranch0.index.get "5780108580796740".toList = 14 := by decide +kernel
  have hf : ∀ vs : List (ZMod Order), formVal (nameVal rowsBranch0 vs) formBranch = ((686 : Int) : ZMod Order) * vs.getD 14 0 := by
    intro vs
    simp only [formBranch, formVal, factorVal, List.map_cons, List.map_nil, List.sum_cons, List.sum_nil, add_zero, nameVal, i0, i1, i2, i3, reduceIte, Bool.false_eq_true]
  constructor
  · intro gx hgx vs hl h1 hs
    rw [hf]
    match vs, hl with
    | [u0, u1, u2, u3, u4, u5, u6, u7, u8, u9, u10, u11, u12, u13, u14, u15], _ =>
      obtain rfl : u0 = 1 := h1
      simp only [rowsBranch0, SatV, List.forall_mem_cons, List.not_mem_nil, List.map_cons, List.map_nil, dotL, hgx, reduceIte, add_zero, zero_add, one_ne_zero, mul_zero, zero_mul, IsEmpty.forall_iff, implies_true, and_true, Int.reduceEq, Int.reduceNeg, OfNat.ofNat_ne_zero, OfNat.ofNat_ne_one, Int.cast_ofNat, Int.cast_one] at hs
      obtain ⟨rfl, rfl, rfl, rfl, rfl, rfl, rfl, rfl, rfl, rfl, rfl, rfl⟩ := hs
      simp only [nameVal, i0, i1, i2, List.getD_cons_succ, List.getD_cons_zero]
      push_cast
      ring
  · intro gx hgx vals
    obtain ⟨v4, h4⟩ : ∃ v, v = (vals "x".toList) * (vals "x".toList) := ⟨_, rfl⟩
    obtain ⟨v5, h5⟩ : ∃ v, v = (vals "z".toList) * (vals "z".toList) := ⟨_, rfl⟩
    obtain ⟨v6, h6⟩ : ∃ v, v = (v5) * (vals "w".toList) := ⟨_, rfl⟩
    obtain ⟨v7, h7⟩ : ∃ v, v = (v5) * (v6) := ⟨_, rfl⟩
    obtain ⟨v8, h8⟩ : ∃ v, v = (v5) * (vals "z".toList) := ⟨_, rfl⟩
    obtain ⟨v9, h9⟩ : ∃ v, v = ((7 : ZMod Order) * v8) * (1) := ⟨_, rfl⟩
    obtain ⟨v10, h10⟩ : ∃ v, v = (v8) * (v8) := ⟨_, rfl⟩
    obtain ⟨v11, h11⟩ : ∃ v, v = ((49 : ZMod Order) * v10) * (1) := ⟨_, rfl⟩
    obtain ⟨v12, h12⟩ : ∃ v, v = (v5) * (v5) := ⟨_, rfl⟩
    obtain ⟨v13, h13⟩ : ∃ v, v = (v8) * (v12) := ⟨_, rfl⟩
    obtain ⟨v14, h14⟩ : ∃ v, v = (v10) * (v13) := ⟨_, rfl⟩
    obtain ⟨v15, h15⟩ : ∃ v, v = ((686 : ZMod Order) * v14) * (1) := ⟨_, rfl⟩
    refine ⟨[1, vals "x".toList, vals "z".toList, vals "w".toList, v4, v5, v6, v7, v8, v9, v10, v11, v12, v13, v14, v15], rfl, rfl, ?_, ?_, ?_⟩
    · simp only [nameVal, List.forall_mem_cons, i0, i1, i2, List.getD_cons_succ, List.getD_cons_zero, List.not_mem_nil, IsEmpty.forall_iff, implies_true, and_true]
    · simp only [rowsBranch0, SatV, List.forall_mem_cons, List.not_mem_nil, List.map_cons, List.map_nil, dotL, hgx, reduceIte, add_zero, zero_add, one_ne_zero, mul_zero, zero_mul, IsEmpty.forall_iff, implies_true, and_true, Int.reduceEq, Int.reduceNeg, OfNat.ofNat_ne_zero, OfNat.ofNat_ne_one, Int.cast_ofNat, Int.cast_one]
      simp only [h4, h5, h6, h7, h8, h9, h10, h11, h12, h13, h14, h15, mul_one, one_mul, and_self, true_and]
    · rw [hf]
      simp only [List.getD_cons_succ, List.getD_cons_zero, h4, h5, h6, h7, h8, h9, h10, h11, h12, h13, h14, h15]
      push_cast
      ring

/-- C83: branches, nested loops and closures (codes.go:430-461): both branches are executed, so the result is 686 z¹³. -/
theorem C83_repo : Computes srcBranch (fun v => 686 * v "z".toList ^ 13) := computes_text runBranch rowsBranch1_compute rowsBranch0_compute

/-- C106: a recursive closure over a parameter, global variables and division of constants (codes.go:371-391): x⁸ / (123·7). -/
theorem C106_closure : Computes srcClosure (fun v => (123 * 7)⁻¹ * v "x".toList ^ 8) := by
  have e : (123 * 7 : ZMod Order)⁻¹ = 1804953825668511661764802332071157411483082314087733377935624270902302442728 :=
    ZMod.inv_eq_of_mul_eq_one _ _ _ (by decide +kernel)
  rw [e]
  exact closure_literal

/-- C83 is FALSE also for the repository: the test program codes.go:430-461 does NOT compute what its branches say, 686 x¹⁰ z³: the `else` branch is executed after the first one. -/
theorem C83_repo_refuted : ¬ Computes srcBranch (fun v => 686 * v "x".toList ^ 10 * v "z".toList ^ 3) := by
  intro h
  obtain ⟨pubs, ins, f, w, r, hc⟩ := h.exist false
  have hins : ins = ["x".toList, "z".toList, "w".toList] := (compiled_only runBranch hc).2.1
  obtain ⟨u, a1, a2, a3, a4, a5⟩ := h.complete false _ _ _ _ _ hc (fun _ => 0) rfl (fun n => if n = "z".toList then 1 else 0)
  have b := C83_repo.sound false _ _ _ _ _ hc (fun _ => 0) rfl u a1 a2 a4
  rw [a5] at b
  have hz : valsOf Order r.index u "z".toList = 1 := by
    have := a3 "z".toList (by rw [hins]; decide +kernel)
    rw [if_pos rfl] at this
    exact this
  rw [hz] at b
  revert b
  decide +kernel

end Repo
end APS.Prog
