import Verif.Props.RepoRows

/-!
C106, a relation between inputs: test programs of the repository (testPrograms/codes.go) with recursion, closures, functions as values, globals, `addGateConstraint`,
`scalarBaseMultiply` and `equal`, taken over character by character.  The rows of each text are computed once, by the kernel; a text compiles in one way
only (`compiled_only`), and the statements are then proved about these rows, for ALL inputs and all witnesses.
-/
namespace APS.Prog
open APS.Circuit hiding execute compile Prog
open APS.Pairing (Order)
open APS.Spec hiding Err

set_option linter.unusedSimpArgs false
namespace Repo

/-- testPrograms/codes.go:416-423 -/
def srcKeys : List Char := "\n\tfunc main(publicKey, privateKey){\n\t\tvar pub = scalarBaseMultiply(privateKey)\n\t\tequal(pub,publicKey)\n\t\tequal(publicKey,pub)\n\treturn\n}\n".toList

/-- the rows of `srcKeys`, with the randomizer -/
def rowsKeys1 : R1CS (List Int) :=
  ⟨[("1".toList, 0), ("publicKey".toList, 1), ("privateKey".toList, 2), ("5179837316859155".toList, 3), ("1@randomIn".toList, 4), ("1@randomOut".toList, 5)], [],
    [⟨[0, 0, 0, 0, 0, 0], [0, 0, 0, 0, 0, 0], [0, 0, 1, 0, 0, 0], [0, 0, 0, 1, 0, 0]⟩, ⟨[0, 0, 0, 1, 0, 0], [1, 0, 0, 0, 0, 0], [0, 0, 0, 0, 0, 0], [0, 1, 0, 0, 0, 0]⟩, ⟨[0, 0, 0, 0, 1, 0], [0, 0, 0, 0, 1, 0], [0, 0, 0, 0, 1, 0], [0, 0, 0, 0, 0, 1]⟩]⟩

/-- the rows of `srcKeys`, without the randomizer -/
def rowsKeys0 : R1CS (List Int) :=
  ⟨[("1".toList, 0), ("publicKey".toList, 1), ("privateKey".toList, 2), ("5179837316859155".toList, 3)], [],
    [⟨[0, 0, 0, 0], [0, 0, 0, 0], [0, 0, 1, 0], [0, 0, 0, 1]⟩, ⟨[0, 0, 0, 1], [1, 0, 0, 0], [0, 0, 0, 0], [0, 1, 0, 0]⟩]⟩

theorem runKeys : compiled H0 Order 3000 600 60 srcKeys = some (["1".toList], ["publicKey".toList, "privateKey".toList], [⟨⟨true, "".toList⟩, 1⟩], rowsKeys1, rowsKeys0) := by decide +kernel

theorem rowsKeys1_check : RowsCheck ["publicKey".toList, "privateKey".toList] rowsKeys1 (fun gx v => v "publicKey".toList = gx (v "privateKey".toList)) := by
  have i0 : rowsKeys1.index.get "publicKey".toList = 1 := by decide +kernel
  have i1 : rowsKeys1.index.get "privateKey".toList = 2 := by decide +kernel
  constructor
  · intro gx hgx vs hl h1 hs
    match vs, hl with
    | [u0, u1, u2, u3, u4, u5], _ =>
      obtain rfl : u0 = 1 := h1
      simp only [rowsKeys1, SatV, List.forall_mem_cons, List.not_mem_nil, List.map_cons, List.map_nil, dotL, hgx, reduceIte, add_zero, zero_add, one_ne_zero, mul_zero, zero_mul, IsEmpty.forall_iff, implies_true, and_true, Int.reduceEq, Int.reduceNeg, OfNat.ofNat_ne_zero, OfNat.ofNat_ne_one, Int.cast_ofNat, Int.cast_one, mul_one] at hs
      simp only [nameVal, i0, i1, List.getD_cons_succ, List.getD_cons_zero]
      rw [← hs.2.1, ← hs.1]
  · intro gx hgx vals hrel
    refine ⟨[1, vals "publicKey".toList, vals "privateKey".toList, gx (vals "privateKey".toList), 0, 0], rfl, rfl, ?_, ?_⟩
    · simp only [nameVal, List.forall_mem_cons, i0, i1, List.getD_cons_succ, List.getD_cons_zero, List.not_mem_nil, IsEmpty.forall_iff, implies_true, and_true]
    · simp only [rowsKeys1, SatV, List.forall_mem_cons, List.not_mem_nil, List.map_cons, List.map_nil, dotL, hgx, reduceIte, add_zero, zero_add, one_ne_zero, mul_zero, zero_mul, IsEmpty.forall_iff, implies_true, and_true, Int.reduceEq, Int.reduceNeg, OfNat.ofNat_ne_zero, OfNat.ofNat_ne_one, Int.cast_ofNat, Int.cast_one, mul_one, hrel, true_and]

theorem rowsKeys0_check : RowsCheck ["publicKey".toList, "privateKey".toList] rowsKeys0 (fun gx v => v "publicKey".toList = gx (v "privateKey".toList)) := by
  have i0 : rowsKeys0.index.get "publicKey".toList = 1 := by decide +kernel
  have i1 : rowsKeys0.index.get "privateKey".toList = 2 := by decide +kernel
  constructor
  · intro gx hgx vs hl h1 hs
    match vs, hl with
    | [u0, u1, u2, u3], _ =>
      obtain rfl : u0 = 1 := h1
      simp only [rowsKeys0, SatV, List.forall_mem_cons, List.not_mem_nil, List.map_cons, List.map_nil, dotL, hgx, reduceIte, add_zero, zero_add, one_ne_zero, mul_zero, zero_mul, IsEmpty.forall_iff, implies_true, and_true, Int.reduceEq, Int.reduceNeg, OfNat.ofNat_ne_zero, OfNat.ofNat_ne_one, Int.cast_ofNat, Int.cast_one, mul_one] at hs
      simp only [nameVal, i0, i1, List.getD_cons_succ, List.getD_cons_zero]
      rw [← hs.2, ← hs.1]
  · intro gx hgx vals hrel
    refine ⟨[1, vals "publicKey".toList, vals "privateKey".toList, gx (vals "privateKey".toList)], rfl, rfl, ?_, ?_⟩
    · simp only [nameVal, List.forall_mem_cons, i0, i1, List.getD_cons_succ, List.getD_cons_zero, List.not_mem_nil, IsEmpty.forall_iff, implies_true, and_true]
    · simp only [rowsKeys0, SatV, List.forall_mem_cons, List.not_mem_nil, List.map_cons, List.map_nil, dotL, hgx, reduceIte, add_zero, zero_add, one_ne_zero, mul_zero, zero_mul, IsEmpty.forall_iff, implies_true, and_true, Int.reduceEq, Int.reduceNeg, OfNat.ofNat_ne_zero, OfNat.ofNat_ne_one, Int.cast_ofNat, Int.cast_one, mul_one, hrel, true_and]

/-- C106: ownership of a key (codes.go:416-423): the rows can be satisfied exactly for the inputs where the public key is the X coordinate of the private key
times the generator. -/
theorem C106_keys : Checks srcKeys (fun gx v => v "publicKey".toList = gx (v "privateKey".toList)) := checks_text runKeys rowsKeys1_check rowsKeys0_check

end Repo
end APS.Prog
