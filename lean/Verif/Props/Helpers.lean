import Verif.Proofs.Dense
import Verif.Props.Ate
import Verif.Props.Circuit

/-! C107: comparison of arrays.  Further: the constants of GT (C76) and the unused scaling of a linear form (C28). -/
namespace APS
open APS.Spec APS.Pairing

/-- C107: `BigArraysEqual` decides equality: same length and same entry at every index. -/
theorem C107_arrays_equal (a b : List Int) :
    Dense.bigArraysEqual a b = true ↔ a.length = b.length ∧ ∀ i < a.length, a[i]? = b[i]? := by
  have key : Dense.bigArraysEqual a b = true ↔ a = b := by
    unfold Dense.bigArraysEqual
    induction a generalizing b with
    | nil => cases b <;> simp
    | cons x a ih =>
      cases b with
      | nil => simp
      | cons y b =>
        have := ih b
        by_cases h : a.length = b.length
        · rw [if_neg (by simpa using h)] at this
          rw [if_neg (by simpa using h), List.zip_cons_cons, List.all_cons, Bool.and_eq_true, this]
          simp
        · rw [if_pos (by simpa using h)]
          simp only [Bool.false_eq_true, false_iff, List.cons.injEq, not_and]
          rintro - rfl
          exact h rfl
  rw [key]
  constructor
  · rintro rfl
    exact ⟨rfl, fun _ _ => rfl⟩
  · rintro ⟨h, e⟩
    refine List.ext_getElem? fun i => ?_
    by_cases hi : i < a.length
    · exact e i hi
    · rw [List.getElem?_eq_none (by omega), List.getElem?_eq_none (by omega)]

/-- C107: `IsZeroArray` decides whether all entries are 0. -/
theorem C107_zero_array (a : List Int) : Dense.isZeroArray a = true ↔ ∀ i < a.length, a[i]? = some 0 := by
  unfold Dense.isZeroArray
  rw [List.all_eq_true]
  constructor
  · intro h i hi
    have := h a[i] (List.getElem_mem hi)
    rw [List.getElem?_eq_getElem hi, beq_iff_eq.mp this]
  · intro h x hx
    obtain ⟨i, hi, rfl⟩ := List.mem_iff_getElem.mp hx
    have := h i hi
    rw [List.getElem?_eq_getElem hi] at this
    simpa using this

example : Dense.bigArraysEqual [1, 2] [1, 2] = true ∧ Dense.bigArraysEqual [1, 2] [1, 3] = false ∧ Dense.bigArraysEqual [1] [1, 2] = false ∧
    Dense.isZeroArray [0, 0] = true ∧ Dense.isZeroArray [0, 5] = false := by decide

/-- C76: `OneGT` is the neutral element and `ZeroGT`, which is not an element of the group, absorbs. -/
theorem C76_constants (a : Gfp12) : val12 P (gtAdd oneGT a) = val12 P a ∧
    val12 P (gtAdd a oneGT) = val12 P a ∧ val12 P zeroGT = 0 ∧
    val12 P (gtAdd zeroGT a) = 0 := by
  have h1 : val12 P oneGT = 1 := val12_one P
  have h0 : val12 P zeroGT = 0 := val12_zero P
  refine ⟨?_, ?_, h0, ?_⟩
  · rw [(C76_operations _ _ 0).1, h1, one_mul]
  · rw [(C76_operations _ _ 0).1, h1, mul_one]
  · rw [(C76_operations _ _ 0).1, h0, zero_mul]

/-- C28: `scalarMultiplyFactors`, which nothing calls, is not sound: it leaves the form as it is, so it is right only where scaling changes nothing. -/
theorem C28_scale_noop {q : Nat} (ν : Circuit.Name → ZMod q) (l : Circuit.Factors) (x : Int) :
    formVal ν (Circuit.scalarMultiplyFactors q l x) = (x : ZMod q) * formVal ν l ↔ ((x : ZMod q) - 1) * formVal ν l = 0 := by
  show formVal ν l = _ ↔ _
  rw [sub_mul, one_mul, sub_eq_zero, eq_comm]

end APS
