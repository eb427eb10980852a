import Verif.Proofs.Texts
import Verif.Props.Repo

/-! C104, continued: any text.  From the rows of a text, computed once by the kernel, to statements about all its inputs. -/
namespace APS.Prog
open APS.Circuit hiding execute compile Prog
open APS.Lex (Token stackAllTokens)
open APS.LexSpec (TokenizesTo)
open APS.Pairing (Order)
open APS.Spec hiding Err

/-- what is to be shown about the rows of a text -/
structure RowsCompute (ins : List Name) (f : Factors) (r : R1CS (List Int)) (form : (Name → ZMod Order) → ZMod Order) : Prop where
  sound : ∀ gx : ZMod Order → ZMod Order, gx 0 = 0 → ∀ vs : List (ZMod Order), vs.length = r.witnessLength → vs.getD 0 0 = 1 →
    (∀ row ∈ r.rows, SatV gx vs row) → formVal (nameVal r vs) f = form (nameVal r vs)
  complete : ∀ gx : ZMod Order → ZMod Order, gx 0 = 0 → ∀ vals : Name → ZMod Order, ∃ vs : List (ZMod Order), vs.length = r.witnessLength ∧ vs.getD 0 0 = 1 ∧
    (∀ x ∈ ins, nameVal r vs x = vals x) ∧ (∀ row ∈ r.rows, SatV gx vs row) ∧ formVal (nameVal r vs) f = form vals

theorem computes_text {k n e : Nat} {src : List Char} {pubs ins : List Name} {f : Factors} {r1 r0 : R1CS (List Int)} {form : (Name → ZMod Order) → ZMod Order}
    (h : compiled H0 Order k n e src = some (pubs, ins, f, r1, r0)) (h1 : RowsCompute ins f r1 form) (h0 : RowsCompute ins f r0 form) : Computes src form := by
  have hr : ∀ rand : Bool, RowsCompute ins f (if rand then r1 else r0) form := by
    intro rand
    cases rand
    · exact h0
    · exact h1
  refine ⟨fun rand => ?_, ?_, ?_⟩
  · obtain ⟨w, hw⟩ := compiled_exists h rand
    exact ⟨_, _, _, _, _, hw⟩
  · intro rand pubs' ins' f' w' r' hc gx hgx u hu hone hs
    obtain ⟨rfl, rfl, rfl, rfl⟩ := compiled_only h hc
    have := (hr rand).sound gx hgx (u.map fun x : Int => (x : ZMod Order)) (by rw [List.length_map, hu]) (by rw [← getD_cast]; exact hone)
      (fun row hm => satD_list.mp (hs row hm))
    rw [valsOf_list]
    exact this
  · intro rand pubs' ins' f' w' r' hc gx hgx vals
    obtain ⟨rfl, rfl, rfl, rfl⟩ := compiled_only h hc
    obtain ⟨vs, a1, a2, a3, a4, a5⟩ := (hr rand).complete gx hgx vals
    have : NeZero Order := ⟨by decide +kernel⟩
    refine ⟨vs.map fun v => ((v.val : Nat) : Int), by rw [List.length_map, a1], ?_, ?_, ?_, ?_⟩
    · rw [getD_cast, cast_val, a2]
    · intro x hx
      rw [getD_cast, cast_val]
      exact a3 x hx
    · intro row hm
      rw [satD_list, cast_val]
      exact a4 row hm
    · rw [valsOf_list, cast_val]
      exact a5


/-- C104: for ANY text (not only those of the source language), fixed imported files and any depths: one list of tokens, one list of public inputs, one
program and one result of `Execute`. -/
theorem C104_any_text {H : Name → Nat} {q n n' k k' : Nat} {rf : List Char → Option (List Token)} {src : List Char} {toks toks' : List Token}
    (ht : TokenizesTo src toks) (ht' : TokenizesTo src toks') {pubs pubs' : List Name} {m m' : Mem} {x x' : Factors × W}
    (h : parse H q n rf (stackAllTokens toks) = some (pubs, m)) (h' : parse H q n' rf (stackAllTokens toks') = some (pubs', m'))
    (e : execute H q k m = some x) (e' : execute H q k' m' = some x') : toks = toks' ∧ pubs = pubs' ∧ m = m' ∧ x = x' := by
  have : toks = toks' := by
    obtain ⟨a, ha⟩ := ht
    have := APS.Lex.RunsTo.det ⟨a, ha⟩ ht'
    cases this
    rfl
  subst this
  cases parse_det h h'
  exact ⟨rfl, rfl, rfl, execute_det e e'⟩

/-! ### a relation between inputs -/

/-- The text compiles, and the inputs for which its rows can be satisfied are exactly those in the relation `rel`, which may depend on the function `gx` of
`scalarBaseMultiply`. -/
structure Checks (src : List Char) (rel : (ZMod Order → ZMod Order) → (Name → ZMod Order) → Prop) : Prop where
  exist : ∀ rand, ∃ pubs ins f w r, Compiles H0 Order src rand pubs ins f w r
  sound : ∀ rand pubs ins f w r, Compiles H0 Order src rand pubs ins f w r → ∀ gx : ZMod Order → ZMod Order, gx 0 = 0 →
    ∀ u : List Int, u.length = r.witnessLength → ((u.getD 0 0 : Int) : ZMod Order) = 1 → (∀ row ∈ r.rows, SatD Order gx u row) → rel gx (valsOf Order r.index u)
  complete : ∀ rand pubs ins f w r, Compiles H0 Order src rand pubs ins f w r → ∀ gx : ZMod Order → ZMod Order, gx 0 = 0 → ∀ vals : Name → ZMod Order, rel gx vals →
    ∃ u : List Int, u.length = r.witnessLength ∧ ((u.getD 0 0 : Int) : ZMod Order) = 1 ∧ (∀ x ∈ ins, ((u.getD (r.index.get x) 0 : Int) : ZMod Order) = vals x) ∧
      (∀ row ∈ r.rows, SatD Order gx u row)

/-- what is to be shown about the rows of a text -/
structure RowsCheck (ins : List Name) (r : R1CS (List Int)) (rel : (ZMod Order → ZMod Order) → (Name → ZMod Order) → Prop) : Prop where
  sound : ∀ gx : ZMod Order → ZMod Order, gx 0 = 0 → ∀ vs : List (ZMod Order), vs.length = r.witnessLength → vs.getD 0 0 = 1 →
    (∀ row ∈ r.rows, SatV gx vs row) → rel gx (nameVal r vs)
  complete : ∀ gx : ZMod Order → ZMod Order, gx 0 = 0 → ∀ vals : Name → ZMod Order, rel gx vals → ∃ vs : List (ZMod Order),
    vs.length = r.witnessLength ∧ vs.getD 0 0 = 1 ∧ (∀ x ∈ ins, nameVal r vs x = vals x) ∧ (∀ row ∈ r.rows, SatV gx vs row)

theorem checks_text {k n e : Nat} {src : List Char} {pubs ins : List Name} {f : Factors} {r1 r0 : R1CS (List Int)}
    {rel : (ZMod Order → ZMod Order) → (Name → ZMod Order) → Prop}
    (h : compiled H0 Order k n e src = some (pubs, ins, f, r1, r0)) (h1 : RowsCheck ins r1 rel) (h0 : RowsCheck ins r0 rel) : Checks src rel := by
  have hr : ∀ rand : Bool, RowsCheck ins (if rand then r1 else r0) rel := by
    intro rand
    cases rand
    · exact h0
    · exact h1
  refine ⟨fun rand => ?_, ?_, ?_⟩
  · obtain ⟨w, hw⟩ := compiled_exists h rand
    exact ⟨_, _, _, _, _, hw⟩
  · intro rand pubs' ins' f' w' r' hc gx hgx u hu hone hs
    obtain ⟨rfl, rfl, rfl, rfl⟩ := compiled_only h hc
    have := (hr rand).sound gx hgx (u.map fun x : Int => (x : ZMod Order)) (by rw [List.length_map, hu]) (by rw [← getD_cast]; exact hone)
      (fun row hm => satD_list.mp (hs row hm))
    rw [valsOf_list]
    exact this
  · intro rand pubs' ins' f' w' r' hc gx hgx vals hrel
    obtain ⟨rfl, rfl, rfl, rfl⟩ := compiled_only h hc
    obtain ⟨vs, a1, a2, a3, a4⟩ := (hr rand).complete gx hgx vals hrel
    have : NeZero Order := ⟨by decide +kernel⟩
    refine ⟨vs.map fun v => ((v.val : Nat) : Int), by rw [List.length_map, a1], ?_, ?_, ?_⟩
    · rw [getD_cast, cast_val, a2]
    · intro x hx
      rw [getD_cast, cast_val]
      exact a3 x hx
    · intro row hm
      rw [satD_list, cast_val]
      exact a4 row hm

end APS.Prog
