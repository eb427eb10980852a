import Verif.Proofs.ParseFuel
import Verif.Props.Text

/-! What a text compiles to, computed. -/
namespace APS.Prog
open APS.Circuit hiding execute compile Prog
open APS.Lex (Token stackAllTokens)
open APS.LexSpec (TokenizesTo)
open APS.Spec hiding Err

variable {H : Name → Nat} {q : Nat}

/-- the steps of `Compiles` with given depths, without imports; the rows with and without randomizer -/
def compiled (H : Name → Nat) (q k n e : Nat) (src : List Char) : Option (List Name × List Name × Factors × R1CS (List Int) × R1CS (List Int)) :=
  match APS.Lex.tokenize k src with
  | some (.closed toks) =>
    if (stackAllTokens toks).length + 1 < n then do
      let (pubs, m) ← parse H q n (fun _ => none) (stackAllTokens toks)
      let (f, w) ← execute H q e m
      let ins ← mainInputs w.m
      let r1 ← gatesToR1CS pubs ins w.s.c.gates true
      let r0 ← gatesToR1CS pubs ins w.s.c.gates false
      pure (pubs, ins, f, r1, r0)
    else none
  | _ => none

theorem compiled_exists {k n e : Nat} {src : List Char} {pubs ins : List Name} {f : Factors} {r1 r0 : R1CS (List Int)}
    (h : compiled H q k n e src = some (pubs, ins, f, r1, r0)) (rand : Bool) : ∃ w, Compiles H q src rand pubs ins f w (if rand then r1 else r0) := by
  unfold compiled at h
  split at h
  · rename_i toks ht
    split at h
    · rename_i hlen
      simp only [Option.bind_eq_bind, Option.bind_eq_some_iff, Prod.exists, Option.pure_def, Option.some.injEq, Prod.mk.injEq] at h
      obtain ⟨pubs', m, h1, f', w, h2, ins', h3, r1', h4, r0', h5, rfl, rfl, rfl, rfl, rfl⟩ := h
      refine ⟨w, ⟨⟨toks, _, n, e, m, ⟨k, ht⟩, hlen, h1, h2⟩, h3, ?_⟩⟩
      cases rand
      · exact h5
      · exact h4
    · cases h
  · cases h

/-- and every compilation gives this -/
theorem compiled_only {k n e : Nat} {src : List Char} {rand : Bool} {pubs ins : List Name} {f : Factors} {r1 r0 : R1CS (List Int)}
    (h : compiled H q k n e src = some (pubs, ins, f, r1, r0)) {pubs' ins' : List Name} {f' : Factors} {w' : W} {r' : R1CS (List Int)}
    (h' : Compiles H q src rand pubs' ins' f' w' r') : pubs' = pubs ∧ ins' = ins ∧ f' = f ∧ r' = (if rand then r1 else r0) := by
  obtain ⟨⟨toks', rf, n', k', m', a1, a2, a3, a4⟩, a5, a6⟩ := h'
  unfold compiled at h
  split at h
  · rename_i toks ht
    have : toks' = toks := by
      obtain ⟨a, ha⟩ := a1
      have := APS.Lex.RunsTo.det ⟨a, ha⟩ ⟨k, ht⟩
      cases this
      rfl
    subst this
    split at h
    · simp only [Option.bind_eq_bind, Option.bind_eq_some_iff, Prod.exists, Option.pure_def, Option.some.injEq, Prod.mk.injEq] at h
      obtain ⟨pubs1, m, h1, f1, w, h2, ins1, h3, r1', h4, r0', h5, rfl, rfl, rfl, rfl, rfl⟩ := h
      cases parse_det_files h1 a3
      cases execute_det h2 a4
      rw [h3] at a5
      cases a5
      cases rand
      · rw [h5] at a6
        cases a6
        exact ⟨rfl, rfl, rfl, rfl⟩
      · rw [h4] at a6
        cases a6
        exact ⟨rfl, rfl, rfl, rfl⟩
    · cases h
  · cases h

instance : DecidableEq (R1CS (List Int) × R1CS (List Int)) := inferInstance
instance : DecidableEq (Factors × R1CS (List Int) × R1CS (List Int)) := inferInstance

/-! ### witnesses as lists of field elements -/

/-- the product of a row with a witness, without the entries 0 -/
def dotL (q : Nat) : List Int → List (ZMod q) → ZMod q
  | a :: as, b :: bs => if a = 0 then dotL q as bs else if a = 1 then b + dotL q as bs else (a : ZMod q) * b + dotL q as bs
  | _, _ => 0

theorem dot_dense (q : Nat) : ∀ (row w : List Int), dot q (denseEntry row) w = dotL q row (w.map fun x : Int => (x : ZMod q))
  | [], w => by simp [dot, denseEntry, dotL]
  | a :: as, [] => by simp [dot, dotL]
  | a :: as, b :: bs => by
    have ih := dot_dense q as bs
    unfold dot denseEntry at ih
    unfold dot denseEntry
    rw [List.length_cons, Finset.sum_range_succ']
    simp only [List.getD_cons_succ, List.getD_cons_zero]
    rw [ih, List.map_cons, dotL]
    split
    · simp [*]
    · split
      · subst_vars; simp [add_comm]
      · rw [add_comm]

/-- the row holds for the list of values -/
def SatV {q : Nat} (gx : ZMod q → ZMod q) (vs : List (ZMod q)) (row : Row (List Int)) : Prop :=
  dotL q row.L vs * dotL q row.R vs + gx (dotL q row.E vs) = dotL q row.O vs

theorem satD_list {q : Nat} {gx : ZMod q → ZMod q} {w : List Int} {row : Row (List Int)} :
    SatD q gx w row ↔ SatV gx (w.map fun x : Int => (x : ZMod q)) row := by
  unfold SatD RowSat SatV
  simp only [dot_dense]

/-- the values of the names -/
def nameVal {q : Nat} (r : R1CS (List Int)) (vs : List (ZMod q)) (n : Name) : ZMod q := vs.getD (r.index.get n) 0

theorem getD_cast {q : Nat} (u : List Int) (i : Nat) : ((u.getD i 0 : Int) : ZMod q) = (u.map fun x : Int => (x : ZMod q)).getD i 0 := by
  rw [List.getD_eq_getElem?_getD, List.getD_eq_getElem?_getD, List.getElem?_map]
  cases u[i]? <;> simp

theorem valsOf_list {q : Nat} (r : R1CS (List Int)) (u : List Int) : valsOf q r.index u = nameVal r (u.map fun x : Int => (x : ZMod q)) :=
  funext fun _ => getD_cast _ _

theorem cast_val {q : Nat} [NeZero q] (vs : List (ZMod q)) : (vs.map fun v => ((v.val : Nat) : Int)).map (fun x : Int => (x : ZMod q)) = vs := by
  rw [List.map_map]
  have : ((fun x : Int => (x : ZMod q)) ∘ fun v : ZMod q => ((v.val : Nat) : Int)) = id := by
    funext v
    simp
  rw [this, List.map_id]

end APS.Prog
