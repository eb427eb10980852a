import Verif.Proofs.Pipeline
import Verif.Proofs.SortCanonical

/-! Properties C28 - C32, C40, C41: linear forms, gate identity, witness positions, constraint rows. -/
namespace APS
open APS.Spec APS.Circuit APS.Avl APS.Avl.Tree

variable {q : Nat}

/-! ### C28 linear forms -/

/-- C28a: `addFactors` adds. -/
theorem C28_add (ν : Name → ZMod q) (l r : Factors) :
    formVal ν (addFactors q l r) = formVal ν l + formVal ν r := addFactors_val ν l r

/-- C28b: `negateFactors` negates. -/
theorem C28_negate (ν : Name → ZMod q) (l : Factors) : formVal ν (negateFactors l) = - formVal ν l :=
  negateFactors_val ν l

/-- C28c: `mulFactors` multiplies whenever one operand is a constant; it never aborts then. -/
theorem C28_mul (ν : Name → ZMod q) {l r : Factors} (hl : l ≠ []) (hr : r ≠ [])
    (h : isSingleNumber l = true ∨ isSingleNumber r = true) :
    ∃ s, mulFactors q l r = some s ∧ formVal ν s = formVal ν l * formVal ν r := by
  obtain ⟨s, h1, -, h2⟩ := mulFactors_val ν hl hr h
  exact ⟨s, h1, h2⟩

theorem mulRow_last {f r : Factor} : ∀ (rs : Factors) (cur : Factor),
    mulRow q f (rs ++ [r]) cur = (rs.mapM (mulOne q f)).bind fun _ => mulOne q f r := by
  intro rs
  induction rs with
  | nil => intro cur; simp only [List.nil_append, mulRow, List.mapM_nil]; cases mulOne q f r <;> rfl
  | cons x rs ih =>
    intro cur
    simp only [List.cons_append, mulRow, List.mapM_cons]
    cases mulOne q f x with
    | none => rfl
    | some y => simp only [ih]; cases rs.mapM (mulOne q f) <;> rfl

theorem mulOne_none {l r : Factor} (hl : l.tok.isNum = false) (hr : r.tok.isNum = false) : mulOne q l r = none := by simp [mulOne, hl, hr]

/-- C28c: of two sums, `mulFactors` multiplies the longer one with only the last term of the shorter one; it returns if and only if no two
wires meet.  (`compile` calls it with a constant only, for which this is C28_mul.) -/
theorem C28_mul_last (ν : Name → ZMod q) {l rs : Factors} {r : Factor} (hlen : rs.length < l.length) :
    (∀ s, mulFactors q l (rs ++ [r]) = some s → formVal ν s = formVal ν l * factorVal ν r) ∧
      ((mulFactors q l (rs ++ [r])).isSome = true ↔ ∀ f ∈ l, ∀ x ∈ rs ++ [r], f.tok.isNum = true ∨ x.tok.isNum = true) := by
  have hn : ¬ l.length < (rs ++ [r]).length := by simp; omega
  simp only [mulFactors, hn, if_false, mulRow_last]
  clear hn hlen
  have key : ∀ (f : Factor) (xs : Factors), (xs.mapM (mulOne q f)).isSome = true ↔ ∀ x ∈ xs, f.tok.isNum = true ∨ x.tok.isNum = true := by
    intro f xs
    induction xs with
    | nil => simp
    | cons x xs ih =>
      rw [List.mapM_cons, List.forall_mem_cons, ← ih]
      by_cases h : f.tok.isNum = true ∨ x.tok.isNum = true
      · obtain ⟨y, hy, -⟩ := mulOne_val (q := q) ν h
        rw [hy]
        cases xs.mapM (mulOne q f) <;> simp [h]
      · push Not at h
        rw [mulOne_none (by simpa using h.1) (by simpa using h.2)]
        simp [h]
  induction l with
  | nil => simp [formVal]
  | cons f l ih =>
    rw [List.mapM_cons, List.forall_mem_cons, ← ih.2, ← key f (rs ++ [r])]
    have e : (rs ++ [r]).mapM (mulOne q f) = (rs.mapM (mulOne q f)).bind fun a => (mulOne q f r).map fun b => a ++ [b] := by
      rw [List.mapM_append]
      cases rs.mapM (mulOne q f) with
      | none => rfl
      | some a => cases h : mulOne q f r <;> simp [h]
    rw [e]
    cases rs.mapM (mulOne q f) with
    | none => simp
    | some a =>
      cases h : mulOne q f r with
      | none => simp [h]
      | some b =>
        have hb : factorVal ν b = factorVal ν f * factorVal ν r := by
          by_cases h' : f.tok.isNum = true ∨ r.tok.isNum = true
          · obtain ⟨y, hy, hv⟩ := mulOne_val (q := q) ν h'
            rw [hy] at h; cases h; exact hv
          · push Not at h'
            rw [mulOne_none (by simpa using h'.1) (by simpa using h'.2)] at h
            cases h
        cases hl : (l.mapM fun f => (rs.mapM (mulOne q f)).bind fun _ => mulOne q f r) with
        | none => simp [h]
        | some t =>
          refine ⟨?_, by simp [h]⟩
          intro s hs
          simp [h] at hs
          subst hs
          rw [formVal_cons, formVal_cons, hb, ih.1 t hl]
          ring

/-- (3x + 4)·(2 + 5) over Z/7 gives 5·(3x + 4) -/
example : mulFactors 7 [argF ['x'] 3, numF 4] [numF 2, numF 5] = some [argF ['x'] 1, numF 6] := by decide

/-- C28d: `invertFactors` inverts a non-zero constant. -/
theorem C28_invert [Fact q.Prime] (ν : Name → ZMod q) {r : Factors} (hs : isSingleNumber r = true)
    (h0 : formVal ν r ≠ 0) : ∃ i, invertFactors q r = some i ∧ formVal ν i = (formVal ν r)⁻¹ := by
  obtain ⟨f, rfl, hf⟩ := isSingleNumber_iff.mp hs
  have hf0 : (f.mul : ZMod q) ≠ 0 := by simpa [formVal, factorVal, hf] using h0
  obtain ⟨i, hi⟩ := inverse_of_cast_ne hf0
  have : invertFactors q [f] = some [numF i] := by simp [invertFactors, hi, hf]
  exact ⟨_, this, (invertFactors_single ν hs this).2.2.2⟩

/-- C28e: extracting the common factor splits the form as `gcd · primitive part`. -/
theorem C28_gcd (ν : Name → ZMod q) {l l' : Factors} {g : Int} (h : factorSignature l = some (g, l')) :
    formVal ν l = (g : ZMod q) * formVal ν l' := factorSignature_val ν h

/-- C28f: re-reading a stored variable yields the value that was stored. -/
theorem C28_readVar (ν : Name → ZMod q) {f s : Factors} (hf : GoodF q f) (h : readVar q f = some s) :
    formVal ν s = formVal ν f := (readVar_spec ν hf h).2.2

/-- non-trivial instance: (3x + 4) + (4x + 5) over Z/7, the x terms cancel -/
example : addFactors 7 [argF ['x'] 3, numF 4] [argF ['x'] 4, numF 5] = [numF 2] := by decide
example : mulFactors 7 [argF ['x'] 3, numF 4] [numF 5] = some [argF ['x'] 1, numF 6] := by decide
example : invertFactors 7 [numF 3] = some [numF 5] := by decide +kernel
example : factorSignature [argF ['x'] 6, argF ['y'] 4] = some (2, [argF ['y'] 2, argF ['x'] 3]) := by decide

/-! ### C29 gate identity -/

/-- C29a: the identifier of a gate does not depend on the order of the factors. -/
theorem C29_order_insensitive (H : Name → Nat) (g g' : Gate) (hl : g.left.Perm g'.left) (hr : g.right.Perm g'.right)
    (he : g.expo.Perm g'.expo) (ho : g.out.Perm g'.out) : gateHash H g = gateHash H g' := by
  unfold gateHash hashFactors
  rw [List.flatMap_append, List.flatMap_append, sortF_text hl, sortF_text hr, sortF_text he, sortF_text ho]

/-- C29b: nor on which operand of a product is the left one. -/
theorem C29_commutative (H : Name → Nat) (g : Gate) :
    gateHash H g = gateHash H { g with left := g.right, right := g.left } := by
  unfold gateHash
  rw [Nat.add_comm]

/-- the program `equalAfterMul(a,b){ var c = a*b ; equal(a,b) ; return c }` -/
def equalAfterMul : Prog :=
  { inputs := [['a'], ['b']]
    body := [.assign ['c'] (.mul (.var ['a']) (.var ['b'])), .equal (.var ['a']) (.var ['b'])]
    ret := .var ['c'] }

theorem readVar_arg (n : Name) : readVar q [argF n 1] = some [argF n 1] := by
  simp [readVar, isSingleNumber, argF, rereadSum, rereadOne]

/-- what the compiler makes of `equalAfterMul`: one product gate, and the equality gate discarded -/
theorem equalAfterMul_run (H : Name → Nat) (hq : 1 < q) {f : Factors} {s : St}
    (h : execute H q equalAfterMul = some (f, s)) :
    ∃ t, t ≠ ['b'] ∧ f = [argF t 1] ∧ s.c.gates =
      [{ typ := .mult, left := [argF ['a'] 1], right := [argF ['b'] 1], ident := t, out := [argF t 1] }] := by
  have hone : Fq.mul q 1 1 = 1 := by
    simp only [Fq.mul, mul_one]
    exact Int.emod_eq_of_lt (by omega) (by omega)
  have hx : extractConstant q [argF ['a'] 1] [argF ['b'] 1] = some (1, [argF ['a'] 1], [argF ['b'] 1]) := by
    simp [extractConstant, factorSignature, extractGCD, gcdLoop, argF, sortF, insertDesc, hone]
  have hc : ∀ (n : Name) (s : St), completeFunction H [argF n 1] s = some s := by
    intro n s
    simp [completeFunction, argF, isSingleNumber]
  have hn : ∀ n : Name, isSingleNumber [argF n 1] = false := fun n => rfl
  cases ht : sig16 (gateHash H { typ := .mult, left := [argF ['a'] 1], right := [argF ['b'] 1] }) with
  | none =>
    simp [execute, equalAfterMul, execStmt, compile, initEnv, List.lookup, readVar_arg, mulGate, hn, hx, St.add,
      Container.add, withID, setAndGetID, ht] at h
  | some t =>
    have ht' : sig16 (gateHash H { typ := .equality, left := [argF ['a'] 1], right := [argF ['b'] 1], noNew := true }) = some t := ht
    simp [execute, equalAfterMul, execStmt, compile, initEnv, List.lookup, readVar_arg, mulGate, hn, hx, St.add,
      Container.add, withID, setAndGetID, ht, ht', sortF, insertDesc, hc] at h
    refine ⟨t, ?_, h.1.symm, by rw [← h.2]⟩
    rintro rfl
    unfold sig16 at ht
    simp only at ht
    split at ht
    · exact absurd ht (by simp)
    · rename_i hlen
      have := congrArg (fun o => (o.getD []).length) ht
      simp at this
      omega

/-- C29 is refuted, for EVERY hash function: after the product `a*b` has been computed, the check `equal(a,b)` gets the same
identifier and is discarded; the compiled program accepts `a = 0, b = 1` although the assertion is violated. -/
theorem C29_equality_dropped_refuted (H : Name → Nat) {f : Factors} {s : St} [Fact q.Prime]
    (h : execute H q equalAfterMul = some (f, s)) (gx : ZMod q → ZMod q) :
    ∃ ν : Name → ZMod q, (∀ g ∈ s.c.gates, GateHolds gx ν g) ∧ ν ['a'] ≠ ν ['b'] ∧
      evalProg gx equalAfterMul ν = .error .assertionFailed := by
  obtain ⟨t, hb, rfl, hg⟩ := equalAfterMul_run H (Fact.out : q.Prime).one_lt h
  let ν : Name → ZMod q := fun n => if n = ['b'] then 1 else 0
  refine ⟨ν, by simp [hg, GateHolds, formVal, factorVal, argF, ν, hb], by simp [ν], ?_⟩
  simp [evalProg, evalBody, evalStmt, evalExpr, equalAfterMul, Function.update, ν, bind, Except.bind, pure, Except.pure]

/-- a hash function for the concrete instances below -/
def H0 (s : Name) : Nat :=
  s.foldl (fun a c => (a + c.toNat) * 0x9E3779B97F4A7C15F39CC0605CEDC8341082276BF3A27251 % (2 ^ 255 - 19)) 1

/-- the refutation applies: with `H0` the program compiles -/
example : (execute H0 7 equalAfterMul).isSome = true := by decide +kernel
end APS
