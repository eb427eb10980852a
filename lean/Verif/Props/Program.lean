import Verif.Props.Rows
import Verif.Proofs.Made
import Mathlib.Tactic.Linarith
import Mathlib.Tactic.Ring

/-! Properties C36 - C38, C40, C68: SPLIT, compiled programs, totality, `addGateConstraint`. -/
namespace APS
open APS.Spec APS.Circuit APS.Avl APS.Avl.Tree

variable {q : Nat}

/-! ### C38 compiled programs compute what the source says -/

/-- C38a: in every assignment that satisfies all gates, the source program evaluates (with the inputs of the assignment) to
the value of the returned linear form - unless a divisor is zero.  All assertions `equal(..)` of the source then hold. -/
theorem C38_sound [Fact q.Prime] {H : Name → Nat} {p : Prog} {f : Factors} {s : St} (gx : ZMod q → ZMod q)
    (ν : Name → ZMod q) (hok : ProgOK p) (h : execute H q p = some (f, s)) (hn : NoConfusion s)
    (hh : ∀ g ∈ s.c.gates, GateHolds gx ν g) :
    evalProg gx p ν = .ok (formVal ν f) ∨ evalProg gx p ν = .error .divByZero :=
  execute_sound hok h hn hh

/-- C38b: whenever the source program evaluates, there is an assignment with these inputs that satisfies all gates, and in it
the returned linear form has the value of the program. -/
theorem C38_complete [Fact q.Prime] {H : Name → Nat} {p : Prog} {f : Factors} {s : St} (gx : ZMod q → ZMod q)
    (vals : Name → ZMod q) (v : ZMod q) (hok : ProgOK p) (h : execute H q p = some (f, s)) (hn : NoConfusion s)
    (hc : NoConstSplit s) (hd : ∀ n ∈ p.inputs, n ∉ s.c.computed) (hv : evalProg gx p vals = .ok v) :
    ∃ ν : Name → ZMod q, (∀ n ∈ p.inputs, ν n = vals n) ∧ (∀ g ∈ s.c.gates, GateHolds gx ν g) ∧ formVal ν f = v :=
  execute_complete hok h hn hc hd hv

/-- C38c: the same through the generated matrices (dense): a witness vector that starts with 1 and satisfies all rows carries
inputs for which the source program evaluates to the returned form (or divides by zero). -/
theorem C38_rows_sound [Fact q.Prime] {H : Name → Nat} {p : Prog} {f : Factors} {s : St} (gx : ZMod q → ZMod q)
    (hgx : gx 0 = 0) (hok : ProgOK p) (h : execute H q p = some (f, s)) {P : List Name} {rand : Bool}
    (hr : RunOK p.inputs P rand s) {r : R1CS (List Int)} (hR : gatesToR1CS (oneName :: P) p.inputs s.c.gates rand = some r)
    {w : List Int} (hw : w.length = r.witnessLength) (h1 : ((w.getD 0 0 : Int) : ZMod q) = 1)
    (hs : ∀ row ∈ r.rows, SatD q gx w row) :
    evalProg gx p (valsOf q r.index w) = .ok (formVal (valsOf q r.index w) f) ∨
      evalProg gx p (valsOf q r.index w) = .error .divByZero :=
  execute_sound hok h hr.conf (((execute_made hok h).rows_dense hgx hr hR hw h1).mp hs).1

/-- C38d (dense): whenever the source program evaluates, there is a witness vector that starts with 1, carries the inputs at
their positions and satisfies all rows. -/
theorem C38_rows_complete [Fact q.Prime] {H : Name → Nat} {p : Prog} {f : Factors} {s : St} (gx : ZMod q → ZMod q)
    (hgx : gx 0 = 0) (hok : ProgOK p) (h : execute H q p = some (f, s)) {P : List Name} {rand : Bool}
    (hr : RunOK p.inputs P rand s) {r : R1CS (List Int)} (hR : gatesToR1CS (oneName :: P) p.inputs s.c.gates rand = some r)
    (vals : Name → ZMod q) (v : ZMod q) (hv : evalProg gx p vals = .ok v) :
    ∃ w : List Int, w.length = r.witnessLength ∧ ((w.getD 0 0 : Int) : ZMod q) = 1 ∧
      (∀ n ∈ p.inputs, ((w.getD (r.index.get n) 0 : Int) : ZMod q) = vals n) ∧
      (∀ row ∈ r.rows, SatD q gx w row) ∧ formVal (valsOf q r.index w) f = v :=
  (execute_made hok h).rows_dense_complete hgx hr hR (execute_complete hok h hr.conf hr.const hr.disj hv)

/-- C38e (sparse) -/
theorem C38_rows_sound_sparse [Fact q.Prime] {H : Name → Nat} {p : Prog} {f : Factors} {s : St} (gx : ZMod q → ZMod q)
    (hgx : gx 0 = 0) (hok : ProgOK p) (h : execute H q p = some (f, s)) {P : List Name} {rand : Bool}
    (hr : RunOK p.inputs P rand s) {r : R1CS Tree} (hR : gatesToSparseR1CS q (oneName :: P) p.inputs s.c.gates rand = some r)
    (hnum : ∀ g ∈ s.c.gates, NumsOK r.index g)
    {w : List Int} (hw : w.length = r.witnessLength) (h1 : ((w.getD 0 0 : Int) : ZMod q) = 1)
    (hs : ∀ row ∈ r.rows, SatS q gx w row) :
    evalProg gx p (valsOf q r.index w) = .ok (formVal (valsOf q r.index w) f) ∨
      evalProg gx p (valsOf q r.index w) = .error .divByZero :=
  execute_sound hok h hr.conf (((execute_made hok h).rows_sparse hgx hr hR hnum hw h1).mp hs).1

/-- C38f (sparse) -/
theorem C38_rows_complete_sparse [Fact q.Prime] {H : Name → Nat} {p : Prog} {f : Factors} {s : St} (gx : ZMod q → ZMod q)
    (hgx : gx 0 = 0) (hok : ProgOK p) (h : execute H q p = some (f, s)) {P : List Name} {rand : Bool}
    (hr : RunOK p.inputs P rand s) {r : R1CS Tree} (hR : gatesToSparseR1CS q (oneName :: P) p.inputs s.c.gates rand = some r)
    (hnum : ∀ g ∈ s.c.gates, NumsOK r.index g)
    (vals : Name → ZMod q) (v : ZMod q) (hv : evalProg gx p vals = .ok v) :
    ∃ w : List Int, w.length = r.witnessLength ∧ ((w.getD 0 0 : Int) : ZMod q) = 1 ∧
      (∀ n ∈ p.inputs, ((w.getD (r.index.get n) 0 : Int) : ZMod q) = vals n) ∧
      (∀ row ∈ r.rows, SatS q gx w row) ∧ formVal (valsOf q r.index w) f = v :=
  (execute_made hok h).rows_sparse_complete hgx hr hR hnum (execute_complete hok h hr.conf hr.const hr.disj hv)

/-- a program with a product, a quotient, a base multiplication, a split, an assertion and a variable read back:
`main(x,y){ var a = 3*x*y - 2 ; SPLIT(x) ; equal(a, y/(x+1)) ; return a + scalarBaseMultiply(x+4) }` -/
def demoProg : Prog :=
  { inputs := [['x'], ['y']]
    body := [.assign ['a'] (.sub (.mul (.mul (.num ['3']) (.var ['x'])) (.var ['y'])) (.num ['2'])),
      .split (.var ['x']),
      .equal (.var ['a']) (.div (.var ['y']) (.add (.var ['x']) (.num ['1'])))]
    ret := .add (.var ['a']) (.baseMul (.add (.var ['x']) (.num ['4']))) }

/-- the hypotheses of C38 hold for it -/
example : ProgOK demoProg ∧ ((execute H0 101 demoProg).map fun x => decide (RunOK demoProg.inputs [['x']] true x.2)) = some true ∧
    (((execute H0 101 demoProg).bind fun x => gatesToR1CS [oneName, ['x']] demoProg.inputs x.2.c.gates true).map
      fun r => (r.witnessLength, r.numberOfGates)) = some (17, 15) := by
  decide +kernel

/-! ### C36 SPLIT -/

theorem splitGate_holds {H : Name → Nat} {I : List Name} {f : Factors} {s s' sf : St} {gx : ZMod q → ZMod q}
    {ν : Name → ZMod q} (hw : WF I s) (kf : KnownF (I ++ s.c.computed) f) (h : splitGate H q f s = some s')
    (he : Ext s' sf) (hn : NoConfusion sf) (hh : ∀ g ∈ sf.c.gates, GateHolds gx ν g) :
    ∃ x, f = [x] ∧ SplitOK q (Fq.bitLen q) (ν x.tok.ident) (fun i => ν (bitName i x.tok.ident)) := by
  obtain ⟨x, s1, g, rfl, hl, ha⟩ := splitGate_eq h
  refine ⟨x, rfl, ?_, ?_⟩
  · intro i hi
    obtain ⟨e1, w1, w2⟩ := splitLoop_wf (List.range (Fq.bitLen q)) hw (key_known kf) hl
    have hext : Ext s1 sf := (St.add_ext ha (fun _ => rfl)).trans he
    have hm := (w2 i (List.mem_range.mpr hi)).2
    have := holds_of_ext hm hext hn hh
    simpa [GateHolds, bitGate] using this
  · have hg := holds_of_ext (St.add_mem ha (fun _ => rfl)) he hn hh
    obtain ⟨g0, h0, rfl, _⟩ := St.add_spec ha (fun _ => rfl)
    obtain ⟨f1, f2, -, -, -, -, f7, -⟩ := withID_fields h0
    simp only [GateHolds, id_eq, f1] at hg
    rw [formVal_perm ν f2, f7] at hg
    rw [← hg]
    simp only [formVal, List.map_map, Function.comp_def]
    rw [← List.sum_toFinset _ (List.nodup_range), List.toFinset_range]
    refine Finset.sum_congr rfl fun i _ => ?_
    simp [factorVal, argF]

theorem lookup_body {H : Name → Nat} {x : Name} (pre : List Stmt) : ∀ {env env' : Env} {s s' : St},
    (∀ v, .assign x v ∉ pre) → pre.foldlM (execStmt H q) (env, s) = some (env', s') → env'.lookup x = env.lookup x := by
  induction pre with
  | nil => intro env env' s s' _ h; simp at h; rw [h.1]
  | cons st rest ih =>
    intro env env' s s' hx h
    obtain ⟨⟨env1, s1⟩, h1, h2⟩ := body_cons h
    rw [ih (fun v hv => hx v (List.mem_cons_of_mem _ hv)) h2]
    cases st with
    | assign y e =>
      obtain ⟨f, s2, -, -, rfl⟩ := exec_assign h1
      have : y ≠ x := by rintro rfl; exact hx e List.mem_cons_self
      rw [List.lookup_cons, show (x == y) = false by simpa using this.symm]
    | equal a b => obtain ⟨_, _, _, _, _, -, -, -, rfl⟩ := exec_equal h1; rfl
    | split e => obtain ⟨_, _, -, -, rfl⟩ := exec_split h1; rfl
    | expr e => obtain ⟨_, _, -, -, rfl⟩ := exec_expr h1; rfl

theorem lookup_init_mem {x : Name} {I : List Name} (h : x ∈ I) : (initEnv I).lookup x = some [argF x 1] := by
  cases hl : (initEnv I).lookup x with
  | some f => rw [(lookup_initEnv I x f hl).2]
  | none =>
    exfalso
    rw [List.lookup_eq_none_iff] at hl
    have := hl (x, [argF x 1]) (List.mem_map.mpr ⟨x, h, rfl⟩)
    simp at this

/-- C36a: wherever `SPLIT(e)` occurs in a program: the operand `e` is a multiple `k·z` of one wire `z`, and in every
assignment satisfying the gates the bit wires of `z` are bits of the value of `z`.
(Partial: the value of `e` is `k·z`, but the bits are those of `z`; see `C36_multiple_refuted`.) -/
theorem C36_split_partial [Fact q.Prime] {H : Name → Nat} {p : Prog} {f : Factors} {s : St} (gx : ZMod q → ZMod q)
    (ν : Name → ZMod q) (hok : ProgOK p) (h : execute H q p = some (f, s)) (hn : NoConfusion s) (hc : NoConstSplit s)
    (hh : ∀ g ∈ s.c.gates, GateHolds gx ν g) {pre post : List Stmt} {e : Expr} (hb : p.body = pre ++ .split e :: post)
    {ρ : Store q} (hρ : evalBody gx (fun n => if n ∈ p.inputs then some (ν n) else none) pre = .ok ρ) :
    ∃ (z : Name) (k : Int), SplitOK q (Fq.bitLen q) (ν z) (fun i => ν (bitName i z)) ∧
      (evalExpr gx ρ e = .ok ((k : ZMod q) * ν z) ∨ evalExpr gx ρ e = .error .divByZero) ∧
      (∀ x, e = .var x → x ∈ p.inputs → (∀ v, .assign x v ∉ pre) → z = x ∧ k = 1) := by
  obtain ⟨env, s1, s2, h1, h2, h3⟩ := execute_eq h
  obtain ⟨e1, w1, v1⟩ := body_wf p.body hok.1 (wf_empty p.inputs) (envOK_init _) h1
  have r := compile_wf p.ret hok.2 w1 v1 h2
  obtain ⟨e3, w3⟩ := completeFunction_wf r.wf r.good r.known h3
  have hok1 := hok.1
  rw [hb] at h1 hok1
  rw [List.foldlM_append] at h1
  cases hA : pre.foldlM (execStmt H q) (initEnv p.inputs, ({} : St)) with
  | none => simp [hA] at h1
  | some X =>
    obtain ⟨envA, sA⟩ := X
    simp only [hA, Option.bind_eq_bind, Option.bind_some] at h1
    obtain ⟨⟨envB, sB⟩, hB, hC⟩ := body_cons h1
    have okA : ∀ st ∈ pre, StmtOK st := fun st hs => hok1 st (List.mem_append_left _ hs)
    have okB : StmtOK (.split e) := hok1 _ (List.mem_append_right _ List.mem_cons_self)
    have okC : ∀ st ∈ post, StmtOK st := fun st hs => hok1 st (List.mem_append_right _ (List.mem_cons_of_mem _ hs))
    obtain ⟨eA, wA, vA⟩ := body_wf pre okA (wf_empty p.inputs) (envOK_init _) hA
    obtain ⟨eB, wB, vB⟩ := execStmt_wf okB wA vA hB
    obtain ⟨eC, wC, vC⟩ := body_wf post okC wB vB hC
    have hBs : Ext sB s := eC.trans (r.ext.trans e3)
    obtain ⟨F, sE, hE, hS, rfl⟩ := exec_split hB
    have rE := compile_wf e okB wA vA hE
    obtain ⟨eS, wS⟩ := splitGate_wf rE.wf rE.known hS
    obtain ⟨x, rfl, hx⟩ := splitGate_holds rE.wf rE.known hS hBs hn hh
    rcases body_sound hn hh pre (storeRel_init p.inputs ν) okA (wf_empty _) (envOK_init _) hA (eB.trans hBs) with
      ⟨ρ', hv, hρ'⟩ | hv
    swap
    · rw [hρ] at hv; cases hv
    rw [hρ] at hv; cases hv
    have hnum : x.tok.isNum = false := by
      obtain ⟨x', s1', g, hxx, -, ha⟩ := splitGate_eq hS
      cases hxx
      have hm := St.add_mem ha (fun _ => rfl)
      obtain ⟨g0, h0, rfl, _⟩ := St.add_spec ha (fun _ => rfl)
      obtain ⟨f1, -, -, -, -, -, f7, -⟩ := withID_fields h0
      rcases hm with hm | hm
      · have := hc _ (hBs.gates.subset hm) (Or.inl f1)
        simpa [f7] using this
      · obtain ⟨g', hg', hsame⟩ := hn _ (hBs.dropped.subset hm)
        rcases hsame with rfl | ⟨ht, -⟩
        · have := hc _ hg' (Or.inl f1)
          simpa [f7] using this
        · simp [f1] at ht
    refine ⟨x.tok.ident, x.mul, hx, ?_, ?_⟩
    · have := compile_sound hn hh hρ' e okB wA vA hE (eS.trans hBs)
      simpa [formVal, factorVal, hnum] using this
    · rintro y rfl hy hna
      have hl := (lookup_body pre hna hA).trans (lookup_init_mem hy)
      simp only [compile, hl, readVar_arg, Option.map_some, Option.some.injEq, Prod.mk.injEq, List.cons.injEq, and_true] at hE
      rw [← hE.1]
      exact ⟨rfl, rfl⟩

/-- C36b: `SPLIT(x)` of an input `x` (not reassigned before): in every satisfying assignment each wire `i ++ x` is 0 or 1 and
the weighted sum of these wires is `x`. -/
theorem C36_split_input [Fact q.Prime] {H : Name → Nat} {p : Prog} {f : Factors} {s : St} (gx : ZMod q → ZMod q)
    (ν : Name → ZMod q) (hok : ProgOK p) (h : execute H q p = some (f, s)) (hn : NoConfusion s) (hc : NoConstSplit s)
    (hh : ∀ g ∈ s.c.gates, GateHolds gx ν g) {pre post : List Stmt} {x : Name}
    (hb : p.body = pre ++ .split (.var x) :: post) (hx : x ∈ p.inputs) (hna : ∀ v, .assign x v ∉ pre)
    {ρ : Store q} (hρ : evalBody gx (fun n => if n ∈ p.inputs then some (ν n) else none) pre = .ok ρ) :
    SplitOK q (Fq.bitLen q) (ν x) (fun i => ν (bitName i x)) := by
  obtain ⟨z, k, h1, -, h3⟩ := C36_split_partial gx ν hok h hn hc hh hb hρ
  obtain ⟨rfl, -⟩ := h3 x rfl hx hna
  exact h1

/-- the program `main(x){ SPLIT(2*x) ; return x }` -/
def splitTwice : Prog := { inputs := [['x']], body := [.split (.mul (.num ['2']) (.var ['x']))], ret := .var ['x'] }

/-- the program `main(x){ SPLIT(x) ; return x }` -/
def splitOnce : Prog := { inputs := [['x']], body := [.split (.var ['x'])], ret := .var ['x'] }

/-- the gates both programs compile to when the field has 7 elements -/
def splitGates7 : List Gate :=
  [{ typ := .zeroOrOne, ident := ['0', 'x'], arith := ⟨false, ['x']⟩ },
   { typ := .zeroOrOne, ident := ['1', 'x'], arith := ⟨false, ['x']⟩ },
   { typ := .zeroOrOne, ident := ['2', 'x'], arith := ⟨false, ['x']⟩ },
   { typ := .sumCheck, ident := "4364253442747428".toList, left := [argF ['2', 'x'] 4, argF ['1', 'x'] 2, argF ['0', 'x'] 1],
     noNew := true, arith := ⟨false, ['x']⟩ }]

theorem splitTwice_gates : (execute H0 7 splitTwice).map (·.2.c.gates) = some splitGates7 := by decide +kernel
theorem splitOnce_gates : (execute H0 7 splitOnce).map (·.2.c.gates) = some splitGates7 := by decide +kernel

instance : Fact (Nat.Prime 7) := ⟨by norm_num⟩

/-- C36 for a multiple of a wire is refuted: the gates of `SPLIT(2*x)` are satisfied with `x = 1` and bits that sum to 1,
not to 2. -/
theorem C36_multiple_refuted : ∃ gates, (execute H0 7 splitTwice).map (·.2.c.gates) = some gates ∧
    ∃ ν : Name → ZMod 7, (∀ g ∈ gates, GateHolds (fun _ => 0) ν g) ∧ 2 * ν ['x'] = 2 ∧
      SplitOK 7 (Fq.bitLen 7) 1 (fun i => ν (bitName i ['x'])) := by
  refine ⟨_, splitTwice_gates, fun n => if n = ['x'] ∨ n = ['0', 'x'] then 1 else 0, ?_, ?_, ?_⟩
  · simp [splitGates7, GateHolds, formVal, factorVal, argF]
  · simp
  · refine ⟨fun i _ => ?_, ?_⟩
    · simp only; split <;> simp
    · decide +kernel

/-! ### C37 uniqueness of the bits -/

/-- C37 is refuted on a program: `SPLIT(x)` with `x = 0` over the field with 7 elements accepts two different bit vectors. -/
theorem C37_program_refuted : ∃ gates, (execute H0 7 splitOnce).map (·.2.c.gates) = some gates ∧
    ∃ ν ν' : Name → ZMod 7, (∀ g ∈ gates, GateHolds (fun _ => 0) ν g) ∧ (∀ g ∈ gates, GateHolds (fun _ => 0) ν' g) ∧
      ν ['x'] = ν' ['x'] ∧ ∀ i < Fq.bitLen 7, ν (bitName i ['x']) ≠ ν' (bitName i ['x']) := by
  refine ⟨_, splitOnce_gates, fun _ => 0, fun n => if n = ['x'] then 0 else 1, ?_, ?_, ?_, ?_⟩
  · simp [splitGates7, GateHolds, formVal, factorVal, argF]
  · simp [splitGates7, GateHolds, formVal, factorVal, argF]
    decide
  · simp
  · decide +kernel

theorem splitOK_nat (N n : Nat) : SplitOK q N ((n % 2 ^ N : Nat) : ZMod q) (fun i => if n.testBit i then 1 else 0) := by
  refine ⟨fun i _ => by dsimp; split <;> simp, ?_⟩
  rw [← sum_bits, ← List.toFinset_range, List.sum_toFinset _ List.nodup_range, Nat.cast_list_sum, List.map_map]
  congr 1
  apply List.map_congr_left
  intro i _
  cases hb : n.testBit i <;> simp [hb]

/-- C37 is refuted for every prime modulus: `0` has the bits of 0 and the bits of q. -/
theorem C37_every_prime_refuted [Fact q.Prime] : ∃ b b' : Nat → ZMod q, SplitOK q (Fq.bitLen q) 0 b ∧
    SplitOK q (Fq.bitLen q) 0 b' ∧ ∃ i < Fq.bitLen q, b i ≠ b' i := by
  have hq0 := (Fact.out : q.Prime).ne_zero
  refine ⟨fun _ => 0, fun i => if q.testBit i then 1 else 0, ⟨by simp, by simp⟩, ?_, ?_⟩
  · have := splitOK_nat (q := q) (Fq.bitLen q) q
    rwa [Nat.mod_eq_of_lt (lt_two_pow_bitLen hq0), ZMod.natCast_self] at this
  · obtain ⟨i, hi⟩ : ∃ i, q.testBit i = true := by
      by_contra hcon
      push Not at hcon
      exact hq0 (Nat.eq_of_testBit_eq fun i => by simpa using hcon i)
    refine ⟨i, ?_, by simp [hi]⟩
    by_contra hle
    have : q < 2 ^ i := lt_of_lt_of_le (lt_two_pow_bitLen hq0) (Nat.pow_le_pow_right (by norm_num) (not_lt.mp hle))
    rw [Nat.testBit_lt_two_pow this] at hi
    cases hi

/-- C37, what does hold: bit vectors of the same `x` whose INTEGER value is below q are equal. -/
theorem C37_unique_below_q_partial [Fact q.Prime] {N : Nat} {x : ZMod q} {b b' : Nat → Bool}
    (h : SplitOK q N x (fun i => if b i then 1 else 0)) (h' : SplitOK q N x (fun i => if b' i then 1 else 0))
    (hlt : ∑ i ∈ Finset.range N, 2 ^ i * (b i).toNat < q) (hlt' : ∑ i ∈ Finset.range N, 2 ^ i * (b' i).toNat < q) :
    ∀ i < N, b i = b' i := by
  have cast : ∀ c : Nat → Bool, ((∑ i ∈ Finset.range N, 2 ^ i * (c i).toNat : Nat) : ZMod q) =
      ∑ i ∈ Finset.range N, (2 : ZMod q) ^ i * (if c i then 1 else 0) := by
    intro c
    push_cast
    refine Finset.sum_congr rfl fun i _ => ?_
    cases c i <;> simp
  have e : ((∑ i ∈ Finset.range N, 2 ^ i * (b i).toNat : Nat) : ZMod q) = ((∑ i ∈ Finset.range N, 2 ^ i * (b' i).toNat : Nat) : ZMod q) := by
    rw [cast, cast, h.2, h'.2]
  rw [ZMod.natCast_eq_natCast_iff, Nat.ModEq, Nat.mod_eq_of_lt hlt, Nat.mod_eq_of_lt hlt'] at e
  clear cast h h' hlt hlt'
  induction N with
  | zero => intro i hi; omega
  | succ N ih =>
    have bound : ∀ (c : Nat → Bool) (M : Nat), ∑ i ∈ Finset.range M, 2 ^ i * (c i).toNat < 2 ^ M := by
      intro c M
      induction M with
      | zero => simp
      | succ M ihM =>
        rw [Finset.sum_range_succ, pow_succ]
        cases c M <;> simp <;> omega
    rw [Finset.sum_range_succ, Finset.sum_range_succ] at e
    have b1 := bound b N
    have b2 := bound b' N
    have htop : b N = b' N := by
      cases hb : b N <;> cases hb' : b' N <;> simp [hb, hb'] at e ⊢ <;> omega
    rw [htop] at e
    intro i hi
    rcases Nat.lt_succ_iff_lt_or_eq.mp hi with h | rfl
    · exact ih (by omega) i h
    · exact htop

/-- C37, existence: every field element has a bit vector. -/
theorem C37_exists_partial [Fact q.Prime] (x : ZMod q) : ∃ b, SplitOK q (Fq.bitLen q) x b := by
  haveI : NeZero q := ⟨(Fact.out : q.Prime).ne_zero⟩
  have := splitOK_nat (q := q) (Fq.bitLen q) x.val
  rw [Nat.mod_eq_of_lt ((ZMod.val_lt x).trans (lt_two_pow_bitLen (NeZero.ne q))), ZMod.natCast_zmod_val] at this
  exact ⟨_, this⟩

/-! ### C40 totality -/

/-- `main(x,y){ return (0*x)*y }` -/
def zeroTimes : Prog :=
  { inputs := [['x'], ['y']], body := [], ret := .mul (.mul (.num ['0']) (.var ['x'])) (.var ['y']) }

/-- C40 is refuted: compiling `(0*x)*y` aborts (division by a zero gcd), whatever the hash function and the modulus. -/
theorem C40_zero_times_refuted (H : Name → Nat) (hq : 1 < q) : ProgOK zeroTimes ∧ execute H q zeroTimes = none := by
  refine ⟨by decide, ?_⟩
  have hx : mulFactors q [⟨⟨true, ['0']⟩, 0⟩] [argF ['x'] 1] = some [argF ['x'] 0] := by
    simp [mulFactors, mulRow, mulOne, argF, Fq.mul]
  have hn : ∀ (n : Name) (k : Int), isSingleNumber [argF n k] = false := fun n k => rfl
  have hg : extractConstant q [argF ['x'] 0] [argF ['y'] 1] = none := by
    simp [extractConstant, factorSignature, extractGCD, gcdLoop, argF]
  have hs : isSingleNumber [⟨⟨true, ['0']⟩, 0⟩] = true := rfl
  simp [execute, zeroTimes, compile, compileNum, Fq.stringToField, parseInt, parseNat, initEnv, List.lookup, readVar_arg,
    mulGate, hx, hn, hg, hs]

/-- `main(x){ return x/0 }` -/
def divZero : Prog := { inputs := [['x']], body := [], ret := .div (.var ['x']) (.num ['0']) }

/-- C40 is refuted: dividing by the constant 0 is not reported; the result is silently 0. -/
theorem C40_div_zero_refuted : ∃ f : Factors, (execute H0 7 divZero).map (·.1) = some f ∧
    (∀ ν : Name → ZMod 7, formVal ν f = 0) ∧
    ∀ (vals : Name → ZMod 7), evalProg (fun _ => 0) divZero vals = .error .divByZero := by
  refine ⟨[argF ['x'] 0], by decide +kernel, fun ν => ?_, fun vals => ?_⟩
  · simp [formVal, factorVal, argF]
  · have : Nat.ofDigitChars 10 ['0'] 0 = 0 := by decide
    simp [evalProg, evalBody, evalExpr, divZero, bind, Except.bind, this]

theorem gcdLoop_eq_zero {g : Int} {l : Factors} (h : gcdLoop g l = 0) : g = 0 ∧ ∀ f ∈ l, f.mul = 0 := by
  obtain ⟨a, b⟩ := gcdLoop_dvd g l
  rw [h] at a b
  exact ⟨zero_dvd_iff.mp a, fun f hf => zero_dvd_iff.mp (b f hf)⟩

theorem factorSignature_total {l : Factors} (h : ∃ x ∈ l, x.mul ≠ 0) : ∃ p, factorSignature l = some p := by
  obtain ⟨x, hx, h0⟩ := h
  cases l with
  | nil => cases hx
  | cons a t =>
    have : gcdLoop a.mul t ≠ 0 := by
      intro hz
      obtain ⟨z1, z2⟩ := gcdLoop_eq_zero hz
      rcases List.mem_cons.mp hx with rfl | hx
      exacts [h0 z1, h0 (z2 x hx)]
    refine ⟨_, by simp only [factorSignature, extractGCD, if_neg this]; rfl⟩

theorem add_total {H : Name → Nat} (hH : ∀ g, (sig16 (gateHash H g)).isSome = true) (s : St) (g : Gate) (post : Gate → Gate) :
    ∃ p, s.add H g post = some p := by
  unfold St.add Container.add
  have : ∃ g', withID H g = some g' := by
    unfold withID
    split
    · obtain ⟨t, ht⟩ := Option.isSome_iff_exists.mp (hH g)
      exact ⟨_, by rw [setAndGetID, ht, Option.map_some]⟩
    · exact ⟨_, rfl⟩
  obtain ⟨g', hg⟩ := this
  simp only [hg]
  by_cases hm : g'.ident ∈ s.c.computed <;> simp [hm]

/-- C40, what does hold: a product compiles (without abort) whenever one operand is a constant or both operands have a
non-zero coefficient (and the identifier hash has the 16 digits it needs). -/
theorem C40_mul_total_partial {H : Name → Nat} (hH : ∀ g, (sig16 (gateHash H g)).isSome = true) {l r : Factors}
    (hl : l ≠ []) (hr : r ≠ []) (s : St)
    (h : isSingleNumber l = true ∨ isSingleNumber r = true ∨ ((∃ x ∈ l, x.mul ≠ 0) ∧ ∃ x ∈ r, x.mul ≠ 0)) :
    ∃ f s', mulGate H q l r s = some (f, s') := by
  unfold mulGate
  by_cases hs : isSingleNumber l = true ∨ isSingleNumber r = true
  · obtain ⟨f, hf, -⟩ := mulFactors_val (q := q) (fun _ => 0) hl hr hs
    exact ⟨f, s, by simp [hs, hf]⟩
  · obtain ⟨a, b⟩ : (∃ x ∈ l, x.mul ≠ 0) ∧ ∃ x ∈ r, x.mul ≠ 0 := by
      rcases h with h | h | h
      exacts [absurd (Or.inl h) hs, absurd (Or.inr h) hs, h]
    obtain ⟨⟨gl, l'⟩, e1⟩ := factorSignature_total a
    obtain ⟨⟨gr, r'⟩, e2⟩ := factorSignature_total b
    obtain ⟨⟨s', g⟩, e3⟩ := add_total hH s { typ := .mult, left := l', right := r' } (fun g => { g with out := [argF g.ident 1] })
    exact ⟨[argF g.ident (Fq.mul q gl gr)], s', by simp [hs, extractConstant, e1, e2, e3]⟩

/-- C40: division by a non-zero constant compiles. -/
theorem C40_div_total_partial [Fact q.Prime] {H : Name → Nat} {l r : Factors} (hl : l ≠ []) (s : St)
    (hr : isSingleNumber r = true) (h0 : ∀ x ∈ r, (x.mul : ZMod q) ≠ 0) :
    ∃ f s', divGate H q l r s = some (f, s') := by
  obtain ⟨f, rfl, hf⟩ := isSingleNumber_iff.mp hr
  obtain ⟨i, hi⟩ := inverse_of_cast_ne (h0 f (by simp))
  have hv : invertFactors q [f] = some [numF i] := by simp [invertFactors, hi, hf]
  obtain ⟨t, ht, -⟩ := mulFactors_val (q := q) (fun _ => 0) hl (r := [numF i]) (by simp) (Or.inr rfl)
  exact ⟨t, s, by simp [divGate, hr, hv, ht]⟩

/-! ### C68 addGateConstraint -/

/-- C68a: what `addGateConstraint(a,b)` really returns.  With `l = gl·l'`, `r = gr·r'` (gcds extracted), in every assignment
satisfying the gates its value is `gr·l + gl·r`. -/
theorem C68_value {H : Name → Nat} {l r l' r' f : Factors} {gl gr : Int} {s s' sf : St} {gx : ZMod q → ZMod q}
    {ν : Name → ZMod q} (hl : factorSignature l = some (gl, l')) (hr : factorSignature r = some (gr, r'))
    (h : addGateConstraint H q l r s = some (f, s')) (he : Ext s' sf) (hn : NoConfusion sf)
    (hh : ∀ g ∈ sf.c.gates, GateHolds gx ν g) : formVal ν f = gr * formVal ν l + gl * formVal ν r := by
  unfold addGateConstraint at h
  simp only [extractConstant, hl, hr, Option.bind_eq_bind, Option.bind_some, Option.pure_def] at h
  cases ha : s.add H { typ := .addition, left := addFactors q l' r' } (fun g => { g with out := [argF g.ident 1] }) with
  | none => simp [ha] at h
  | some p =>
    obtain ⟨s1, g⟩ := p
    simp only [ha, Option.bind_some, Option.some.injEq, Prod.mk.injEq] at h
    obtain ⟨rfl, rfl⟩ := h
    have hg := holds_of_ext (St.add_mem ha (fun _ => rfl)) he hn hh
    obtain ⟨g0, h0, rfl, _⟩ := St.add_spec ha (fun _ => rfl)
    obtain ⟨f1, f2, -⟩ := withID_fields h0
    simp only [GateHolds, f1] at hg
    rw [formVal_perm ν f2, addFactors_val] at hg
    rw [factorSignature_val ν hl, factorSignature_val ν hr]
    simp only [formVal, factorVal, argF, List.map_cons, List.map_nil, List.sum_cons, List.sum_nil, add_zero, Int.cast_one,
      one_mul, if_false, Bool.false_eq_true] at hg ⊢
    rw [← hg, cast_mul']
    ring

/-- C68b: it is the sum when both operands have coefficients with gcd 1. -/
theorem C68_sum_partial {H : Name → Nat} {l r l' r' f : Factors} {s s' sf : St} {gx : ZMod q → ZMod q}
    {ν : Name → ZMod q} (hl : factorSignature l = some (1, l')) (hr : factorSignature r = some (1, r'))
    (h : addGateConstraint H q l r s = some (f, s')) (he : Ext s' sf) (hn : NoConfusion sf)
    (hh : ∀ g ∈ sf.c.gates, GateHolds gx ν g) : formVal ν f = formVal ν l + formVal ν r := by
  have := C68_value hl hr h he hn hh
  simpa using this

/-- `main(x,y){ return addGateConstraint(2*x, y) }` -/
def addTwice : Prog :=
  { inputs := [['x'], ['y']], body := [], ret := .addGate (.mul (.num ['2']) (.var ['x'])) (.var ['y']) }

/-- C68 is refuted: `addGateConstraint(2*x, y)` with x = 0, y = 1 returns 2. -/
theorem C68_sum_refuted : ∃ gates f, (execute H0 7 addTwice).map (fun r => (r.2.c.gates, r.1)) = some (gates, f) ∧
    ∃ ν : Name → ZMod 7, (∀ g ∈ gates, GateHolds (fun _ => 0) ν g) ∧ 2 * ν ['x'] + ν ['y'] = 1 ∧ formVal ν f = 2 := by
  refine ⟨[{ typ := .addition, ident := "1369336176932070".toList, left := [argF ['y'] 1, argF ['x'] 1],
               out := [argF "1369336176932070".toList 1] },
    { typ := .addition, ident := "4228236333329579".toList, left := [argF "1369336176932070".toList 2],
               out := [argF "4228236333329579".toList 1] }], [argF "1369336176932070".toList 2], by decide +kernel,
    fun n => if n = "4228236333329579".toList then 2 else if n = ['x'] then 0 else 1, ?_⟩
  decide +kernel
end APS
