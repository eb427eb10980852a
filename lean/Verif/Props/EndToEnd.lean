import Verif.Proofs.WitnessRange
import Verif.Props.Text
import Verif.Props.SoundnessBn
import Mathlib.Tactic.NormNum.LegendreSymbol

/-!
C91: a calculated witness consists of field elements.
C92, C93: from the source text to an accepted proof, and from an accepted proof back to a run of the source program.
-/
namespace APS.Prog
open APS.Circuit hiding execute compile Prog
open APS.Lex (Token stackAllTokens)
open APS.LexSpec (TokenizesTo)
open APS.LangSpec (Fun Stm Program Readable)
open APS.Spec hiding Err
open APS.Snark
open APS.Pairing (Order Pt Gfp2 bnRaw)

variable {H : Name → Nat} {q : Nat}

/-! ### C91 -/

/-- C91 (dense): for every constraint system whatsoever, a calculated witness has one entry per wire, and if the inputs and the
randomizer are field elements so are all entries. -/
theorem C91_witness_range (hq : 1 < q) (gx : Int → Int) (r : R1CS (List Int)) (rnd : Int) (inputs : List (Name × Int)) (w : List Int)
    (hr : 0 ≤ rnd ∧ rnd < (q : Int)) (hi : ∀ e ∈ inputs, 0 ≤ e.2 ∧ e.2 < (q : Int)) (h : calculateWitness q gx r rnd inputs = some w) :
    w.length = r.witnessLength ∧ ∀ v ∈ w, 0 ≤ v ∧ v < (q : Int) := calculateWitness_in hq hr hi h

/-- C91 (sparse). -/
theorem C91_witness_range_sparse (hq : 1 < q) (gx : Int → Int) (r : R1CS Avl.Tree) (rnd : Int) (inputs : List (Name × Int)) (w : List Int)
    (hr : 0 ≤ rnd ∧ rnd < (q : Int)) (hi : ∀ e ∈ inputs, 0 ≤ e.2 ∧ e.2 < (q : Int))
    (h : calculateSparseWitness q gx r rnd inputs = some w) :
    w.length = r.witnessLength ∧ ∀ v ∈ w, 0 ≤ v ∧ v < (q : Int) := calculateSparseWitness_in hq hr hi h

/-! ### rows of a compiled program -/

theorem _root_.APS.Circuit.Made.rect {I P : List Name} {f : Factors} {s : St} {rand : Bool} (hM : Made q I f s) (hr : RunOK I P rand s)
    {r : R1CS (List Int)} (hR : gatesToR1CS (oneName :: P) I s.c.gates rand = some r) :
    ∀ row ∈ r.rows, row.L.length = r.index.length ∧ row.R.length = r.index.length ∧ row.E.length = r.index.length ∧
      row.O.length = r.index.length := by
  have hi := RunOK.indexSpec hr hM.wf.comp (gatesToR1CS_eq hR).1
  have gok := gateOK_dense hM.wf hM.att hr.conf hr.const hR hi hr.one.1 hr.one.2
  have hgood := hi.inv.good
  have h0 : 0 < r.index.length := names_pos hi (by simp)
  obtain ⟨-, rows, hm, hrr⟩ := gatesToR1CS_eq hR
  have hrows : ∀ row ∈ rows, OkRow (fun a : List Int => a.length = r.index.length) row := by
    have h2 : List.Forall₂ (fun g row => OkRow (fun a : List Int => a.length = r.index.length) row) s.c.gates rows :=
      forall₂_of_mapM hm fun g hg row he => (rowDense_is (q := q) hgood h0 (gok g hg) he).ok
    intro row hrow
    clear hm hrr hR hi gok hM hr
    generalize s.c.gates = gs at h2
    induction h2 with
    | nil => simp at hrow
    | cons a _ ih =>
      rcases List.mem_cons.1 hrow with rfl | h
      · exact a
      · exact ih h
  intro row hrow
  have hok : OkRow (fun a : List Int => a.length = r.index.length) row := by
    rcases hrr with ⟨-, h⟩ | ⟨-, rr, b, c⟩
    · rw [h] at hrow; exact hrows row hrow
    · rw [c] at hrow
      rcases List.mem_append.1 hrow with h | h
      · exact hrows row h
      · have : row = rr := by simpa using h
        subst this
        exact (randDense_is (q := q) hgood h0 b).ok
  exact ⟨hok.L, hok.R, hok.E, hok.O⟩

/-- the Go closure `k ↦ new(G1).ScalarBaseMult(k).X()` over the modelled bn256 -/
def gxGo (k : Int) : Int := bnRaw.x1 (bnRaw.base1 k)

theorem gxGo_rep : GxRep gxGo gxBn := by
  intro k hk
  unfold gxGo gxBn
  rw [bn_implements.x1 _ _ (bn_implements.base1 k hk)]

/-- the public signals of a run: 1 and the values of the public inputs, in order -/
def signals {q : Nat} (p : Program) (vals : Name → ZMod q) : List Int := 1 :: p.publics.map fun x => ((vals x).val : Int)

/-! ### C92: completeness -/

/-- C92: a source text is compiled over the bn256 order; it has no base multiplication, at least two constraints and a private
wire.  Whenever the program it spells returns on some inputs, the witness calculation succeeds, and - whatever the
secrets of the setup - the key and the proof are generated and the verifier accepts the proof for the public signals of this run.
Partial, as C50: none of the in-place additions may add a point to itself, and the `t` fields are up to date. -/
theorem C92_text_to_proof_partial {p : Program} (hp : p.ok) (hw : p.written) {src : List Char} {toks : List Token}
    (ht : TokenizesTo src toks) (hs : p.spelled (stackAllTokens toks)) {rand : Bool} {pubs ins : List Name} {f : Factors} {w : W}
    {r : R1CS (List Int)} (h : Compiles H Order src rand pubs ins f w r) (hc : CleanRun Order w) (hr : NoClash p w.s)
    (h2 : 2 ≤ r.rows.length) (hn : r.rows.length ≤ Order) (hpriv : pubs.length < r.index.length)
    (hE : NoExp Order r) {vals : Name → ZMod Order} {v : ZMod Order} (hv : Returns gxBn p vals v) {inputs : List (Name × Int)}
    (hin : InputsFor ins vals inputs) {rnd : Int} (hr0 : 0 ≤ rnd) (hr1 : rnd < Order) :
    ∃ u, calculateWitness Order gxGo r rnd inputs = some u ∧ u.take pubs.length = signals p vals ∧
      ∀ tox, ToxicOK Order tox → (denseSys Order r).Safe gxBn pubs.length (secretsOf Order tox) (assign Order u) →
        ∃ pk pf, honestRun bnRaw Order pubs.length r tox u = some (pk, pf) ∧
          (FreshT pk pf → verifyProof bnRaw pk pf (signals p vals) = some true) := by
  have hq : 2 ^ 63 ≤ Order := by decide +kernel
  obtain ⟨m, k, hm, hx, rfl, rfl, hR⟩ := h.run hq hp hw ht hs hc
  obtain ⟨u, a1, a2, a3, a4, a5, -⟩ := C88_witness_complete hq hp hm hx hc hr gxGo_rep gxBn_zero hR hv hin hr0 hr1
  have hM := exec_made hq hp hm hx (fin_of_clean hp hx hc)
  have ho : RunOK p.main.names p.publics rand w.s := hr.run hq hp hm hx hc
  have hrange := (C91_witness_range (by omega) gxGo r rnd inputs u ⟨hr0, hr1⟩ (fun e he => by
    rw [(hin.val e he).2]
    have := ZMod.val_lt (vals e.1)
    omega) a1).2
  have hpos := C41_public_positions hR ho.publics (fun hb n hn => by
    obtain ⟨x, y, z⟩ := ho.rnd hb n hn
    refine ⟨x, y, fun g hg hno he => z ?_⟩
    rw [← he]
    rw [hM.wf.comp]
    exact List.mem_map_of_mem hg)
  have htake : u.take (oneName :: p.publics).length = signals p vals := by
    have hul : (oneName :: p.publics).length ≤ u.length := by rw [a2]; exact le_of_lt hpriv
    refine List.ext_getElem (by rw [List.length_take]; simp only [signals, List.length_cons, List.length_map] at *; omega) fun i h1 h2 => ?_
    have hi : i < u.length := by rw [List.length_take] at h1; omega
    rw [List.getElem_take]
    cases i with
    | zero =>
      have := a3
      rw [List.getD_eq_getElem _ _ hi] at this
      simpa [signals] using this
    | succ i =>
      have hip : i < p.publics.length := by simpa [signals] using h2
      have hmem := hp.pubs _ (List.getElem_mem hip)
      obtain ⟨e, he, hen⟩ := hin.all _ hmem
      have h4 := a4 e he
      rw [hen, hpos.2.1 i _ (List.getElem?_eq_getElem hip), List.getD_eq_getElem _ _ hi, (hin.val e he).2, hen] at h4
      rw [h4]
      simp [signals]
  refine ⟨u, a1, htake, fun tox htx hsafe => ?_⟩
  have hu : Usable Order (oneName :: p.publics).length r u :=
    ⟨by omega, hn, hM.rect ho hR, by simp, hpriv, a2, fun x hx => (hrange x hx).1⟩
  obtain ⟨pk, pf, b1, b2⟩ := C50_bn256_partial hu h2 hE tox htx a5 hsafe
  refine ⟨pk, pf, b1, fun hf => ?_⟩
  rw [← htake]
  exact b2 hf

/-! ### C93: soundness -/

/-- C93: a source text is compiled over the bn256 order; it has no base multiplication and a private wire.  If there are no inputs
with the given public values on which the program returns or divides by zero, a prover that builds A, B and C out of the
published key by group operations and leaves F trivial convinces the verifier for at most `(3·gates + 4)·q⁴` of the `q³(q-1)²`
secrets.  Partial: for arbitrary F the claim is false (C53_bn256_refuted); division by zero is not excluded (C84). -/
theorem C93_proof_to_text_partial {p : Program} (hp : p.ok) (hw : p.written) {src : List Char} {toks : List Token}
    (ht : TokenizesTo src toks) (hs : p.spelled (stackAllTokens toks)) {rand : Bool} {pubs ins : List Name} {f : Factors} {w : W}
    {r : R1CS (List Int)} (h : Compiles H Order src rand pubs ins f w r) (hc : CleanRun Order w) (hr : NoClash p w.s)
    (hn : r.rows.length ≤ Order) (hpriv : pubs.length < r.index.length) (hE : NoExp Order r)
    (pub : List Int) (hlen : pub.length = p.publics.length) (hpos : ∀ s ∈ pub, 0 ≤ s)
    (hno : ∀ vals : Name → ZMod Order, (∀ i x, p.publics[i]? = some x → vals x = ((pub.getD i 0 : Int) : ZMod Order)) →
      (¬ ∃ v, Returns gxBn p vals v) ∧ ¬ Stops gxBn p vals .divByZero)
    (Pr : LinProver) (hk : Pr.k = 0) :
    (Pr.convincingBn r (1 :: pub)).Finite ∧ (Pr.convincingBn r (1 :: pub)).ncard ≤ (3 * r.rows.length + 4) * Order ^ 4 := by
  have hq : 2 ^ 63 ≤ Order := by decide +kernel
  obtain ⟨m, k, hm, hx, rfl, rfl, hR⟩ := h.run hq hp hw ht hs hc
  have hM := exec_made hq hp hm hx (fin_of_clean hp hx hc)
  have ho : RunOK p.main.names p.publics rand w.s := hr.run hq hp hm hx hc
  have hl : (1 :: pub).length = (oneName :: p.publics).length := by simp [hlen]
  have hidx := C41_public_positions hR ho.publics (fun hb n hn => by
    obtain ⟨x, y, z⟩ := ho.rnd hb n hn
    refine ⟨x, y, fun g hg hno he => z ?_⟩
    rw [← he]
    rw [hM.wf.comp]
    exact List.mem_map_of_mem hg)
  have key : ∀ u : List Int, u.length = r.witnessLength → u.take (1 :: pub).length = 1 :: pub → (∀ row ∈ r.rows, SatD Order gxBn u row) → False := by
    intro u hul hut hsat
    have hget : ∀ i, i < (1 :: pub).length → u.getD i 0 = (1 :: pub).getD i 0 := by
      intro i hi
      conv_rhs => rw [← hut]
      simp only [List.getD_eq_getElem?_getD, List.getElem?_take, if_pos hi]
    have hres := C86_rows_sound hq hp hm hx hc hr gxBn_zero hR hul (by rw [hget 0 (by simp)]; simp) hsat
    obtain ⟨n1, n2⟩ := hno (valsOf Order r.index u) (fun i x hi => by
      unfold valsOf
      have hil : i < p.publics.length := (List.getElem?_eq_some_iff.1 hi).1
      rw [hidx.2.1 i x hi, hget (i + 1) (by simp; omega)]
      simp)
    rcases hres with hres | hres
    · exact n1 ⟨_, hres⟩
    · exact n2 hres
  have h1 : 0 < r.rows.length := by
    rcases Nat.eq_zero_or_pos r.rows.length with h0 | h0
    · refine (key ((1 :: pub) ++ List.replicate (r.witnessLength - (1 :: pub).length) 0) ?_ (List.take_left' rfl) fun row hrow => ?_).elim
      · have : r.witnessLength = r.index.length := rfl
        rw [List.length_append, List.length_replicate]
        omega
      · rw [List.length_eq_zero_iff.1 h0] at hrow
        simp at hrow
    · exact h0
  refine C53_bn256_plain_partial (1 :: pub) ⟨h1, hn, hM.rect ho hR, by simp, by rw [hl]; exact hpriv⟩ ?_ hE (fun u a b c => key u a b c) Pr hk
  intro s hs
  rcases List.mem_cons.1 hs with rfl | hs
  · norm_num
  · exact hpos s hs

/-! ### a program that meets all conditions -/

namespace Square
open APS.Pairing (P)

/-- "y is a square" -/
def src : List Char := "func main(x,y) {   # y is a square
  public{y}
  equal(x*x, y)
  return y
}
".toList

def prog : Program where
  before := []
  pubs := [(['y'], [])]
  main := ⟨"main".toList, [(['x'], []), (['y'], [])],
    [.call "equal".toList [.bin (Demo.op '*') (.var ['x']) (.var ['x']), .var ['y']]], .var ['y']⟩
  after := []

theorem prog_ok : prog.ok := by
  refine ⟨rfl, ?_, ?_, ?_, ?_, ?_⟩
  · decide
  · decide +kernel
  · intro F hF
    simp [prog, Program.funs] at hF
  · refine ⟨by decide, by decide +kernel, ?_, ?_⟩
    · refine ⟨?_, trivial⟩
      simp only [Stm.ok]
      rw [if_pos (show "equal".toList = LangSpec.kwEqual from rfl)]
      refine ⟨rfl, ⟨rfl, by decide, ?_, ?_⟩, ?_, trivial⟩ <;> (show _ ∈ _; decide)
    · show _ ∈ _; decide
  · decide +kernel

theorem prog_written : prog.written := by
  refine ⟨?_, ?_, ?_⟩
  · intro F hF
    simp [prog, Program.funs] at hF
  · refine ⟨by decide, ?_, ?_, ?_⟩
    · simp [prog, LangSpec.paramWritten]; decide
    · simp [prog, LangSpec.writtenAll, Stm.written, ParseSpec.Ex.ok, ParseSpec.okAll, Demo.op, ParseSpec.Ex.closed]; decide
    · simp [prog, ParseSpec.Ex.ok]; decide
  · simp [prog]; decide

theorem src_tokens : ∃ toks, TokenizesTo src toks ∧ prog.spelled (stackAllTokens toks) := by
  have h : ((APS.Lex.tokenize 400 src).map fun o => match o with
      | .closed toks => decide (prog.spelled (stackAllTokens toks))
      | .panicked _ => false) = some true := by decide +kernel
  obtain ⟨o, h1, h2⟩ := Option.map_eq_some_iff.mp h
  cases o with
  | closed toks => exact ⟨toks, ⟨400, h1⟩, by simpa using h2⟩
  | panicked toks => simp at h2

/-- the result of `GatesToR1CS`: wires 1, y, x and z = x·x; rows x·x = z and z·1 = y -/
def sys : R1CS (List Int) where
  index := [(['1'], 0), (['y'], 1), (['x'], 2), ("6616740472431544".toList, 3)]
  split := []
  rows := [⟨[0, 0, 1, 0], [0, 0, 1, 0], [0, 0, 0, 0], [0, 0, 0, 1]⟩, ⟨[0, 0, 0, 1], [1, 0, 0, 0], [0, 0, 0, 0], [0, 1, 0, 0]⟩]

theorem prog_run : ∃ m n f w, program prog.emit = some m ∧ execute H0 Order n m = some (f, w) ∧ CleanRun Order w ∧
    NoClash prog w.s ∧
    gatesToR1CS (oneName :: prog.publics) prog.main.names w.s.c.gates false = some sys := by
  have h : (((program prog.emit).bind fun m => (execute H0 Order 20 m).map fun x => (m, x)).map fun x =>
      decide (CleanRun Order x.2.2 ∧ NoClash prog x.2.2.s ∧
        gatesToR1CS (oneName :: prog.publics) prog.main.names x.2.2.s.c.gates false = some sys)) = some true := by
    decide +kernel
  obtain ⟨⟨m, f, w⟩, h1, h2⟩ := Option.map_eq_some_iff.mp h
  obtain ⟨m', h3, h4⟩ := Option.bind_eq_some_iff.mp h1
  obtain ⟨⟨f', w'⟩, h5, h6⟩ := Option.map_eq_some_iff.mp h4
  cases h6
  simp only [decide_eq_true_eq] at h2
  exact ⟨m, 20, f, w, h3, h5, h2⟩

theorem src_compiles : ∃ f w, Compiles H0 Order src false [oneName, ['y']] [['x'], ['y']] f w sys ∧ CleanRun Order w ∧
    NoClash prog w.s := by
  obtain ⟨m, n, f, w, h1, h2, h3, h4, hr⟩ := prog_run
  obtain ⟨toks, t1, t2⟩ := src_tokens
  have hin := execute_inputs (by decide +kernel) prog_ok h1 h2 (fin_of_clean prog_ok h2 h3)
  have e1 : prog.main.names = [['x'], ['y']] := by decide
  have e2 : prog.publics = [['y']] := by decide
  rw [e1] at hin hr
  rw [e2] at hr
  refine ⟨f, w, ⟨⟨toks, fun _ => none, (stackAllTokens toks).length + 2 + 1, n, m, t1, by omega, ?_, h2⟩, hin, hr⟩, h3, h4⟩
  rw [parse_spelled prog_written _ t2 (by omega), h1, ← e2]
  rfl

/-- what the program means, for all inputs -/
theorem prog_meaning {q : Nat} [Fact q.Prime] (gx : ZMod q → ZMod q) (vals : Name → ZMod q) (n : Nat) :
    LangSpec.runMain gx prog.funs prog.main (n + 3) vals =
      if vals ['x'] * vals ['x'] = vals ['y'] then .ok (vals ['y']) else .error .assertionFailed := by
  have e1 : (['x'] ∈ prog.main.names) := by decide
  have e2 : (['y'] ∈ prog.main.names) := by decide
  rw [LangSpec.runMain]
  have hb : prog.main.body = [.call "equal".toList [.bin (Demo.op '*') (.var ['x']) (.var ['x']), .var ['y']]] := rfl
  have hr : prog.main.ret = .var ['y'] := rfl
  have hk : "equal".toList = LangSpec.kwEqual := rfl
  rw [hb, hr, hk]
  by_cases h : vals ['x'] * vals ['x'] = vals ['y'] <;>
  simp [LangSpec.finish, LangSpec.runList, LangSpec.run, LangSpec.eval, LangSpec.evalList, LangSpec.get, LangSpec.arithOp, Demo.op, e1, e2,
    bind, Except.bind, h]

theorem prog_short {q : Nat} [Fact q.Prime] (gx : ZMod q → ZMod q) (vals : Name → ZMod q) {n : Nat} (hn : n < 3) :
    LangSpec.runMain gx prog.funs prog.main n vals = .error .outOfFuel := by
  rw [LangSpec.runMain]
  have hb : prog.main.body = [.call "equal".toList [.bin (Demo.op '*') (.var ['x']) (.var ['x']), .var ['y']]] := rfl
  have hk : "equal".toList = LangSpec.kwEqual := rfl
  rw [hb, hk]
  have : n = 0 ∨ n = 1 ∨ n = 2 := by omega
  rcases this with rfl | rfl | rfl <;>
  simp [LangSpec.finish, LangSpec.runList, LangSpec.run, LangSpec.eval, LangSpec.evalList, Demo.op, bind, Except.bind]

/-- it returns exactly if y = x² -/
theorem prog_returns {q : Nat} [Fact q.Prime] (gx : ZMod q → ZMod q) (vals : Name → ZMod q) (v : ZMod q) :
    Returns gx prog vals v ↔ vals ['x'] * vals ['x'] = vals ['y'] ∧ v = vals ['y'] := by
  constructor
  · rintro ⟨n, h⟩
    rcases lt_or_ge n 3 with hn | hn
    · rw [prog_short gx vals hn] at h; cases h
    · obtain ⟨n, rfl⟩ : ∃ k, n = k + 3 := ⟨n - 3, by omega⟩
      rw [prog_meaning] at h
      split at h
      · rename_i hx; cases h; exact ⟨hx, rfl⟩
      · cases h
  · rintro ⟨h, rfl⟩
    exact ⟨3, by rw [prog_meaning gx vals 0, if_pos h]⟩

theorem prog_total {q : Nat} [Fact q.Prime] (gx : ZMod q → ZMod q) (vals : Name → ZMod q) : ¬ Stops gx prog vals .divByZero := by
  rintro ⟨-, n, h⟩
  rcases lt_or_ge n 3 with hn | hn
  · rw [prog_short gx vals hn] at h; cases h
  · obtain ⟨n, rfl⟩ : ∃ k, n = k + 3 := ⟨n - 3, by omega⟩
    rw [prog_meaning] at h
    split at h <;> cases h

theorem sys_noExp : NoExp Order sys := by
  unfold NoExp
  decide +kernel

theorem five_nonsquare : ¬ ∃ x : ZMod Order, x * x = 5 := by
  rintro ⟨x, hx⟩
  have h5 : ((5 : Int) : ZMod Order) ≠ 0 := by decide +kernel
  have h1 : legendreSym Order 5 = 1 := (legendreSym.eq_one_iff Order h5).2 ⟨x, by rw [hx]; norm_num⟩
  have h2 : jacobiSym 5 Order = -1 := by
    unfold Order
    norm_num
  rw [← jacobiSym.legendreSym.to_jacobiSym] at h2
  rw [h1] at h2
  norm_num at h2

/-- C93 on the source text: no prover of this kind convinces the verifier that 5 is a square, but for a vanishing part of the secrets -/
example (Pr : LinProver) (hk : Pr.k = 0) : (Pr.convincingBn sys [1, 5]).Finite ∧ (Pr.convincingBn sys [1, 5]).ncard ≤ 10 * Order ^ 4 := by
  obtain ⟨f, w, h, hc, hr⟩ := src_compiles
  obtain ⟨toks, t1, t2⟩ := src_tokens
  refine C93_proof_to_text_partial prog_ok prog_written t1 t2 h hc hr (Fact.out : Order.Prime).two_le
    (by decide) sys_noExp [5] (by decide) (by decide) (fun vals hv => ⟨?_, prog_total _ _⟩) Pr hk
  rintro ⟨v, h⟩
  obtain ⟨ha, -⟩ := (prog_returns _ _ _).1 h
  have := hv 0 ['y'] (by decide)
  exact five_nonsquare ⟨_, ha.trans (by rw [this]; norm_num)⟩

/-- the inputs x = 3, y = 9 -/
def vals9 : Name → ZMod Order := fun x => if x = ['x'] then 3 else 9

theorem sys_sat : ∀ row ∈ sys.rows, SatD Order gxBn [1, 9, 3, 9] row := by
  have h1 : ∀ row ∈ sys.rows, dot Order (denseEntry row.E) [1, 9, 3, 9] = 0 := by decide +kernel
  have h2 : ∀ row ∈ sys.rows, dot Order (denseEntry row.L) [1, 9, 3, 9] * dot Order (denseEntry row.R) [1, 9, 3, 9] =
    dot Order (denseEntry row.O) [1, 9, 3, 9] := by decide +kernel
  intro row hrow
  unfold SatD RowSat
  rw [h1 row hrow, gxBn_zero, add_zero, h2 row hrow]

theorem sys_safe : (denseSys Order sys).Safe gxBn 2 (secretsOf Order toxEx) (assign Order [1, 9, 3, 9]) := by
  have h0 : ∀ j, j < 2 → rowVal (denseSys Order sys).m (denseSys Order sys).E (assign Order [1, 9, 3, 9]) j = 0 := by decide +kernel
  refine safe_two' _ rfl _ _ _ _ ?_ (by decide +kernel) (by decide +kernel)
    (fun M i => M 0 i + (M 1 i - M 0 i) * 5) (fun _ _ => by norm_num [secretsOf, toxEx])
    (fun i => 7 * ((denseSys Order sys).R 0 i + ((denseSys Order sys).R 1 i - (denseSys Order sys).R 0 i) * 5) +
      11 * ((denseSys Order sys).L 0 i + ((denseSys Order sys).L 1 i - (denseSys Order sys).L 0 i) * 5) +
      11 * ((denseSys Order sys).E 0 i + ((denseSys Order sys).E 1 i - (denseSys Order sys).E 0 i) * 5) +
      ((denseSys Order sys).O 0 i + ((denseSys Order sys).O 1 i - (denseSys Order sys).O 0 i) * 5))
    (fun _ => by norm_num [secretsOf, toxEx])
    (by decide +kernel) (by decide +kernel) (by decide +kernel) (by decide +kernel) ?_
  · exact (sat_dense sys _ _ rfl).1 sys_sat
  · rw [h0 0 (by norm_num), h0 1 (by norm_num), gxBn_zero]
    decide +kernel

/-- C91, C92 on the source text: the run on x = 3, y = 9 gives the witness 1, 9, 3, 9 and a proof that the verifier accepts for 1, 9 -/
example : calculateWitness Order gxGo sys 0 [(['x'], 3), (['y'], 9)] = some [1, 9, 3, 9] ∧
    ∃ pk pf, honestRun bnRaw Order 2 sys toxEx [1, 9, 3, 9] = some (pk, pf) ∧ verifyProof bnRaw pk pf [1, 9] = some true := by
  obtain ⟨f, w, h, hc, hr⟩ := src_compiles
  obtain ⟨toks, t1, t2⟩ := src_tokens
  have hw : calculateWitness Order gxGo sys 0 [(['x'], 3), (['y'], 9)] = some [1, 9, 3, 9] := by decide +kernel
  have hs : signals prog vals9 = [1, 9] := by decide +kernel
  obtain ⟨u, h1, h2, h3⟩ := C92_text_to_proof_partial prog_ok prog_written t1 t2 h hc hr (by decide) (Fact.out : Order.Prime).two_le
    (by decide) sys_noExp ((prog_returns gxBn vals9 9).2 (by decide +kernel)) (inputs := [(['x'], 3), (['y'], 9)])
    ⟨by decide, by decide +kernel⟩ (rnd := 0) le_rfl (by decide +kernel)
  rw [hw] at h1
  cases h1
  obtain ⟨pk, pf, a, b⟩ := h3 toxEx toxEx_ok_bn sys_safe
  rw [hs] at b
  exact ⟨hw, pk, pf, a, b (fresh_of_run a (by decide +kernel))⟩

end Square

end APS.Prog
