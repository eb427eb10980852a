import Verif.Props.Progress
import Verif.Props.EndToEnd

/-!
C112: a text that demands equations between sums and products, from the compiler to the verifier: inputs that solve the equations have an accepted proof, and
if nothing solves them for the public values, (almost) no proof of a linear prover is accepted.
-/
namespace APS.Prog
open APS.Circuit hiding execute compile Prog
open APS.Lex (Token stackAllTokens)
open APS.LexSpec (TokenizesTo)
open APS.LangSpec (Fun Stm Program equations SumProd atOnes valueOf LongHash)
open APS.ParseSpec (Ex)
open APS.Spec hiding Err
open APS.Snark
open APS.Pairing (Order Pt Gfp2 bnRaw)

variable {H : Name → Nat} {q : Nat}

theorem mapM_mem {α β : Type} {g : α → Option β} : ∀ {l : List α} {r : List β}, l.mapM g = some r → ∀ y ∈ r, ∃ x ∈ l, g x = some y
  | [], r, h, y, hy => by cases h; simp at hy
  | x :: l, r, h, y, hy => by
    rw [List.mapM_cons] at h
    obtain ⟨z, h0, h⟩ := Option.bind_eq_some_iff.mp h
    obtain ⟨zs, h1, h⟩ := Option.bind_eq_some_iff.mp h
    cases h
    rcases List.mem_cons.mp hy with rfl | hy
    · exact ⟨x, List.mem_cons_self, h0⟩
    · obtain ⟨x', h2, h3⟩ := mapM_mem h1 y hy
      exact ⟨x', List.mem_cons_of_mem _ h2, h3⟩

theorem swapLonger_typ (g : Gate) : (swapLonger g).typ = g.typ := by
  unfold swapLonger
  split <;> rfl

theorem rowDense_E {m : IndexMap} {g : Gate} {row : Row (List Int)} (hg : g.typ ≠ .scalarBase) (h : rowDense m g = some row) :
    row.E = List.replicate m.length 0 := by
  unfold rowDense at h
  rw [← swapLonger_typ g] at hg
  cases ht : (swapLonger g).typ <;> simp only [ht] at h
  · obtain ⟨a, -, h⟩ := Option.bind_eq_some_iff.mp h
    obtain ⟨b, -, h⟩ := Option.bind_eq_some_iff.mp h
    obtain ⟨c, -, h⟩ := Option.bind_eq_some_iff.mp h
    cases h; rfl
  · exact (hg ht).elim
  · obtain ⟨a, -, h⟩ := Option.bind_eq_some_iff.mp h
    obtain ⟨b, -, h⟩ := Option.bind_eq_some_iff.mp h
    cases h; rfl
  · obtain ⟨a, -, h⟩ := Option.bind_eq_some_iff.mp h
    obtain ⟨b, -, h⟩ := Option.bind_eq_some_iff.mp h
    cases h; rfl
  · obtain ⟨a, -, h⟩ := Option.bind_eq_some_iff.mp h
    cases h; rfl
  · cases h; rfl

/-- without base multiplications and without the randomizer the fourth matrix is 0 -/
theorem noExp_of_gates {pubs ins : List Name} {gates : List Gate} {r : R1CS (List Int)} (h : gatesToR1CS pubs ins gates false = some r)
    (hg : ∀ g ∈ gates, g.typ ≠ .scalarBase) : NoExp q r := by
  obtain ⟨⟨m, sp⟩, -, h⟩ := Option.bind_eq_some_iff.mp h
  obtain ⟨rows, h1, h⟩ := Option.bind_eq_some_iff.mp h
  cases h
  intro row hrow k hk
  obtain ⟨g, h2, h3⟩ := mapM_mem h1 row hrow
  rw [rowDense_E (hg g h2) h3] at hk
  rw [(List.mem_replicate.mp hk).2]
  exact dvd_zero _

/-- what is known of a compiled text of this kind -/
theorem systems_facts [Fact q.Prime] (hH : LongHash H) {p : Program} (hp : p.ok) (hw : p.written) {src : List Char} {toks : List Token}
    (ht : TokenizesTo src toks) (hs : p.spelled (stackAllTokens toks)) {eqs : List (Ex × Ex)} (hb : p.main.body = equations eqs)
    (hes : ∀ e ∈ eqs, (SumProd p.main.names e.1 ∧ SumProd p.main.names e.2) ∧ atOnes e.1 < q ∧ atOnes e.2 < q)
    (he : SumProd p.main.names p.main.ret) (hlt : atOnes p.main.ret < q) {pubs ins : List Name} {f : Factors} {w : W} {r : R1CS (List Int)}
    (h : Compiles H q src false pubs ins f w r) :
    CleanRun q w ∧ NoConstSplit w.s ∧ NoExp q r ∧ r.rows.length ≤ LangSpec.equationsSize eqs + LangSpec.muls p.main.ret + 1 := by
  obtain ⟨⟨toks', rf, n, k, m', h1, h2, h3, h4⟩, h5, h6⟩ := id h
  obtain ⟨m, k1, hm, hx⟩ : ∃ m k, program p.emit = some m ∧ execute H q k m = some (f, w) := by
    have : toks' = toks := by
      obtain ⟨a, ha⟩ := h1
      obtain ⟨b, hb⟩ := ht
      have := APS.Lex.RunsTo.det ⟨a, ha⟩ ⟨b, hb⟩
      cases this
      rfl
    subst this
    obtain ⟨n, rfl⟩ : ∃ n', n = n' + 1 := ⟨n - 1, by omega⟩
    rw [parse_spelled hw rf hs (by omega)] at h3
    obtain ⟨m', hm, e⟩ := Option.map_eq_some_iff.mp h3
    cases e
    exact ⟨m', k, hm, h4⟩
  obtain ⟨k', f', w', e1, e2, e3, e4, e5⟩ := execute_total hH hp hm hb hes he hlt
  have a := execute_le (Nat.le_max_left k1 k') m _ hx
  have b := execute_le (Nat.le_max_right k1 k') m _ e1
  rw [a] at b
  cases b
  refine ⟨⟨e2, by simp [e3]⟩, fun g hg hs => (hs.elim (e4 g hg).1 (e4 g hg).2.1).elim, noExp_of_gates h6 fun g hg => (e4 g hg).2.2, ?_⟩
  rw [C111_rows h6]
  simpa using e5

/-- C112, completeness: for inputs that solve the equations of the text, the witness is calculated, and whatever the secrets of the setup - the key and the proof are
generated and the verifier accepts the proof for the public inputs.  Partial, as C92: none of the in-place additions may add a point to itself, and the `t` fields are up to date. -/
theorem C112_solution_accepted_partial (hH : LongHash H) {p : Program} (hp : p.ok) (hw : p.written) {src : List Char} {toks : List Token}
    (ht : TokenizesTo src toks) (hs : p.spelled (stackAllTokens toks)) {eqs : List (Ex × Ex)} (hb : p.main.body = equations eqs)
    (hes : ∀ e ∈ eqs, (SumProd p.main.names e.1 ∧ SumProd p.main.names e.2) ∧ atOnes e.1 < Order ∧ atOnes e.2 < Order)
    (he : SumProd p.main.names p.main.ret) (hlt : atOnes p.main.ret < Order) (hpub : p.publics.Nodup)
    (hsz : LangSpec.equationsSize eqs + LangSpec.muls p.main.ret + 1 ≤ Order)
    {pubs ins : List Name} {f : Factors} {w : W} {r : R1CS (List Int)} (h : Compiles H Order src false pubs ins f w r) (hconf : NoConfusion w.s)
    (h2 : 2 ≤ r.rows.length) (hpriv : pubs.length < r.index.length)
    {vals : Name → ZMod Order} (hv : ∀ e ∈ eqs, valueOf vals e.1 = valueOf vals e.2) {inputs : List (Name × Int)} (hin : InputsFor ins vals inputs) :
    ∃ u, calculateWitness Order gxGo r 0 inputs = some u ∧ u.take pubs.length = signals p vals ∧
      ∀ tox, ToxicOK Order tox → (denseSys Order r).Safe gxBn pubs.length (secretsOf Order tox) (assign Order u) →
        ∃ pk pf, honestRun bnRaw Order pubs.length r tox u = some (pk, pf) ∧
          (FreshT pk pf → verifyProof bnRaw pk pf (signals p vals) = some true) := by
  have hq : 2 ^ 63 ≤ Order := by decide +kernel
  obtain ⟨h3, h5, h6, h7⟩ := systems_facts hH hp hw ht hs hb hes he hlt h
  exact C92_text_to_proof_partial hp hw ht hs h h3 ⟨hconf, h5, hpub⟩ h2 (by omega) hpriv h6
    ((sums_returns hq hb (fun e h => (hes e h).1) he gxBn vals).1 hv) hin le_rfl (by decide +kernel)

/-- C112, soundness: if no inputs with the given public values solve the equations, a prover that builds A, B and C out of the published key by group operations and leaves F trivial
convinces the verifier for at most `(3·(signs of multiplication + equations + 1) + 4)·q⁴` of the `q³(q-1)²` choices of the secrets. -/
theorem C112_no_solution_no_proof_partial (hH : LongHash H) {p : Program} (hp : p.ok) (hw : p.written) {src : List Char} {toks : List Token}
    (ht : TokenizesTo src toks) (hs : p.spelled (stackAllTokens toks)) {eqs : List (Ex × Ex)} (hb : p.main.body = equations eqs)
    (hes : ∀ e ∈ eqs, (SumProd p.main.names e.1 ∧ SumProd p.main.names e.2) ∧ atOnes e.1 < Order ∧ atOnes e.2 < Order)
    (he : SumProd p.main.names p.main.ret) (hlt : atOnes p.main.ret < Order) (hpub : p.publics.Nodup)
    (hsz : LangSpec.equationsSize eqs + LangSpec.muls p.main.ret + 1 ≤ Order)
    {pubs ins : List Name} {f : Factors} {w : W} {r : R1CS (List Int)} (h : Compiles H Order src false pubs ins f w r) (hconf : NoConfusion w.s)
    (hpriv : pubs.length < r.index.length)
    (pub : List Int) (hlen : pub.length = p.publics.length) (hpos : ∀ s ∈ pub, 0 ≤ s)
    (hno : ∀ vals : Name → ZMod Order, (∀ i x, p.publics[i]? = some x → vals x = ((pub.getD i 0 : Int) : ZMod Order)) →
      ¬ ∀ e ∈ eqs, valueOf vals e.1 = valueOf vals e.2)
    (Pr : LinProver) (hk : Pr.k = 0) :
    (Pr.convincingBn r (1 :: pub)).Finite ∧
      (Pr.convincingBn r (1 :: pub)).ncard ≤ (3 * (LangSpec.equationsSize eqs + LangSpec.muls p.main.ret + 1) + 4) * Order ^ 4 := by
  have hq : 2 ^ 63 ≤ Order := by decide +kernel
  obtain ⟨h3, h5, h6, h7⟩ := systems_facts hH hp hw ht hs hb hes he hlt h
  obtain ⟨a, b⟩ := C93_proof_to_text_partial hp hw ht hs h h3 ⟨hconf, h5, hpub⟩ (by omega) hpriv h6 pub hlen hpos (fun vals hv => by
    have hstop := (sums_returns hq hb (fun e h => (hes e h).1) he gxBn vals).2 (hno vals hv)
    exact ⟨fun ⟨v, h⟩ => Returns.not_stops h hstop, fun h => by cases Stops.unique h hstop⟩) Pr hk
  exact ⟨a, b.trans (Nat.mul_le_mul_right _ (by omega))⟩

/-! ### a text that meets all conditions: "y is a square" -/

namespace Square
open Sums (H1 H1_long)

def eqs : List (Ex × Ex) := [(.bin (Demo.op '*') (.var ['x']) (.var ['x']), .var ['y'])]

theorem eqs_sums : ∀ e ∈ eqs, (SumProd prog.main.names e.1 ∧ SumProd prog.main.names e.2) ∧ atOnes e.1 < Order ∧ atOnes e.2 < Order := by
  intro e he
  rw [List.mem_singleton.mp he]
  exact ⟨⟨.mul (.var (by decide)) (.var (by decide)), .var (by decide)⟩, by decide +kernel, by decide +kernel⟩

theorem eqs_iff (vals : Name → ZMod Order) : (∀ e ∈ eqs, valueOf vals e.1 = valueOf vals e.2) ↔ vals ['x'] * vals ['x'] = vals ['y'] := by
  simp [eqs, valueOf, Demo.op]

/-- the text is compiled with the hash `H1`: two rows and four wires -/
theorem compiles1 : ∃ f w r, Compiles H1 Order src false [oneName, ['y']] [['x'], ['y']] f w r ∧ NoConfusion w.s ∧ r.rows.length = 2 ∧ r.index.length = 4 := by
  have h : (((program prog.emit).bind fun m => (execute H1 Order 20 m).map fun x => (m, x)).bind fun x =>
      (gatesToR1CS (oneName :: prog.publics) prog.main.names x.2.2.s.c.gates false).map fun r => (x, r)).map (fun x =>
      decide (NoConfusion x.1.2.2.s ∧ x.2.rows.length = 2 ∧ x.2.index.length = 4 ∧ mainInputs x.1.2.2.m = some [['x'], ['y']])) = some true := by
    decide +kernel
  obtain ⟨⟨⟨m0, f, w⟩, r⟩, h1, h2⟩ := Option.map_eq_some_iff.mp h
  obtain ⟨⟨m, f', w'⟩, h3, h4⟩ := Option.bind_eq_some_iff.mp h1
  obtain ⟨m', h5, h6⟩ := Option.bind_eq_some_iff.mp h3
  obtain ⟨⟨f'', w''⟩, h7, h8⟩ := Option.map_eq_some_iff.mp h6
  cases h8
  obtain ⟨r', h9, h10⟩ := Option.map_eq_some_iff.mp h4
  cases h10
  simp only [decide_eq_true_eq] at h2
  obtain ⟨k1, k2, k3, hin⟩ := h2
  obtain ⟨toks, t1, t2⟩ := src_tokens
  have e1 : prog.main.names = [['x'], ['y']] := by decide
  have e2 : prog.publics = [['y']] := by decide
  rw [e1, e2] at h9
  refine ⟨f, w, r, ⟨⟨toks, fun _ => none, (stackAllTokens toks).length + 2 + 1, 20, _, t1, by omega, ?_, h7⟩, hin, h9⟩, k1, k2, k3⟩
  rw [parse_spelled prog_written _ t2 (by omega), h5, ← e2]
  rfl

/-- C112 on this text: for every square there is a witness, and 5 is none, so its proofs are rejected -/
theorem C112_demo : ∃ f w r, Compiles H1 Order src false [oneName, ['y']] [['x'], ['y']] f w r ∧
    (∀ x : ZMod Order, ∃ u, calculateWitness Order gxGo r 0 [(['x'], x.val), (['y'], (x * x).val)] = some u ∧ u.take 2 = [1, ((x * x).val : Int)]) ∧
    ∀ Pr : LinProver, Pr.k = 0 → (Pr.convincingBn r [1, 5]).Finite ∧ (Pr.convincingBn r [1, 5]).ncard ≤ 13 * Order ^ 4 := by
  obtain ⟨f, w, r, h, hconf, h2, h4⟩ := compiles1
  obtain ⟨toks, t1, t2⟩ := src_tokens
  have hy : SumProd prog.main.names prog.main.ret := .var (by decide)
  refine ⟨f, w, r, h, fun x => ?_, fun Pr hk => ?_⟩
  · obtain ⟨u, a, b, -⟩ := C112_solution_accepted_partial H1_long prog_ok prog_written t1 t2 (eqs := eqs) rfl eqs_sums hy (by decide +kernel) (by decide)
      (by decide +kernel) h hconf (by omega) (by rw [h4]; decide) (vals := fun n => if n = ['x'] then x else x * x)
      ((eqs_iff _).2 (by simp)) (inputs := [(['x'], x.val), (['y'], (x * x).val)])
      ⟨by simp, by simp⟩
    exact ⟨u, a, by simpa [signals, prog, Program.publics] using b⟩
  · exact C112_no_solution_no_proof_partial H1_long prog_ok prog_written t1 t2 (eqs := eqs) rfl eqs_sums hy (by decide +kernel) (by decide)
      (by decide +kernel) h hconf (by rw [h4]; decide) [5] (by decide) (by decide) (fun vals hv hall => by
        have h0 := hv 0 ['y'] (by decide)
        exact five_nonsquare ⟨_, ((eqs_iff vals).1 hall).trans (by rw [h0]; norm_num)⟩) Pr hk

end Square

end APS.Prog
