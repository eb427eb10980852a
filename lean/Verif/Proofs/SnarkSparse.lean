import Verif.Proofs.SnarkForge
import Verif.Proofs.SparseCanon

/-! The sparse pipeline of the proof system. -/
namespace APS.Snark
open Polynomial APS.Spec APS.Circuit APS.Avl APS.Avl.Tree APS.Sparse

variable {q : Nat} [Fact q.Prime]
variable {G1 G2 GT : Type} [AddCommGroup G1] [AddCommGroup G2] [AddCommGroup GT] {api : Api G1 G2 GT}
  {g1 : G1} {g2 : G2}

theorem sparseEntry_val (t : Tree) (i : Nat) : sparseEntry t i = t.val i := rfl

theorem interpS_spec {n : Nat} (hn : n ≤ q) (h0 : 0 < n) {t : Tree} (ht : Inv t) (hk : ∀ k, t.val k ≠ 0 → k < n) :
    ∃ p, interpS q n t = some p ∧ Inv p ∧ CanonV q p ∧ Denotes q p.val (through n (fun j => ((t.val j : Int) : ZMod q))) := by
  have hm : t.maxPower < n := maxPower_lt ht h0 hk
  obtain ⟨r, c', R, e1, -, e3, e4, e5, e6⟩ := (C24_interpolate q Fact.out (Sparse.CacheReachable.empty) ht n hn).1 hm
  have hc : CanonV q r := by
    have h := e1
    unfold interpolate at h
    rw [if_neg (by omega)] at h
    refine (interpLoop_canon n hn _ _ _ _ _ ?_ ?_ inv_nil (canonV_nil (Fact.out : q.Prime).pos) h).2
    · intro k v hv; simp at hv
    · rintro ⟨k, v⟩ he
      have := (mem_toList_iff ht k v).1 he
      exact hk k (by rw [this.2]; exact this.1)
  refine ⟨r, by simp [interpS, e1], e3, hc, ?_⟩
  rw [← through_unique hn e5 e6]; exact e4

theorem evalS_spec {p : Tree} (h : Inv p) (hc : CanonV q p) {P : (ZMod q)[X]} (hP : Denotes q p.val P) (x : Int)
    (hx : 0 ≤ x ∧ x < q) : ∃ r, evalSparsePoly q p x = some r ∧ (r : ZMod q) = P.eval (x : ZMod q) ∧ 0 ≤ r := by
  obtain ⟨r, e1, e2, e3⟩ := C21_eval q Fact.out h hP x (by
    by_cases h0 : x = 0
    · exact Or.inl h0
    · right; intro hd; have := Int.le_of_dvd (by omega) hd; omega)
  refine ⟨r, e1, e2, ?_⟩
  by_cases h0 : x = 0
  · subst h0
    have : p.val 0 = r := by simpa [evalSparsePoly, val] using e1
    rw [← this]; exact (hc 0).1
  · exact (e3 h0).1

/-- a list of trees holds the columns of a matrix -/
def ColsS (m : Nat) (M : Nat → Nat → Int) (cols : List Tree) : Prop :=
  List.Forall₂ (fun i t => Inv t ∧ ∀ j, t.val j = M j i) (List.range m) cols

theorem transposeS_spec (rows : List Tree) (m : Nat) (h : ∀ t ∈ rows, SparseRow m t) :
    ∃ cols, Sparse.transposeSparse rows m = some cols ∧ ColsS m (fun j i => (rows.getD j nil).val i) cols := by
  obtain ⟨cols, e1, e2, e3, e4⟩ := transposeLoop_spec rows 0 (List.replicate m nil) (fun t ht => (h t ht).1)
    (fun t ht k hk => by simpa using (h t ht).2 k hk)
    (by intro c hc; rw [List.eq_of_mem_replicate hc]; exact inv_nil)
    (by intro c hc i _; rw [List.eq_of_mem_replicate hc]; simp [val, Tree.get])
  rw [List.length_replicate] at e2
  refine ⟨cols, e1, ?_⟩
  rw [ColsS, List.forall₂_iff_get]
  refine ⟨by simp [e2], fun i h1 h2 => ?_⟩
  have hi : i < m := by simpa using h1
  refine ⟨by simpa using e3 _ (List.getElem_mem h2), fun j => ?_⟩
  have := e4 i nil (cols[i]) (by simp [hi]) (List.getElem?_eq_getElem h2) j
  simpa using this

/-- entry of a row list -/
def entryS (rows : List Tree) (j i : Nat) : Int := (rows.getD j nil).val i

theorem transposeR1CSS_spec (r : R1CS Tree)
    (hrect : ∀ row ∈ r.rows, SparseRow r.index.length row.L ∧ SparseRow r.index.length row.R ∧
      SparseRow r.index.length row.E ∧ SparseRow r.index.length row.O) :
    ∃ tr, transposeR1CSS r = some tr ∧ tr.witnessLength = r.index.length ∧ tr.numberOfGates = r.rows.length ∧
      ColsS r.index.length (entryS (r.rows.map Row.L)) tr.L ∧ ColsS r.index.length (entryS (r.rows.map Row.R)) tr.R ∧
      ColsS r.index.length (entryS (r.rows.map Row.E)) tr.E ∧ ColsS r.index.length (entryS (r.rows.map Row.O)) tr.O := by
  obtain ⟨L, l1, l2⟩ := transposeS_spec (r.rows.map Row.L) r.index.length (by
    intro t ht; obtain ⟨row, hr, rfl⟩ := List.mem_map.1 ht; exact (hrect row hr).1)
  obtain ⟨R, r1, r2⟩ := transposeS_spec (r.rows.map Row.R) r.index.length (by
    intro t ht; obtain ⟨row, hr, rfl⟩ := List.mem_map.1 ht; exact (hrect row hr).2.1)
  obtain ⟨E, e1, e2⟩ := transposeS_spec (r.rows.map Row.E) r.index.length (by
    intro t ht; obtain ⟨row, hr, rfl⟩ := List.mem_map.1 ht; exact (hrect row hr).2.2.1)
  obtain ⟨O, o1, o2⟩ := transposeS_spec (r.rows.map Row.O) r.index.length (by
    intro t ht; obtain ⟨row, hr, rfl⟩ := List.mem_map.1 ht; exact (hrect row hr).2.2.2)
  refine ⟨⟨r.witnessLength, r.numberOfGates, L, R, E, O⟩, ?_, rfl, rfl, l2, r2, e2, o2⟩
  unfold transposeR1CSS
  simp only [R1CS.witnessLength, Option.bind_eq_bind, l1, r1, e1, o1, Option.bind_some]; rfl

theorem entryS_out (rows : List Tree) (j i : Nat) (h : rows.length ≤ j) : entryS rows j i = 0 := by
  unfold entryS; rw [List.getD_eq_default _ _ h]; simp [val, Tree.get]

theorem eapLoopS_spec (n W : Nat) (hnW : n ≤ W) (hW : W ≤ q) (h0 : 0 < W) (L R E O : Nat → Nat → Int)
    (hL : ∀ j i, n ≤ j → L j i = 0) (hR : ∀ j i, n ≤ j → R j i = 0) (hE : ∀ j i, n ≤ j → E j i = 0) (hO : ∀ j i, n ≤ j → O j i = 0)
    (is : List Nat) : ∀ (cL cR cE cO : List Tree),
      List.Forall₂ (fun i t => Inv t ∧ ∀ j, t.val j = L j i) is cL → List.Forall₂ (fun i t => Inv t ∧ ∀ j, t.val j = R j i) is cR →
      List.Forall₂ (fun i t => Inv t ∧ ∀ j, t.val j = E j i) is cE → List.Forall₂ (fun i t => Inv t ∧ ∀ j, t.val j = O j i) is cO →
    ∃ cols, eapLoopS q W cL cR cE cO = some cols ∧
      List.Forall₂ (fun i (c : Tree × Tree × Tree × Tree) =>
        (Inv c.1 ∧ CanonV q c.1 ∧ Denotes q c.1.val (through W (fun j => ((L j i : Int) : ZMod q)))) ∧
        (Inv c.2.1 ∧ CanonV q c.2.1 ∧ Denotes q c.2.1.val (through W (fun j => ((R j i : Int) : ZMod q)))) ∧
        (Inv c.2.2.1 ∧ CanonV q c.2.2.1 ∧ Denotes q c.2.2.1.val (through W (fun j => ((E j i : Int) : ZMod q)))) ∧
        (Inv c.2.2.2 ∧ CanonV q c.2.2.2 ∧ Denotes q c.2.2.2.val (through W (fun j => ((O j i : Int) : ZMod q))))) is cols := by
  have hone : ∀ (M : Nat → Nat → Int), (∀ j i, n ≤ j → M j i = 0) → ∀ (i : Nat) (t : Tree), (Inv t ∧ ∀ j, t.val j = M j i) →
      ∃ p, interpS q W t = some p ∧ Inv p ∧ CanonV q p ∧ Denotes q p.val (through W (fun j => ((M j i : Int) : ZMod q))) := by
    intro M hM i t ⟨h1, h2⟩
    obtain ⟨p, p1, p2, p3, p4⟩ := interpS_spec hW h0 h1 (fun k hk => by
      by_contra hlt
      rw [h2, hM k i (by omega)] at hk
      exact hk rfl)
    exact ⟨p, p1, p2, p3, by simpa only [h2] using p4⟩
  induction is with
  | nil => intro cL cR cE cO h1 h2 h3 h4; cases h1; exact ⟨[], rfl, .nil⟩
  | cons i is ih =>
    intro cL cR cE cO h1 h2 h3 h4
    cases h1 with
    | cons a1 b1 =>
    cases h2 with
    | cons a2 b2 =>
    cases h3 with
    | cons a3 b3 =>
    cases h4 with
    | cons a4 b4 =>
    obtain ⟨cols, c1, c2⟩ := ih _ _ _ _ b1 b2 b3 b4
    obtain ⟨l, l1, l2⟩ := hone L hL i _ a1
    obtain ⟨r, r1, r2⟩ := hone R hR i _ a2
    obtain ⟨e, e1, e2⟩ := hone E hE i _ a3
    obtain ⟨o, o1, o2⟩ := hone O hO i _ a4
    refine ⟨(l, r, e, o) :: cols, ?_, .cons ⟨l2, r2, e2, o2⟩ c2⟩
    simp only [eapLoopS, l1, r1, e1, o1, c1]; rfl

theorem through_const {n : Nat} (hn : n ≤ q) (h0 : 0 < n) (c : ZMod q) : through (q := q) n (fun _ => c) = C c := by
  symm
  refine through_unique hn (lt_of_le_of_lt degree_C_le ?_) (by simp)
  exact_mod_cast h0

theorem keySys_col (S : Sys q) (hn : S.n ≤ q) (h0 : 0 < S.n) (x y : ZMod q) (M : Nat → Nat → ZMod q) (i : Nat) :
    (((S.keySys x).col (fun _ i => S.wide M x i) i).eval y) = S.wide M x i := by
  unfold Sys.col
  rw [show (S.keySys x).n = S.n from rfl, through_const hn h0, eval_C]

theorem trustedSetupSparse_spec (H : Laws api q g1 g2) (r : R1CS Tree) {pub : Nat} {w : List Int} (hu : UsableS q pub r w)
    {tox : Toxic} (ht : ToxicOK q tox) {tr : TransposedS} (hw : tr.witnessLength = r.index.length)
    (hg : tr.numberOfGates = r.rows.length) (hL : ColsS r.index.length (entryS (r.rows.map Row.L)) tr.L)
    (hR : ColsS r.index.length (entryS (r.rows.map Row.R)) tr.R) (hE : ColsS r.index.length (entryS (r.rows.map Row.E)) tr.E)
    (hO : ColsS r.index.length (entryS (r.rows.map Row.O)) tr.O) :
    ∃ pk, trustedSetupSparse api q pub tr tox = some pk ∧
      PkOK H ((sparseSys q r).keySys tox.x) pub (secretsOf q tox) pk := by
  have hW0 : 0 < r.index.length := lt_of_le_of_lt (Nat.zero_le _) hu.pub
  have hnq : r.rows.length ≤ q := hu.gates.trans hu.small
  have hz : ∀ f : Row Tree → Tree, ∀ j i, r.rows.length ≤ j → entryS (r.rows.map f) j i = 0 := fun f j i h =>
    entryS_out _ _ _ (by simpa using h)
  obtain ⟨cols, c1, c2⟩ := eapLoopS_spec (q := q) r.rows.length r.index.length hu.gates hu.small hW0
    (entryS (r.rows.map Row.L)) (entryS (r.rows.map Row.R)) (entryS (r.rows.map Row.E)) (entryS (r.rows.map Row.O))
    (hz _) (hz _) (hz _) (hz _) (List.range r.index.length) tr.L tr.R tr.E tr.O hL hR hE hO
  have hcl : cols.length = r.index.length := by rw [← c2.length_eq]; simp
  set S := sparseSys q r with hS
  obtain ⟨vals, v1, v2⟩ := mapM_forall₂ (f := evalQuadS q tox.x)
    (Q := fun i v => QuadOK ((((S.keySys tox.x).col (S.keySys tox.x).L i)).eval (secretsOf q tox).x)
      (((S.keySys tox.x).col (S.keySys tox.x).R i).eval (secretsOf q tox).x)
      (((S.keySys tox.x).col (S.keySys tox.x).E i).eval (secretsOf q tox).x)
      (((S.keySys tox.x).col (S.keySys tox.x).O i).eval (secretsOf q tox).x) v) (by
    rintro i c ⟨⟨a1, a2, a3⟩, ⟨b1, b2, b3⟩, ⟨d1, d2, d3⟩, ⟨e1, e2, e3⟩⟩
    obtain ⟨l, l1, l2, l3⟩ := evalS_spec a1 a2 a3 tox.x ht.x
    obtain ⟨rr, r1, r2, r3⟩ := evalS_spec b1 b2 b3 tox.x ht.x
    obtain ⟨e, f1, f2, f3⟩ := evalS_spec d1 d2 d3 tox.x ht.x
    obtain ⟨o, o1, o2, o3⟩ := evalS_spec e1 e2 e3 tox.x ht.x
    refine ⟨(l, rr, e, o), by unfold evalQuadS; rw [l1, r1, f1, o1]; rfl, ⟨?_, ?_, ?_, ?_⟩, f3⟩
    · exact l2.trans (keySys_col S hnq hu.rows tox.x _ S.L i).symm
    · exact r2.trans (keySys_col S hnq hu.rows tox.x _ S.R i).symm
    · exact f2.trans (keySys_col S hnq hu.rows tox.x _ S.E i).symm
    · exact o2.trans (keySys_col S hnq hu.rows tox.x _ S.O i).symm) c2
  obtain ⟨pk, p1, p2⟩ := setupFrom_spec H (S.keySys tox.x) hu.rows pub (le_of_lt hu.pub) ht (vals := vals) v2
  refine ⟨pk, ?_, p2⟩
  unfold trustedSetupSparse er1csToEAPSparse
  simp only [Option.bind_eq_bind]
  have hp := hu.pub
  rw [hw, c1, Option.bind_some, if_neg (by omega), if_neg (by omega), ← hcl, List.take_length, v1, Option.bind_some, hg]
  exact p1

/-! ### the prover -/

theorem val_denotes_keys {t : Tree} (hc : CanonV q t) {P : (ZMod q)[X]} (hP : Denotes q t.val P) {n : Nat} (hd : P.degree < n)
    (k : Nat) (hk : t.val k ≠ 0) : k < n := by
  by_contra h
  have h1 : P.coeff k = 0 := coeff_eq_zero_of_degree_lt (lt_of_lt_of_le hd (by exact_mod_cast (by omega : n ≤ k)))
  rw [hP k, ZMod.intCast_zmod_eq_zero_iff_dvd] at h1
  exact hc.reduced k hk h1

theorem columnSumS_spec (n m : Nat) (M : Nat → Nat → Int) (hM : ∀ j i, n ≤ j → M j i = 0) (cols : List Tree) (hcols : ColsS m M cols)
    (w : List Int) (hw : w.length = m) :
    ∃ t, columnSumS q cols w = some t ∧ Inv t ∧ CanonV q t ∧ (∀ k, t.val k ≠ 0 → k < n) ∧
      ∀ j, ((t.val j : Int) : ZMod q) = rowVal m (fun j i => ((M j i : Int) : ZMod q)) (assign q w) j := by
  have hqp : 0 < q := (Fact.out : q.Prime).pos
  have hlen : cols.length = m := by rw [← hcols.length_eq]; simp
  have hinv : ∀ t ∈ cols, Inv t := by
    intro t ht
    obtain ⟨i, hi, rfl⟩ := List.getElem_of_mem ht
    exact ((List.forall₂_iff_get.1 hcols).2 i (by simpa [hlen] using hi) hi).1
  have hf : List.Forall₂ (fun p P => Inv p ∧ Denotes q p.val P) cols (cols.map fun t => lpoly q t.ascendingNodes) := by
    rw [List.forall₂_map_right_iff, List.forall₂_same]
    exact fun t ht => ⟨hinv t ht, denotes_lpoly (hinv t ht)⟩
  obtain ⟨rs, r1, r2⟩ := (C20_linearCombine q cols _ w hf).1 (by omega)
  obtain ⟨t, t1, t2, t3, -⟩ := addPolynomials_spec hqp rs _ r2
  have hcan := (addPolynomials_canon hqp rs (by
    intro p hp
    obtain ⟨i, hi, rfl⟩ := List.getElem_of_mem hp
    exact ((List.forall₂_iff_get.1 r2).2 i hi (by rw [← r2.length_eq]; exact hi)).1) t1).2
  have hval : ∀ j, ((t.val j : Int) : ZMod q) = rowVal m (fun j i => ((M j i : Int) : ZMod q)) (assign q w) j := by
    intro j
    rw [← t3 j]
    have : List.zipWith (fun (s : Int) P => C (s : ZMod q) * P) w (cols.map fun t => lpoly q t.ascendingNodes) =
        (List.range m).map fun i => C (assign q w i) * lpoly q (cols.getD i nil).ascendingNodes := by
      refine List.ext_getElem (by simp [hw, hlen]) fun i h1 h2 => ?_
      have hi : i < w.length := by simp at h1; omega
      have hi' : i < cols.length := by omega
      simp [assign, List.getElem?_eq_getElem hi, List.getElem?_eq_getElem hi']
    rw [this, list_sum_range, finset_sum_coeff]
    refine Finset.sum_congr rfl fun i hi => ?_
    have him : i < m := by simpa using hi
    have hi' : i < cols.length := by omega
    rw [coeff_C_mul, List.getD_eq_getElem _ _ hi']
    have h3 := (List.forall₂_iff_get.1 hcols).2 i (by simpa using him) hi'
    have h4 := denotes_lpoly (q := q) h3.1 j
    rw [h3.2 j] at h4
    simp only [List.get_eq_getElem, List.getElem_range] at h4
    rw [h4]
  refine ⟨t, by simp [columnSumS, r1, t1], t2, hcan, fun k hk => ?_, hval⟩
  by_contra h
  have h1 := hval k
  have h2 : rowVal (q := q) m (fun j i => ((M j i : Int) : ZMod q)) (assign q w) k = 0 := by
    unfold rowVal
    refine Finset.sum_eq_zero fun i _ => ?_
    show _ * ((M k i : Int) : ZMod q) = 0
    rw [hM k i (by omega)]; simp
  rw [h2, ZMod.intCast_zmod_eq_zero_iff_dvd] at h1
  exact hcan.reduced k hk h1

theorem gPointsS_spec (H : Laws api q g1 g2) {e : Tree} (he : Inv e) (hc : CanonV q e) :
    ∃ t, gPointsS api e = some t ∧ Inv t ∧ (∀ k, t.val k ≠ 0 → e.val k ≠ 0) ∧
      ∀ j, ((t.val j : Int) : ZMod q) = gxOf api q g1 ((e.val j : Int) : ZMod q) := by
  have hx : ∀ j, ((api.x1 (api.base1 (e.val j)) : Int) : ZMod q) = gxOf api q g1 ((e.val j : Int) : ZMod q) := by
    intro j
    rw [gxOf_expo H, base1_expo H (hc j).1]
  have gen : ∀ (l : List (Nat × Int)), l.Pairwise (fun a b => a.1 ≠ b.1) → ∀ t : Tree, Inv t → (∀ x ∈ l, t.val x.1 = 0) →
      ∃ r, l.foldlM (fun t kv => t.insertNoOverwrite kv.1 (api.x1 (api.base1 kv.2))) t = some r ∧ Inv r ∧
        (∀ x ∈ l, r.val x.1 = api.x1 (api.base1 x.2)) ∧ (∀ k, (∀ x ∈ l, x.1 ≠ k) → r.val k = t.val k) := by
    intro l
    induction l with
    | nil => intro _ t ht _; exact ⟨t, rfl, ht, by simp, by simp⟩
    | cons x l ih =>
      intro hd t ht hz
      rw [List.pairwise_cons] at hd
      obtain ⟨t', e1, e2, e3⟩ := treePut_inv (key := x.1) (value := api.x1 (api.base1 x.2)) (ins := setInsertNoOverride)
        (w := api.x1 (api.base1 x.2)) ht (by simp [setInsertNoOverride, hz x (by simp)])
      obtain ⟨r, f1, f2, f3, f4⟩ := ih hd.2 t' e2 (fun y hy => by
        rw [e3, if_neg (hd.1 y hy).symm]; exact hz y (by simp [hy]))
      refine ⟨r, ?_, f2, fun y hy => ?_, fun k hk => ?_⟩
      · rw [List.foldlM_cons]
        have : t.insertNoOverwrite x.1 (api.x1 (api.base1 x.2)) = some t' := e1
        rw [this]; exact f1
      · rcases List.mem_cons.1 hy with rfl | hy
        · rw [f4 _ (fun z hz => (hd.1 z hz).symm), e3, if_pos rfl]
        · exact f3 y hy
      · rw [f4 k (fun z hz => hk z (by simp [hz])), e3, if_neg (hk x (by simp)).symm]
  obtain ⟨r, f1, f2, f3, f4⟩ := gen e.ascendingNodes (distinct_asc he) nil inv_nil (by intro x _; simp [val, Tree.get])
  have hout : ∀ k, e.val k = 0 → r.val k = 0 := by
    intro k hk
    rw [f4 k ?_]
    · simp [val, Tree.get]
    · rintro ⟨a, v⟩ hm rfl
      have := (mem_toList_iff he _ _).1 hm
      rw [hk] at this; exact this.1 this.2.symm
  refine ⟨r, f1, f2, fun k hk h0 => hk (hout k h0), fun j => ?_⟩
  by_cases h0 : e.val j = 0
  · rw [hout j h0, h0]; simp [gxOf_zero H]
  · rw [← hx j]
    have := f3 (j, e.val j) ((mem_toList_iff he _ _).2 ⟨h0, rfl⟩)
    rw [this]

theorem combineS_spec (H : Laws api q g1 g2) (r : R1CS Tree) {pub : Nat} {w : List Int} (hu : UsableS q pub r w)
    {tr : TransposedS}
    (hg : tr.numberOfGates = r.rows.length) (hL : ColsS r.index.length (entryS (r.rows.map Row.L)) tr.L)
    (hR : ColsS r.index.length (entryS (r.rows.map Row.R)) tr.R) (hE : ColsS r.index.length (entryS (r.rows.map Row.E)) tr.E)
    (hO : ColsS r.index.length (entryS (r.rows.map Row.O)) tr.O) :
    ∃ px, combineSparsePolynomials api q w tr = some px ∧ Inv px ∧ CanonV q px ∧
      Denotes q px.val ((sparseSys q r).comb (gxOf api q g1) (assign q w)) := by
  have hqp : 0 < q := (Fact.out : q.Prime).pos
  have hnq : r.rows.length ≤ q := hu.gates.trans hu.small
  have hz : ∀ f : Row Tree → Tree, ∀ j i, r.rows.length ≤ j → entryS (r.rows.map f) j i = 0 := fun f j i h =>
    entryS_out _ _ _ (by simpa using h)
  obtain ⟨l, l1, l2, l3, l4, l5⟩ := columnSumS_spec (q := q) r.rows.length _ _ (hz _) _ hL w hu.wlen
  obtain ⟨rr, r1, r2, r3, r4, r5⟩ := columnSumS_spec (q := q) r.rows.length _ _ (hz _) _ hR w hu.wlen
  obtain ⟨e, e1, e2, e3, e4, e5⟩ := columnSumS_spec (q := q) r.rows.length _ _ (hz _) _ hE w hu.wlen
  obtain ⟨o, o1, o2, o3, o4, o5⟩ := columnSumS_spec (q := q) r.rows.length _ _ (hz _) _ hO w hu.wlen
  obtain ⟨lp, lp1, lp2, lp3, lp4⟩ := interpS_spec hnq hu.rows l2 l4
  obtain ⟨rp, rp1, rp2, rp3, rp4⟩ := interpS_spec hnq hu.rows r2 r4
  obtain ⟨op, op1, op2, op3, op4⟩ := interpS_spec hnq hu.rows o2 o4
  obtain ⟨gp, gp1, gp2, gp3, gp4⟩ := gPointsS_spec H e2 e3
  obtain ⟨g, g1', g2', g3', g4'⟩ := interpS_spec hnq hu.rows gp2 (fun k hk => e4 k (gp3 k hk))
  obtain ⟨p1, m1, m2, m3, -⟩ := mulSparse_spec hqp lp2 rp2 lp4 rp4
  obtain ⟨p2, a1, a2, a3, -⟩ := addToSparse_spec hqp m2 g2' m3 g4'
  obtain ⟨p3, s1, s2, s3, -⟩ := subToSparse_spec hqp a2 op2 a3 op4
  refine ⟨p3, ?_, s2, subToSparse_canon hqp a2 (addToSparse_canon hqp m2 (mulSparse_canon hqp m1) a1) s1, ?_⟩
  · unfold combineSparsePolynomials
    simp only [Option.bind_eq_bind, hg, l1, r1, e1, o1, Option.bind_some, lp1, rp1, op1, gp1, g1', m1, a1, s1]
  · have hcol : ∀ (t : Tree) (M : Nat → Nat → ZMod q), (∀ j, ((t.val j : Int) : ZMod q) = rowVal r.index.length M (assign q w) j) →
        through r.rows.length (fun j => ((t.val j : Int) : ZMod q)) =
          ∑ i ∈ Finset.range r.index.length, C (assign q w i) * through r.rows.length (fun j => M j i) := by
      intro t M ht
      rw [through_sum]
      refine through_congr fun j _ => ?_
      rw [ht j]
    rw [hcol l _ l5, hcol rr _ r5, hcol o _ o5] at s3
    have hgx : through r.rows.length (fun j => ((gp.val j : Int) : ZMod q)) =
        through r.rows.length (fun j => gxOf api q g1 (rowVal r.index.length (sparseSys q r).E (assign q w) j)) := by
      refine through_congr fun j _ => ?_
      rw [gp4 j, e5 j]; rfl
    rw [hgx] at s3
    exact s3

theorem degree_comb (S : Sys q) (hn : S.n ≤ q) (gx : ZMod q → ZMod q) (w : Nat → ZMod q) :
    (S.comb gx w).natDegree ≤ 2 * S.n - 2 := by
  have ht : ∀ v : Nat → ZMod q, (through S.n v).natDegree ≤ S.n - 1 := by
    intro v
    by_cases hz : through S.n v = 0
    · rw [hz]; simp
    · have := (natDegree_lt_iff_degree_lt hz).2 (through_degree hn v); omega
  unfold Sys.comb Sys.col
  rw [through_sum, through_sum, through_sum]
  refine (natDegree_sub_le _ _).trans (max_le ?_ ((ht _).trans (by omega)))
  refine (natDegree_add_le _ _).trans (max_le ?_ ((ht _).trans (by omega)))
  refine natDegree_mul_le.trans ?_
  have h1 := ht (fun j => rowVal S.m S.R w j)
  have h2 := ht (fun j => rowVal S.m S.L w j)
  omega

theorem degree_quot (S : Sys q) (hn : S.n ≤ q) (h0 : 0 < S.n) (gx : ZMod q → ZMod q) (w : Nat → ZMod q) :
    (S.comb gx w /ₘ vanish q S.n).degree < ((S.n - 1 : Nat) : WithBot Nat) := by
  have hc := degree_comb S hn gx w
  by_cases hz : S.comb gx w /ₘ vanish q S.n = 0
  · rw [hz, degree_zero]; exact WithBot.bot_lt_coe _
  · rw [degree_eq_natDegree hz]
    have hd := natDegree_divByMonic (S.comb gx w) (vanish_monic (q := q) S.n)
    rw [vanish_natDegree] at hd
    have h2 : S.n ≤ (S.comb gx w).natDegree := by
      by_contra hlt
      apply hz
      rw [divByMonic_eq_zero_iff (vanish_monic _), degree_eq_natDegree (vanish_monic (q := q) S.n).ne_zero, vanish_natDegree]
      refine lt_of_le_of_lt degree_le_natDegree ?_
      exact_mod_cast (by omega : (S.comb gx w).natDegree < S.n)
    exact_mod_cast (by omega : (S.comb gx w /ₘ vanish q S.n).natDegree < S.n - 1)

theorem nodes_eq_filter {t : Tree} (h : Inv t) {n : Nat} (hk : ∀ k, t.val k ≠ 0 → k < n) :
    t.ascendingNodes = ((List.range n).filter (fun k => decide (t.val k ≠ 0))).map (fun k => (k, t.val k)) := by
  have hp2 : (((List.range n).filter (fun k => decide (t.val k ≠ 0))).map (fun k => (k, t.val k))).Pairwise
      (fun a b => a.1 < b.1) := by
    rw [List.pairwise_map]
    exact List.Pairwise.filter _ List.pairwise_lt_range
  have hperm : t.ascendingNodes.Perm (((List.range n).filter (fun k => decide (t.val k ≠ 0))).map (fun k => (k, t.val k))) := by
    rw [List.perm_ext_iff_of_nodup]
    · rintro ⟨k, v⟩
      rw [show ((k, v) ∈ t.ascendingNodes ↔ v ≠ 0 ∧ t.val k = v) from mem_toList_iff h k v]
      simp only [List.mem_map, List.mem_filter, List.mem_range, decide_eq_true_eq, Prod.mk.injEq]
      constructor
      · rintro ⟨h1, rfl⟩; exact ⟨k, ⟨hk k h1, h1⟩, rfl, rfl⟩
      · rintro ⟨a, ⟨-, h2⟩, rfl, rfl⟩; exact ⟨h2, rfl⟩
    · exact (distinct_asc h).imp (fun hne he => hne (by rw [he]))
    · exact hp2.imp (fun hlt he => by rw [he] at hlt; exact lt_irrefl _ hlt)
  exact hperm.eq_of_pairwise (fun a b _ _ h1 h2 => absurd h1 (by omega)) h.1 hp2

theorem quotientTerms_spec (pk : Pk G1 G2 GT) (n : Nat) (F : Nat → G1) (hp : pk.powersXDD = (List.range n).map F) :
    ∀ l : List (Nat × Int), (∀ kv ∈ l, kv.1 < n) → quotientTerms api pk l = some (l.map fun kv => api.mul1 (F kv.1) kv.2)
  | [], _ => rfl
  | kv :: l, h => by
    have ih := quotientTerms_spec pk n F hp l (fun x hx => h x (by simp [hx]))
    have hb : pk.powersXDD[kv.1]? = some (F kv.1) := by
      rw [hp]; simp [h kv (by simp)]
    unfold quotientTerms
    rw [hb, ih]; rfl

theorem foldl_filter {G : Type} [Zero G] {addTo : G → G → G} (hz : ∀ a, addTo a 0 = a) (v : Nat → Int) (F : Nat → G)
    (hF : ∀ k, v k = 0 → F k = 0) : ∀ (l : List Nat) (acc : G),
    ((l.filter fun k => decide (v k ≠ 0)).map F).foldl addTo acc = (l.map F).foldl addTo acc
  | [], _ => rfl
  | k :: l, acc => by
    by_cases h : v k = 0
    · rw [List.filter_cons_of_neg (by simpa using h), foldl_filter hz v F hF l acc, List.map_cons, List.foldl_cons, hF k h, hz]
    · rw [List.filter_cons_of_pos (by simpa using h), List.map_cons, List.foldl_cons, foldl_filter hz v F hF l _,
        List.map_cons, List.foldl_cons]

theorem size_zero_iff {t : Tree} (h : Inv t) : t.size = 0 ↔ ∀ k, t.val k = 0 := by
  constructor
  · intro hs
    cases t with
    | nil => intro k; simp [val, Tree.get]
    | node l k v hh r => simp [Tree.size] at hs
  · intro hv
    by_contra hne
    have : t ≠ nil := by rintro rfl; simp [Tree.size] at hne
    exact maxPower_mem h this (hv _)

/-- everything about the sparse prover, from a key with the exponents of `T` and the polynomial of `S` -/
theorem sparse_core (H : Laws api q g1 g2) {S : Sys q} {pub : Nat} {t : Secrets q} {pk : Pk G1 G2 GT}
    (hpk : PkOK H (S.keySys t.x) pub t pk) (h0 : 0 < S.n) (hnq : S.n ≤ q) (hpub0 : 0 < pub) (hpub : pub < S.m)
    (hg : t.gamma ≠ 0) (hd : t.delta ≠ 0) (w : List Int) (hw : w.length = S.m) (hc : ∀ k ∈ w, 0 ≤ k)
    (px : Tree) (hi : Inv px) (hpc : CanonV q px) (hpx : Denotes q px.val (S.comb (gxOf api q g1) (assign q w)))
    (fuel : Nat) (hf : 2 * S.n ≤ fuel) :
    ((S.Sat (gxOf api q g1) (assign q w) → ∃ pf, generateProofSparse api q fuel pub pk w px = some pf) ∧
     (¬ S.Sat (gxOf api q g1) (assign q w) → generateProofSparse api q fuel pub pk w px = none)) ∧
    (S.Sat (gxOf api q g1) (assign q w) → S.SafeSparse (gxOf api q g1) pub t (assign q w) →
      ∃ pf, generateProofSparse api q fuel pub pk w px = some pf ∧
        verifyProof api pk pf (w.take pub) = some (decide (
          S.wideVal S.L (assign q w) t.x * S.wideVal S.R (assign q w) t.x + gxOf api q g1 (S.wideVal S.E (assign q w) t.x) -
            S.wideVal S.O (assign q w) t.x = (S.comb (gxOf api q g1) (assign q w)).eval t.x))) := by
  have hp : q.Prime := Fact.out
  set T := S.keySys t.x with hT
  have hTn : T.n = S.n := rfl
  have hTm : T.m = S.m := rfl
  obtain ⟨dom, f1, f2, f3, -⟩ := C19_fromArray pk.domain
  have hdi := f2.inv
  have hdv : ∀ k, dom.val k = pk.domain.getD k 0 := f3
  have hdD : Denotes q dom.val (vanish q S.n) := by
    intro k; rw [hdv, ← hTn, ← hpk.dom, poly_coeff]
  have hdl : dom.val S.n = 1 := by rw [hdv]; exact hpk.domLead
  have hmax : dom.maxPower = S.n := by
    refine le_antisymm ?_ (le_maxPower hdi (by rw [hdl]; simp))
    refine Nat.lt_succ_iff.1 (maxPower_lt hdi (Nat.succ_pos _) fun k hk => ?_)
    by_contra hlt
    rw [hdv, List.getD_eq_default _ _ (by rw [hpk.domLen, hTn]; omega)] at hk
    exact hk rfl
  have hpm : px.maxPower < 2 * S.n := by
    refine maxPower_lt hi (by omega) fun k hk => ?_
    refine val_denotes_keys hpc hpx ?_ k hk
    refine lt_of_le_of_lt degree_le_natDegree ?_
    have := degree_comb S hnq (gxOf api q g1) (assign q w)
    exact_mod_cast (by omega : _ < 2 * S.n)
  obtain ⟨d, r, D, R, d1, d2, d3, d4, d5, d6, d7⟩ := C22_div q hp hi hdi hpc.reduced
    (by rw [hmax, hdl]; intro hdvd; have := Int.le_of_dvd (by omega) hdvd; have := hp.two_le; omega) (by omega) hpx hdD fuel (by omega)
  obtain ⟨hD, hR⟩ := div_modByMonic_unique D R (vanish_monic (q := q) S.n) ⟨(by rw [d6]; ring : _ = S.comb (gxOf api q g1) (assign q w)), d7⟩
  obtain ⟨cd, cr⟩ : CanonV q d ∧ CanonV q r := by
    have h := d1
    unfold divideSparse at h
    cases hcl : clone px with
    | none => rw [hcl] at h; simp at h
    | some c =>
      rw [hcl] at h
      obtain ⟨c1, c2⟩ := clone_canon hi hpc hcl
      exact divideLoop_canon fuel hdi nil c d r inv_nil c1 (canonV_nil hp.pos) c2 h
  have hz : 0 < r.size ↔ ¬ S.Sat (gxOf api q g1) (assign q w) := by
    rw [← comb_dvd_iff S hnq, ← modByMonic_eq_zero_iff_dvd (vanish_monic _), Nat.pos_iff_ne_zero, Ne, size_zero_iff d3, hR]
    refine not_congr ⟨fun h => ?_, fun h k => ?_⟩
    · ext k; rw [d5 k, h k]; simp
    · by_contra hk
      have h2 := d5 k
      rw [h, coeff_zero] at h2
      exact cr.reduced k hk ((ZMod.intCast_zmod_eq_zero_iff_dvd _ _).1 h2.symm)
  have hdk : ∀ k, d.val k ≠ 0 → k < S.n - 1 := fun k hk => val_denotes_keys cd d4 (by
    rw [← hD]; exact degree_quot S hnq h0 _ _) k hk
  set Q := S.comb (gxOf api q g1) (assign q w) /ₘ vanish q S.n with hQ
  set F : Nat → G1 := fun k => expo q g1 H.order1 (t.x ^ k * (t.delta⁻¹ * (vanish q S.n).eval t.x)) with hF
  have hpw : pk.powersXDD = (List.range S.n).map F := by rw [hpk.powersXDD, List.map_map]; rfl
  have hqt : quotientTerms api pk d.ascendingNodes = some (d.ascendingNodes.map fun kv => api.mul1 (F kv.1) kv.2) :=
    quotientTerms_spec pk S.n F hpw _ (by
      rintro ⟨k, v⟩ hm
      have := (mem_toList_iff d2 k v).1 hm
      have := hdk k (by rw [this.2]; exact this.1)
      show k < S.n
      omega)
  have hgen : generateProofSparse api q fuel pub pk w px = if 0 < r.size then none else
      proofFrom api pub pk w ((d.ascendingNodes.map fun kv => api.mul1 (F kv.1) kv.2).foldl api.addTo1 (api.base1 0)) := by
    unfold generateProofSparse
    simp only [Option.bind_eq_bind]
    rw [f1, Option.bind_some]
    simp only [d1]
    rw [hqt]; rfl
  refine ⟨⟨fun hs => ?_, fun hs => ?_⟩, fun hs hsafe => ?_⟩
  · rw [hgen, if_neg (fun h => hz.1 h hs)]
    exact proofFrom_total hpk hpub w hw _
  · rw [hgen, if_pos (hz.2 hs)]
  · have hzero : ∀ a : G1, api.addTo1 a 0 = a := by
      intro a
      by_cases ha : a = 0
      · rw [H.addTo1 _ _ (Or.inr ha), add_zero]
      · rw [H.addTo1 _ _ (Or.inl ha), add_zero]
    have hterm : ∀ k, api.mul1 (F k) (d.val k) = expo q g1 H.order1 (Q.coeff k * (t.x ^ k * (t.delta⁻¹ * (vanish q S.n).eval t.x))) := by
      intro k
      rw [hF]
      simp only
      rw [mul1_expo H _ _ (cd k).1, hD, d4 k]
    have hsum : (d.ascendingNodes.map fun kv => api.mul1 (F kv.1) kv.2).foldl api.addTo1 (api.base1 0) =
        expo q g1 H.order1 (Q.eval t.x * (t.delta⁻¹ * (vanish q S.n).eval t.x)) := by
      rw [nodes_eq_filter d2 hdk, List.map_map]
      have e1 : ((fun kv : Nat × Int => api.mul1 (F kv.1) kv.2) ∘ fun k => (k, d.val k)) = fun k => api.mul1 (F k) (d.val k) := rfl
      rw [e1, foldl_filter hzero d.val (fun k => api.mul1 (F k) (d.val k)) (fun k hk => by rw [hk, H.mul1 _ _ le_rfl, zero_zsmul])]
      have e2 : (List.range (S.n - 1)).map (fun k => api.mul1 (F k) (d.val k)) =
          (seqQ S.n (S.n - 1) t Q).map (expo q g1 H.order1) := by
        unfold seqQ
        rw [List.map_map]
        exact List.map_congr_left fun k _ => hterm k
      have e3 : api.base1 0 = expo q g1 H.order1 0 := by rw [base1_expo H le_rfl]; simp
      rw [e2, e3, foldl_safe (expo1_inj H) H.addTo1 _ _ ?_, zero_add, sum_seqQ _ _ _ _ (degree_quot S hnq h0 _ _)]
      intro k hk he
      rw [zero_add] at he ⊢
      by_cases hk0 : k = 0
      · subst hk0; simp
      · exact hsafe.Q k (by omega) hk he
    have hpf := proofFrom_spec H hpk hpub w hw hc Q hsafe.A hsafe.B hsafe.F hsafe.C
    refine ⟨_, by rw [hgen, if_neg (fun h => hz.1 h hs), hsum]; exact hpf, ?_⟩
    have hsp : SafeSeq (T.seqPub pub t (assign q (w.take pub))) := by
      have : T.seqPub pub t (assign q (w.take pub)) = T.seqPub pub t (assign q w) := by
        unfold Sys.seqPub
        refine List.map_congr_left fun i hi => ?_
        rw [assign_take w pub i (by simpa using hi)]
      rw [this]; exact hsafe.pub
    rw [verify_expo H hpk _ _ _ _ (w.take pub) (fun k hk => hc k (List.mem_of_mem_take hk)) (by simp; omega) hpub0 hsp hg]
    congr 1
    have hsig : (∑ i ∈ Finset.range pub, assign q (w.take pub) i * T.mix t i) =
        ∑ i ∈ Finset.range pub, assign q w i * T.mix t i :=
      Finset.sum_congr rfl fun i hi => by rw [assign_take w pub i (by simpa using hi)]
    have hdiv : Q.eval t.x * (vanish q T.n).eval t.x = (S.comb (gxOf api q g1) (assign q w)).eval t.x := by
      have := (comb_dvd_iff S hnq (gxOf api q g1) (assign q w)).2 hs
      have h2 := modByMonic_add_div (S.comb (gxOf api q g1) (assign q w)) (vanish q S.n)
      rw [(modByMonic_eq_zero_iff_dvd (vanish_monic _)).2 this, zero_add, ← hQ] at h2
      rw [hTn, ← h2, eval_mul, mul_comm]
    have hval : ∀ M : Nat → Nat → ZMod q, Sys_val T (fun _ i => S.wide M t.x i) (assign q w) t.x = S.wideVal M (assign q w) t.x := by
      intro M
      unfold Sys_val Sys.wideVal
      refine Finset.sum_congr rfl fun i _ => ?_
      rw [keySys_col S hnq h0]
    have vL : Sys_val T T.L (assign q w) t.x = _ := hval S.L
    have vR : Sys_val T T.R (assign q w) t.x = _ := hval S.R
    have vE : Sys_val T T.E (assign q w) t.x = _ := hval S.E
    have vO : Sys_val T T.O (assign q w) t.x = _ := hval S.O
    rw [hsig, sum_seqC T _ (hpub.le : pub ≤ T.m) _ hd, sum_seqA, sum_seqB, sum_seqF, hdiv, sum_mix, vL, vR, vE, vO]
    rw [decide_eq_decide]
    constructor
    · intro h; linear_combination h
    · intro h; linear_combination h

end APS.Snark
