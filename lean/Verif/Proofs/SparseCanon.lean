import Verif.Props.Sparse

/-! Sparse polynomials whose stored coefficients all lie in `[0, q)`. -/
namespace APS.Sparse
open Polynomial APS.Spec APS.Avl APS.Avl.Tree

variable {q : Nat}

/-- every coefficient is in `[0, q)` -/
def CanonV (q : Nat) (t : Tree) : Prop := ∀ k, 0 ≤ t.val k ∧ t.val k < q

theorem canonV_nil (hq : 0 < q) : CanonV q nil := by
  intro k
  have : nil.val k = 0 := by simp [val, Tree.get]
  rw [this]; omega

theorem CanonV.reduced {t : Tree} (h : CanonV q t) : Reduced q t.val := by
  intro k hk hd
  have := h k
  have := Int.le_of_dvd (by omega) hd
  omega

theorem mod_canon (hq : 0 < q) (a : Int) : 0 ≤ a % (q : Int) ∧ a % (q : Int) < q :=
  ⟨Int.emod_nonneg _ (by omega), Int.emod_lt_of_pos _ (by omega)⟩

theorem foldPut_canon {α : Type} (hq : 0 < q) (f : α → Nat) (g : α → Int) : ∀ (l : List α) (t r : Tree), Inv t → CanonV q t →
    l.foldlM (fun r e => r.treePut (f e) (g e) (addCb q)) t = some r → Inv r ∧ CanonV q r
  | [], t, r, ht, hc, h => by
    obtain rfl : t = r := by simpa using h
    exact ⟨ht, hc⟩
  | e :: l, t, r, ht, hc, h => by
    obtain ⟨t', e1, e2, e3⟩ := treePut_inv (key := f e) (value := g e) (ins := addCb q) ht rfl
    rw [List.foldlM_cons, e1] at h
    refine foldPut_canon hq f g l t' r e2 ?_ h
    intro k
    rw [e3 k]
    split
    · exact mod_canon hq _
    · exact hc k

theorem clone_canon {a c : Tree} (ha : Inv a) (hc : CanonV q a) (h : clone a = some c) : Inv c ∧ CanonV q c := by
  obtain ⟨c', c1, c2, c3⟩ := clone_spec ha
  obtain rfl : c' = c := by rw [c1] at h; exact Option.some.inj h
  exact ⟨c2, fun k => by rw [c3]; exact hc k⟩

theorem addToSparse_canon (hq : 0 < q) {a b r : Tree} (ha : Inv a) (hc : CanonV q a) (h : addToSparse q a b = some r) :
    CanonV q r := by
  unfold addToSparse at h
  obtain ⟨c, c1, c2⟩ := Option.bind_eq_some_iff.1 h
  obtain ⟨d1, d2⟩ := clone_canon ha hc c1
  exact (foldPut_canon hq (fun e : Nat × Int => e.1) (fun e => e.2) _ _ _ d1 d2 c2).2

theorem subToSparse_canon (hq : 0 < q) {a b r : Tree} (ha : Inv a) (hc : CanonV q a) (h : subToSparse q a b = some r) :
    CanonV q r := by
  unfold subToSparse at h
  obtain ⟨c, c1, c2⟩ := Option.bind_eq_some_iff.1 h
  obtain ⟨d1, d2⟩ := clone_canon ha hc c1
  exact (foldPut_canon hq (fun e : Nat × Int => e.1) (fun e => Fq.neg q e.2) _ _ _ d1 d2 c2).2

theorem mulSparse_canon (hq : 0 < q) {a b r : Tree} (h : mulSparse q a b = some r) : CanonV q r := by
  have gen : ∀ (l : List (Nat × Int)) (t r : Tree), Inv t → CanonV q t →
      l.foldlM (fun r L => b.ascendingNodes.foldlM
          (fun r R => r.treePut (L.1 + R.1) (Fq.mul q R.2 L.2) (addCb q)) r) t = some r → Inv r ∧ CanonV q r := by
    intro l
    induction l with
    | nil => intro t r h1 h2 h; obtain rfl : t = r := by simpa using h
             exact ⟨h1, h2⟩
    | cons L l ih =>
      intro t r h1 h2 h
      rw [List.foldlM_cons] at h
      obtain ⟨t', e1, e2⟩ := Option.bind_eq_some_iff.1 h
      obtain ⟨f1, f2⟩ := foldPut_canon hq (fun R : Nat × Int => L.1 + R.1) (fun R => Fq.mul q R.2 L.2) _ _ _ h1 h2 e1
      exact ih t' r f1 f2 e2
  exact (gen _ _ _ inv_nil (canonV_nil hq) h).2

theorem mulSparseScalar_canon (hq : 0 < q) {t r : Tree} (h : Inv t) {s : Int} (hr : mulSparseScalar q t s = some r) :
    CanonV q r := by
  obtain ⟨r', e1, e2, e3⟩ := mulSparseScalar_spec (q := q) h s
  obtain rfl : r' = r := by rw [e1] at hr; exact Option.some.inj hr
  intro k
  rw [e3]
  split
  · exact ⟨le_rfl, by omega⟩
  · exact mod_canon hq _

theorem addPolynomials_canon (hq : 0 < q) (ps : List Tree) (hps : ∀ p ∈ ps, Inv p) {r : Tree}
    (h : addPolynomials q ps = some r) : Inv r ∧ CanonV q r := by
  have gen : ∀ (ps : List Tree), (∀ p ∈ ps, Inv p) → ∀ t r : Tree, Inv t → CanonV q t →
      ps.foldlM (addToSparse q) t = some r → Inv r ∧ CanonV q r := by
    intro ps
    induction ps with
    | nil => intro _ t r h1 h2 h; obtain rfl : t = r := by simpa using h
             exact ⟨h1, h2⟩
    | cons p ps ih =>
      intro hp t r h1 h2 h
      rw [List.foldlM_cons] at h
      obtain ⟨t', e1, e2⟩ := Option.bind_eq_some_iff.1 h
      obtain ⟨t'', f1, f2, -⟩ := addToSparse_spec hq h1 (hp p (by simp)) (denotes_lpoly h1) (denotes_lpoly (hp p (by simp)))
      obtain rfl : t'' = t' := by rw [f1] at e1; exact Option.some.inj e1
      exact ih (fun p hp' => hp p (by simp [hp'])) t'' r f2 (addToSparse_canon hq h1 h2 e1) e2
  exact gen ps hps _ _ inv_nil (canonV_nil hq) h

theorem interpLoop_canon [Fact q.Prime] (n : Nat) (hn : n ≤ q) : ∀ (vs : List (Nat × Int)) (p : Tree) (c : Cache) (r : Tree) (c' : Cache),
    CacheOK q c → (∀ v ∈ vs, v.1 < n) → Inv p → CanonV q p → interpLoop q n p c vs = some (r, c') → Inv r ∧ CanonV q r := by
  have hqp : 0 < q := (Fact.out : q.Prime).pos
  intro vs
  induction vs with
  | nil => intro p c r c' _ _ h1 h2 h
           simp only [interpLoop, Option.some.injEq, Prod.mk.injEq] at h
           obtain ⟨rfl, -⟩ := h
           exact ⟨h1, h2⟩
  | cons v vs ih =>
    intro p c r c' hc hk h1 h2 h
    obtain ⟨b, Bp, b1, b2, b3, b4, b5⟩ := computeBase_spec (q := q) (hk v (by simp)) hn
    obtain ⟨k1, k2⟩ := base_ok hc v.1 n
    rw [b1] at k1
    obtain ⟨⟨b', c2⟩, e1, e2⟩ := Option.map_eq_some_iff.1 k1
    simp only at e2; subst e2
    obtain ⟨m, m1, m2, m3⟩ := mulSparseScalar_denotes b2 b3 v.2
    obtain ⟨p', p1, p2, p3, -⟩ := addToSparse_spec hqp h1 m2 (denotes_lpoly (q := q) h1) m3
    simp only [interpLoop, e1, m1, p1] at h
    exact ih p' c2 r c' (k2 _ _ e1) (fun v hv => hk v (by simp [hv])) p2 (addToSparse_canon hqp h1 h2 p1) h

/-- division keeps everything in `[0, q)` -/
theorem divideLoop_canon [Fact q.Prime] {b : Tree} (n : Nat) (hb : Inv b) : ∀ (res rem res' rem' : Tree), Inv res → Inv rem →
    CanonV q res → CanonV q rem → divideLoop q b n res rem = .done (res', rem') → CanonV q res' ∧ CanonV q rem' := by
  have hqp : 0 < q := (Fact.out : q.Prime).pos
  induction n with
  | zero => intro _ _ _ _ _ _ _ _ h; simp [divideLoop] at h
  | succ n ih =>
    intro res rem res' rem' h1 h2 h3 h4 h
    unfold divideLoop at h
    by_cases hge : rem.maxNode.1 ≥ b.maxNode.1
    · rw [if_pos hge] at h
      cases hr : divideRound q b res rem with
      | none => rw [hr] at h; simp at h
      | some x =>
        obtain ⟨s, m⟩ := x
        rw [hr] at h
        simp only at h
        unfold divideRound at hr
        simp only [Option.bind_eq_bind] at hr
        obtain ⟨l, l1, hr⟩ := Option.bind_eq_some_iff.1 hr
        obtain ⟨aux, a1, hr⟩ := Option.bind_eq_some_iff.1 hr
        obtain ⟨s', s1, hr⟩ := Option.bind_eq_some_iff.1 hr
        obtain ⟨mu, m1, hr⟩ := Option.bind_eq_some_iff.1 hr
        obtain ⟨m', m2, hr⟩ := Option.bind_eq_some_iff.1 hr
        simp only [Option.pure_def, Option.some.injEq, Prod.mk.injEq] at hr
        obtain ⟨rfl, rfl⟩ := hr
        have hl := div_range hqp l1
        obtain ⟨aux', ax1, ax2, ax3⟩ := newWith_spec (rem.maxNode.1 - b.maxNode.1) l
        obtain rfl : aux' = aux := by rw [ax1] at a1; exact Option.some.inj a1
        obtain ⟨mu', mu1, mu2, -⟩ := mulSparse_spec hqp hb ax2 (denotes_lpoly (q := q) hb) (denotes_lpoly ax2)
        obtain rfl : mu' = mu := by rw [mu1] at m1; exact Option.some.inj m1
        obtain ⟨m'', e1, e2, -⟩ := subToSparse_spec hqp h2 mu2 (denotes_lpoly (q := q) h2) (denotes_lpoly mu2)
        obtain rfl : m'' = m' := by rw [e1] at m2; exact Option.some.inj m2
        by_cases h0 : res.val (rem.maxNode.1 - b.maxNode.1) = 0
        · obtain ⟨s'', b1, b2, b3⟩ := treePut_inv (key := rem.maxNode.1 - b.maxNode.1) (value := l) (ins := setInsertNoOverride)
            (w := l) h1 (by simp [setInsertNoOverride, h0])
          have b1' : res.insertNoOverwrite (rem.maxNode.1 - b.maxNode.1) l = some s'' := b1
          obtain rfl : s'' = s' := by rw [b1'] at s1; exact Option.some.inj s1
          refine ih s'' m'' res' rem' b2 e2 ?_ (subToSparse_canon hqp h2 h4 m2) h
          intro k
          rw [b3 k]
          split
          · exact hl
          · exact h3 k
        · exfalso
          have := (treePut_spec (rem.maxNode.1 - b.maxNode.1) l setInsertNoOverride res h1.1).1 (by
            show setInsertNoOverride (res.val _) l = none
            simp [setInsertNoOverride, h0])
          have s1' : res.treePut (rem.maxNode.1 - b.maxNode.1) l setInsertNoOverride = some s' := s1
          rw [this] at s1'
          simp at s1'
    · rw [if_neg hge] at h
      simp only [Outcome.done.injEq, Prod.mk.injEq] at h
      obtain ⟨rfl, rfl⟩ := h
      exact ⟨h3, h4⟩

end APS.Sparse
