import Verif.Proofs.Snark

/-! The model functions compute the exponents of the specification. -/
namespace APS.Snark
open Polynomial APS.Spec APS.Circuit

variable {q : Nat} [Fact q.Prime]

theorem lagrangeLoop_canon (n : Nat) : ∀ (vs : List Int) (i : Nat) (p : List Int) (c : Dense.Cache) (r : List Int × Dense.Cache),
    Canon q p → Dense.lagrangeLoop q n i p c vs = some r → Canon q r.1
  | [], i, p, c, r, hp, h => by
    simp only [Dense.lagrangeLoop] at h; obtain rfl := Option.some.inj h; exact hp
  | v :: vs, i, p, c, r, hp, h => by
    simp only [Dense.lagrangeLoop] at h
    split at h
    · exact lagrangeLoop_canon n vs _ _ _ _ hp h
    · split at h
      · exact absurd h (by simp)
      · exact lagrangeLoop_canon n vs _ _ _ _ (Dense.add_canon (Fact.out : q.Prime).pos _ _) h

theorem interp_canon {v l : List Int} (h : interp q v = some l) : Canon q l := by
  unfold interp at h
  obtain ⟨a, h1, rfl⟩ := Option.map_eq_some_iff.1 h
  exact lagrangeLoop_canon _ _ _ _ _ _ (Dense.canon_zeros (Fact.out : q.Prime).pos _) h1

theorem interp_spec (v : List Int) (hn : v.length ≤ q) : ∃ l, interp q v = some l ∧ l.length = v.length ∧ Canon q l ∧
    poly q l = through v.length (fun j => ((v.getD j 0 : Int) : ZMod q)) := by
  obtain ⟨l, c, h1, h2, h3, h4⟩ := C10_lagrange q Fact.out v hn
  have hi : interp q v = some l := by simp [interp, h1]
  refine ⟨l, hi, h2, interp_canon hi, ?_⟩
  refine through_unique hn ?_ h3
  rw [← h2]; exact poly_degree_lt l

theorem mapM_some {α β : Type} {f : α → Option β} {g : α → β} : ∀ {l : List α}, (∀ x ∈ l, f x = some (g x)) →
    l.mapM f = some (l.map g)
  | [], _ => by simp
  | a :: l, h => by
    rw [List.mapM_cons, h a (by simp), mapM_some (l := l) fun x hx => h x (by simp [hx])]
    simp

theorem transposeMatrix_spec (m : List (List Int)) (c : Nat) (hm : m ≠ []) (hrect : ∀ s ∈ m, s.length = c) :
    transposeMatrix m = some ((List.range c).map fun i => (List.range m.length).map fun j => (m.getD j []).getD i 0) := by
  obtain ⟨t, h1, h2, h3, h4, -⟩ := C12_transpose m c hm hrect
  unfold transposeMatrix
  rw [h1, Option.bind_some]
  have : (t.map (·.map some)).mapM (fun row : List (Option Int) => row.mapM id) = some t := by
    rw [List.mapM_map]
    rw [mapM_some (g := id)]
    · simp
    · intro x _
      simp only [Function.comp]
      rw [List.mapM_map, mapM_some (g := id)]
      · simp
      · intro y _; rfl
  rw [this]
  congr 1
  refine List.ext_getElem (by simp [h2]) fun i hi1 hi2 => ?_
  have hti : (t[i]).length = m.length := h3 _ (List.getElem_mem hi1)
  refine List.ext_getElem (by simp [hti]) fun j hj1 hj2 => ?_
  have := h4 j i (by omega) (by omega)
  rw [List.getD_eq_getElem _ _ hi1, List.getD_eq_getElem _ _ hj1] at this
  rw [this]; simp

/-- the matrix of a system read from rows, as lists of columns -/
def colsOf (n m : Nat) (M : Nat → Nat → Int) : List (List Int) :=
  (List.range m).map fun i => (List.range n).map fun j => M j i

theorem interp_col (n : Nat) (hn : n ≤ q) (v : Nat → Int) :
    ∃ l, interp q ((List.range n).map v) = some l ∧ l.length = n ∧ Canon q l ∧ poly q l = through n (fun j => ((v j : Int) : ZMod q)) := by
  obtain ⟨l, h1, h2, hc, h3⟩ := interp_spec (q := q) ((List.range n).map v) (by simpa using hn)
  refine ⟨l, h1, by simpa using h2, hc, ?_⟩
  rw [h3]
  simp only [List.length_map, List.length_range]
  refine through_congr fun j hj => ?_
  rw [List.getD_eq_getElem _ _ (by simpa using hj)]; simp

theorem eapLoop_spec (n : Nat) (hn : n ≤ q) (L R E O : Nat → Nat → Int) (is : List Nat) :
    ∃ cols, eapLoop q (is.map fun i => (List.range n).map fun j => L j i) (is.map fun i => (List.range n).map fun j => R j i)
      (is.map fun i => (List.range n).map fun j => E j i) (is.map fun i => (List.range n).map fun j => O j i) = some cols ∧
      List.Forall₂ (fun i (c : List Int × List Int × List Int × List Int) =>
        (c.1.length = n ∧ Canon q c.1 ∧ poly q c.1 = through n (fun j => ((L j i : Int) : ZMod q))) ∧
        (c.2.1.length = n ∧ Canon q c.2.1 ∧ poly q c.2.1 = through n (fun j => ((R j i : Int) : ZMod q))) ∧
        (c.2.2.1.length = n ∧ Canon q c.2.2.1 ∧ poly q c.2.2.1 = through n (fun j => ((E j i : Int) : ZMod q))) ∧
        (c.2.2.2.length = n ∧ Canon q c.2.2.2 ∧ poly q c.2.2.2 = through n (fun j => ((O j i : Int) : ZMod q)))) is cols := by
  induction is with
  | nil => exact ⟨[], rfl, .nil⟩
  | cons i is ih =>
    obtain ⟨cols, h1, h2⟩ := ih
    obtain ⟨l, l1, l2⟩ := interp_col (q := q) n hn (fun j => L j i)
    obtain ⟨r, r1, r2⟩ := interp_col (q := q) n hn (fun j => R j i)
    obtain ⟨e, e1, e2⟩ := interp_col (q := q) n hn (fun j => E j i)
    obtain ⟨o, o1, o2⟩ := interp_col (q := q) n hn (fun j => O j i)
    refine ⟨(l, r, e, o) :: cols, ?_, .cons ⟨l2, r2, e2, o2⟩ h2⟩
    simp only [List.map_cons, eapLoop, l1, r1, e1, o1, h1]; rfl

theorem evalPoly_of_length {l : List Int} (h : 0 < l.length) (hc : Canon q l) (x : Int) :
    ∃ r, Fq.evalPoly q l x = some r ∧ (r : ZMod q) = (poly q l).eval (x : ZMod q) ∧ 0 ≤ r := by
  have hq : 0 < q := (Fact.out : q.Prime).pos
  obtain ⟨r, h1, h2⟩ := (C05_evalPoly q hq l x).2 (by rintro rfl; simp at h)
  refine ⟨r, h1, evalPoly_poly hq h1, ?_⟩
  by_cases h2l : 2 ≤ l.length
  · exact (h2.2 h2l).1
  · match l, h with
    | [a], _ =>
      have : a = r := by simpa [Fq.evalPoly] using h1
      exact this ▸ (hc a (by simp)).1
    | _ :: _ :: _, _ => simp at h2l

/-- the values of the four column polynomials at the secret point -/
def QuadOK (L R E O : ZMod q) (v : Int × Int × Int × Int) : Prop :=
  ((v.1 : ZMod q) = L ∧ (v.2.1 : ZMod q) = R ∧ (v.2.2.1 : ZMod q) = E ∧ (v.2.2.2 : ZMod q) = O) ∧ 0 ≤ v.2.2.1

theorem evalQuad_spec {n : Nat} (h0 : 0 < n) {c : List Int × List Int × List Int × List Int}
    (h1 : c.1.length = n ∧ Canon q c.1) (h2 : c.2.1.length = n ∧ Canon q c.2.1) (h3 : c.2.2.1.length = n ∧ Canon q c.2.2.1)
    (h4 : c.2.2.2.length = n ∧ Canon q c.2.2.2) (x : Int) :
    ∃ v, evalQuad q x c = some v ∧ QuadOK ((poly q c.1).eval (x : ZMod q)) ((poly q c.2.1).eval (x : ZMod q))
      ((poly q c.2.2.1).eval (x : ZMod q)) ((poly q c.2.2.2).eval (x : ZMod q)) v := by
  obtain ⟨l, l1, l2, l3⟩ := evalPoly_of_length (q := q) (by omega) h1.2 x
  obtain ⟨r, r1, r2, r3⟩ := evalPoly_of_length (q := q) (by omega) h2.2 x
  obtain ⟨e, e1, e2, e3⟩ := evalPoly_of_length (q := q) (by omega) h3.2 x
  obtain ⟨o, o1, o2, o3⟩ := evalPoly_of_length (q := q) (by omega) h4.2 x
  refine ⟨(l, r, e, o), ?_, ⟨l2, r2, e2, o2⟩, e3⟩
  unfold evalQuad; rw [l1, r1, e1, o1]; rfl

theorem mapM_forall₂ {α β γ : Type} {f : β → Option γ} {P : α → β → Prop} {Q : α → γ → Prop}
    (h : ∀ a b, P a b → ∃ c, f b = some c ∧ Q a c) {as : List α} {bs : List β} (hf : List.Forall₂ P as bs) :
    ∃ cs, bs.mapM f = some cs ∧ List.Forall₂ Q as cs := by
  induction hf with
  | nil => exact ⟨[], by simp, .nil⟩
  | cons hab _ ih =>
    obtain ⟨c, c1, c2⟩ := h _ _ hab
    obtain ⟨cs, d1, d2⟩ := ih
    exact ⟨c :: cs, by simp [List.mapM_cons, c1, d1], .cons c2 d2⟩

/-- all values of a system at the secret point -/
def ValsOK (S : Sys q) (x : ZMod q) (vals : List (Int × Int × Int × Int)) : Prop :=
  List.Forall₂ (fun i v => QuadOK ((S.col S.L i).eval x) ((S.col S.R i).eval x) ((S.col S.E i).eval x)
    ((S.col S.O i).eval x) v) (List.range S.m) vals

variable {G1 G2 GT : Type} [AddCommGroup G1] [AddCommGroup G2] [AddCommGroup GT] {api : Api G1 G2 GT}
  {g1 : G1} {g2 : G2}

/-- the published key holds the exponents it should -/
structure PkOK (H : Laws api q g1 g2) (S : Sys q) (pub : Nat) (t : Secrets q) (pk : Pk G1 G2 GT) : Prop where
  dom : poly q pk.domain = vanish q S.n
  domLen : pk.domain.length = S.n + 1
  domLead : pk.domain.getD S.n 0 = 1
  eGH : pk.eGH = api.pair g1 g2
  eGHab : pk.eGHab = api.pair (expo q g1 H.order1 t.alpha) (expo q g2 H.order2 t.beta)
  rleoDelta : pk.rleoDelta = ((List.range' pub (S.m - pub)).map fun i => t.delta⁻¹ * S.mix t i).map (expo q g1 H.order1)
  alpha : pk.alpha = expo q g1 H.order1 t.alpha
  rleoGamma : pk.rleoGamma = ((List.range pub).map fun i => t.gamma⁻¹ * S.mix t i).map (expo q g1 H.order1)
  powersX1 : pk.powersX1 = ((List.range S.n).map fun k => t.x ^ k).map (expo q g1 H.order1)
  powersXDD : pk.powersXDD = ((List.range S.n).map fun k => t.x ^ k * (t.delta⁻¹ * (vanish q S.n).eval t.x)).map
    (expo q g1 H.order1)
  LE : pk.LE = ((List.range S.m).map fun i => (S.col S.E i).eval t.x + (S.col S.L i).eval t.x).map (expo q g1 H.order1)
  Ex : pk.Ex = ((List.range S.m).map fun i => (S.col S.E i).eval t.x).map (expo q g1 H.order1)
  beta2 : pk.beta2 = expo q g2 H.order2 t.beta
  gamma2 : pk.gamma2 = expo q g2 H.order2 t.gamma
  delta2 : pk.delta2 = expo q g2 H.order2 t.delta
  Rx : pk.Rx = ((List.range S.m).map fun i => (S.col S.R i).eval t.x).map (expo q g2 H.order2)
  beta1 : pk.beta1 = expo q g1 H.order1 t.beta
  delta1 : pk.delta1 = expo q g1 H.order1 t.delta
  powersX2 : pk.powersX2 = ((List.range S.n).map fun k => t.x ^ k).map (expo q g2 H.order2)

theorem base1_expo (H : Laws api q g1 g2) {k : Int} (hk : 0 ≤ k) : api.base1 k = expo q g1 H.order1 (k : ZMod q) := by
  rw [H.base1 k hk, expo_cast]
theorem base2_expo (H : Laws api q g1 g2) {k : Int} (hk : 0 ≤ k) : api.base2 k = expo q g2 H.order2 (k : ZMod q) := by
  rw [H.base2 k hk, expo_cast]

theorem map_forall₂ {α β γ : Type} {P : α → β → Prop} {f : α → γ} {g : β → γ} {as : List α} {bs : List β}
    (hf : List.Forall₂ P as bs) (h : ∀ a b, P a b → g b = f a) : bs.map g = as.map f := by
  induction hf with
  | nil => rfl
  | cons hab _ ih => simp [h _ _ hab, ih]

theorem fq_nonneg (a b : Int) : 0 ≤ Fq.mul q a b ∧ 0 ≤ Fq.add q a b := by
  have hq : 0 < q := (Fact.out : q.Prime).pos
  exact ⟨(Dense.fqmul_range hq a b).1, (Dense.fqadd_range hq a b).1⟩

theorem powersLoop_map (x : Int) (t : Int) (k : Nat) {γ : Type} (f : Int → γ) (g : ZMod q → γ)
    (h : ∀ z : Int, 0 ≤ z → f z = g z) (ht : 0 ≤ t) :
    (powersLoop q x t k).map f = (List.range k).map fun i => g ((t : ZMod q) * (x : ZMod q) ^ i) := by
  induction k generalizing t with
  | zero => rfl
  | succ k ih =>
    rw [List.range_succ_eq_map, powersLoop, List.map_cons, List.map_cons, ih _ (fq_nonneg _ _).1, h _ ht]
    simp only [List.map_map, pow_zero, mul_one, List.cons.injEq, true_and]
    refine List.map_congr_left fun i _ => ?_
    simp only [Function.comp, cast_mul']
    rw [pow_succ]; congr 1; ring

theorem rleo_cast (S : Sys q) (tox : Toxic) (i : Nat) (v : Int × Int × Int × Int)
    (hv : QuadOK ((S.col S.L i).eval (secretsOf q tox).x) ((S.col S.R i).eval (secretsOf q tox).x)
      ((S.col S.E i).eval (secretsOf q tox).x) ((S.col S.O i).eval (secretsOf q tox).x) v) :
    ((rleo q tox v : Int) : ZMod q) = S.mix (secretsOf q tox) i := by
  obtain ⟨⟨h1, h2, h3, h4⟩, -⟩ := hv
  unfold Sys.mix
  rw [← h1, ← h2, ← h3, ← h4]
  simp [rleo, secretsOf]

theorem setupFrom_spec (H : Laws api q g1 g2) (S : Sys q) (hn : 0 < S.n) (pub : Nat) (hpub : pub ≤ S.m) {tox : Toxic}
    (ht : ToxicOK q tox)
    {vals : List (Int × Int × Int × Int)} (hv : ValsOK S (secretsOf q tox).x vals) :
    ∃ pk, setupFrom api q pub S.n tox vals = some pk ∧ PkOK H S pub (secretsOf q tox) pk := by
  have hp : q.Prime := Fact.out
  have hq : 0 < q := hp.pos
  obtain ⟨d, d1, d2, d3, d4, d5, -⟩ := C09_domainPolynomial q hp S.n hn
  obtain ⟨dx, e1, e2, e3⟩ := evalPoly_of_length (q := q) (l := d) (by omega) d4 tox.x
  have hnz : ∀ a : Int, 0 < a ∧ a < q → (a : ZMod q) ≠ 0 := fun a ha =>
    cast_ne_zero_of_not_dvd (fun hd => by have := Int.le_of_dvd ha.1 hd; omega)
  obtain ⟨iv, i1⟩ := inverse_of_cast_ne (hnz _ ht.delta)
  obtain ⟨ig, j1⟩ := inverse_of_cast_ne (hnz _ ht.gamma)
  have i2 := inverse_cast i1
  have j2 := inverse_cast j1
  have hlen : vals.length = S.m := by rw [← hv.length_eq]; simp
  unfold setupFrom
  simp only [Option.bind_eq_bind, d1, e1, i1, j1, Option.bind_some]
  refine ⟨_, rfl, ?_⟩
  constructor <;> simp only
  · exact d2
  · exact d3
  · exact d5
  · rw [H.base1 1 (by norm_num), H.base2 1 (by norm_num)]; simp
  · rw [base1_expo H ht.alpha.1, base2_expo H ht.beta.1]; rfl
  · have : List.Forall₂ (fun i v => QuadOK ((S.col S.L i).eval (secretsOf q tox).x) ((S.col S.R i).eval (secretsOf q tox).x)
        ((S.col S.E i).eval (secretsOf q tox).x) ((S.col S.O i).eval (secretsOf q tox).x) v) (List.range' pub (S.m - pub))
        (vals.drop pub) := by
      have := List.forall₂_drop pub hv
      rwa [show (List.range S.m).drop pub = List.range' pub (S.m - pub) by
        rw [List.range_eq_range', List.drop_range']; simp] at this
    rw [List.map_map]
    refine map_forall₂ this fun i v hiv => ?_
    rw [base1_expo H (fq_nonneg _ _).1, cast_mul', rleo_cast S tox i v hiv, i2]; rfl
  · rw [base1_expo H ht.alpha.1]; rfl
  · have : List.Forall₂ (fun i v => QuadOK ((S.col S.L i).eval (secretsOf q tox).x) ((S.col S.R i).eval (secretsOf q tox).x)
        ((S.col S.E i).eval (secretsOf q tox).x) ((S.col S.O i).eval (secretsOf q tox).x) v) (List.range pub)
        (vals.take pub) := by
      have := List.forall₂_take pub hv
      rwa [List.take_range, min_eq_left hpub] at this
    rw [List.map_map]
    refine map_forall₂ this fun i v hiv => ?_
    rw [base1_expo H (fq_nonneg _ _).1, cast_mul', rleo_cast S tox i v hiv, j2]; rfl
  · rw [powersLoop_map tox.x tox.x (S.n - 1) api.base1 (expo q g1 H.order1) (fun z hz => base1_expo H hz) ht.x.1,
      base1_expo H (by norm_num)]
    conv_rhs => rw [show S.n = (S.n - 1) + 1 by omega, List.range_succ_eq_map]
    simp only [List.map_cons, List.map_map, pow_zero, Int.cast_one, List.cons.injEq, true_and]
    refine List.map_congr_left fun i _ => ?_
    simp only [Function.comp, secretsOf]; rw [pow_succ']
  · rw [powersLoop_map tox.x tox.x (S.n - 1) (fun t => api.base1 (Fq.mul q t (Fq.mul q iv dx)))
      (fun z => expo q g1 H.order1 (z * ((iv : ZMod q) * (dx : ZMod q)))) (fun z hz => by
        rw [base1_expo H (fq_nonneg _ _).1, cast_mul', cast_mul']) ht.x.1,
      base1_expo H (fq_nonneg _ _).1]
    conv_rhs => rw [show S.n = (S.n - 1) + 1 by omega, List.range_succ_eq_map]
    have hn1 : S.n - 1 + 1 = S.n := by omega
    simp only [List.map_cons, List.map_map, pow_zero, cast_mul', one_mul, hn1]
    rw [i2, e2, d2]
    congr 1
    refine List.map_congr_left fun i _ => ?_
    simp only [Function.comp, secretsOf, vanish]; rw [pow_succ']
  · rw [List.map_map]
    refine map_forall₂ hv fun i v hiv => ?_
    rw [base1_expo H (fq_nonneg _ _).2, cast_add', hiv.1.1, hiv.1.2.2.1]; rfl
  · rw [List.map_map]
    refine map_forall₂ hv fun i v hiv => ?_
    rw [base1_expo H hiv.2, hiv.1.2.2.1]; rfl
  · rw [base2_expo H ht.beta.1]; rfl
  · rw [base2_expo H ht.gamma.1.le]; rfl
  · rw [base2_expo H ht.delta.1.le]; rfl
  · rw [List.map_map]
    refine map_forall₂ hv fun i v hiv => ?_
    have hz : (0 : Int) ≤ Fq.copy q v.2.1 := Int.emod_nonneg _ (by omega)
    rw [base2_expo H hz]
    simp only [Fq.copy, ZMod.intCast_mod, hiv.1.2.1]; rfl
  · rw [base1_expo H ht.beta.1]; rfl
  · rw [base1_expo H ht.delta.1.le]; rfl
  · rw [powersLoop_map tox.x tox.x (S.n - 1) api.base2 (expo q g2 H.order2) (fun z hz => base2_expo H hz) ht.x.1,
      base2_expo H (by norm_num)]
    conv_rhs => rw [show S.n = (S.n - 1) + 1 by omega, List.range_succ_eq_map]
    simp only [List.map_cons, List.map_map, pow_zero, Int.cast_one, List.cons.injEq, true_and]
    refine List.map_congr_left fun i _ => ?_
    simp only [Function.comp, secretsOf]; rw [pow_succ']

end APS.Snark
