import Verif.Proofs.SnarkHonest

/-! The proof system over an implementation of the groups whose objects only REPRESENT group elements (several objects for one
element, unreliable in-place addition of equal elements). -/
namespace APS.Snark
open Polynomial APS.Spec APS.Circuit

variable {q : Nat} [Fact q.Prime] {A1 A2 AT : Type}

/-- `raw` computes with objects; `R1 a s` says that `a` stands for the `s`-th multiple of the generator of G1, `R2`, `RT` the same
for G2 and GT; `ok` are the objects of G2 which can be paired; `X s` is the x-coordinate of the `s`-th multiple. -/
structure Implements (raw : Api A1 A2 AT) (q : Nat) (R1 : A1 → ZMod q → Prop) (R2 : A2 → ZMod q → Prop) (RT : AT → ZMod q → Prop)
    (ok : A2 → Prop) (X : ZMod q → Int) : Prop where
  base1 : ∀ k : Int, 0 ≤ k → R1 (raw.base1 k) k
  base2 : ∀ k : Int, 0 ≤ k → R2 (raw.base2 k) k
  ok_one : ok (raw.base2 1)
  mul1 : ∀ a s (k : Int), R1 a s → 0 ≤ k → R1 (raw.mul1 a k) (k * s)
  mul2 : ∀ a s (k : Int), R2 a s → 0 ≤ k → R2 (raw.mul2 a k) (k * s)
  mulT : ∀ a s (k : Int), RT a s → 0 ≤ k → RT (raw.mulT a k) (k * s)
  addTo1 : ∀ a b s t, R1 a s → R1 b t → s ≠ t ∨ s = 0 → R1 (raw.addTo1 a b) (s + t)
  addTo2 : ∀ a b s t, R2 a s → R2 b t → s ≠ t ∨ s = 0 → R2 (raw.addTo2 a b) (s + t)
  addFresh2 : ∀ a b s t, R2 a s → R2 b t → R2 (raw.addFresh2 a b) (s + t)
  addT : ∀ a b s t, RT a s → RT b t → RT (raw.addT a b) (s + t)
  x1 : ∀ a s, R1 a s → raw.x1 a = X s
  x_zero : X 0 = 0
  x_nonneg : ∀ s, 0 ≤ X s
  pair : ∀ a b s t, R1 a s → R2 b t → ok b → RT (raw.pair a b) (s * t)
  eqT : ∀ a b s t, RT a s → RT b t → raw.eqT a b = decide (s = t)

/-- the exponents themselves, with the x-coordinate function `X` -/
def expApi (q : Nat) (X : ZMod q → Int) : Api (ZMod q) (ZMod q) (ZMod q) where
  base1 k := k
  base2 k := k
  mul1 a k := k * a
  mul2 a k := k * a
  mulT a k := k * a
  addTo1 a b := a + b
  addTo2 a b := a + b
  addFresh2 a b := a + b
  addT a b := a + b
  x1 := X
  pair a b := a * b
  eqT a b := decide (a = b)

theorem exp_laws (X : ZMod q → Int) (h0 : X 0 = 0) (hn : ∀ s, 0 ≤ X s) : Laws (expApi q X) q (1 : ZMod q) (1 : ZMod q) where
  order1 := by simp
  order2 := by simp
  base1 k _ := by simp [expApi]
  base2 k _ := by simp [expApi]
  mul1 a k _ := by simp [expApi]
  mul2 a k _ := by simp [expApi]
  mulT a k _ := by simp [expApi]
  addTo1 a b _ := rfl
  addTo2 a b _ := rfl
  addFresh2 a b := rfl
  addT a b := rfl
  x1_zero := h0
  x1_nonneg := hn
  pair k l := by simp [expApi]
  orderT := by simp [expApi, ZMod.addOrderOf_one]
  eqT a b := by simp [expApi]

/-- `X` on residues -/
def gxX (X : ZMod q → Int) (s : ZMod q) : ZMod q := ((X s : Int) : ZMod q)

theorem gxOf_exp (X : ZMod q → Int) : gxOf (expApi q X) q (1 : ZMod q) = gxX X := by
  funext s
  simp [gxOf, expApi, gxX]

theorem scale_rel {A : Type} {R : A → ZMod q → Prop} {mul : A → Int → A} (hmul : ∀ a s (k : Int), R a s → 0 ≤ k → R (mul a k) (k * s)) :
    ∀ {bs : List A} {ss : List (ZMod q)} (ks : List Int), List.Forall₂ R bs ss → ks.length ≤ ss.length → (∀ k ∈ ks, 0 ≤ k) →
      ∃ ts, scaleAll mul bs ks = some ts ∧ List.Forall₂ R ts (List.zipWith (fun (k : Int) b => (k : ZMod q) * b) ks ss)
  | _, _, [], _, _, _ => ⟨[], by simp [scaleAll], by simp⟩
  | _, _, _ :: _, .nil, h, _ => by simp at h
  | _, _, k :: ks, .cons hb hbs, h, hk => by
    obtain ⟨ts, h1, h2⟩ := scale_rel hmul ks hbs (by simpa using h) (fun k h => hk k (by simp [h]))
    refine ⟨_, by rw [scaleAll, h1]; rfl, ?_⟩
    simp only [List.zipWith_cons_cons]
    exact .cons (hmul _ _ _ hb (hk k (by simp))) h2

theorem foldl_rel {A : Type} {R : A → ZMod q → Prop} {addTo : A → A → A}
    (hadd : ∀ a b s t, R a s → R b t → s ≠ t ∨ s = 0 → R (addTo a b) (s + t)) :
    ∀ {ts : List A} {ss : List (ZMod q)} (a : A) (s : ZMod q), List.Forall₂ R ts ss → R a s →
      (∀ k, k < ss.length → s + (ss.take k).sum = ss.getD k 0 → s + (ss.take k).sum = 0) → R (ts.foldl addTo a) (s + ss.sum)
  | _, _, a, s, .nil, ha, _ => by simpa using ha
  | _, _, a, s, .cons (a := b) (b := t) (l₁ := bs) (l₂ := ts) hb hbs, ha, h => by
    have h0 : s ≠ t ∨ s = 0 := by
      by_cases e : s = t
      · right
        have := h 0 (by simp) (by simpa using e)
        simpa using this
      · exact Or.inl e
    rw [List.foldl_cons, List.sum_cons, ← add_assoc]
    refine foldl_rel hadd _ _ hbs (hadd _ _ _ _ ha hb h0) ?_
    intro k hk he
    have := h (k + 1) (by simpa using hk) (by simpa [add_assoc] using he)
    simpa [add_assoc] using this

theorem acc_rel {A : Type} {R : A → ZMod q → Prop} {addTo : A → A → A}
    (hadd : ∀ a b s t, R a s → R b t → s ≠ t ∨ s = 0 → R (addTo a b) (s + t))
    {ts : List A} {ss : List (ZMod q)} (h : List.Forall₂ R ts ss) (hne : ss ≠ []) (hs : SafeSeq ss) :
    ∃ a, accumulate addTo ts = some a ∧ R a ss.sum := by
  match ts, ss, h with
  | _, _, .nil => exact absurd rfl hne
  | _, _, .cons (b := t) (l₂ := ss) hb hbs =>
    refine ⟨_, rfl, ?_⟩
    rw [List.sum_cons]
    refine foldl_rel hadd _ _ hbs hb ?_
    intro k hk he
    have := hs (k + 1) (by omega) (by simpa using hk) (by simpa using he)
    simpa using this

theorem safe_init {ts : List (ZMod q)} {t : ZMod q} (hs : SafeSeq (ts ++ [t])) : SafeSeq ts := by
  intro k h0 hk he
  have := hs k h0 (by simp; omega) (by
    rw [List.take_append_of_le_length (by omega), he, List.getD_append _ _ _ _ hk])
  rwa [List.take_append_of_le_length (by omega)] at this

theorem acc_snoc_rel {A : Type} {R : A → ZMod q → Prop} {addTo : A → A → A}
    (hadd : ∀ a b s t, R a s → R b t → s ≠ t ∨ s = 0 → R (addTo a b) (s + t))
    {ts : List A} {ss : List (ZMod q)} (h : List.Forall₂ R ts ss) (hne : ss ≠ []) {x : A} {t : ZMod q} (hx : R x t)
    (hs : SafeSeq (ss ++ [t])) :
    ∃ a, accumulate addTo ts = some a ∧ R (addTo a x) (ss ++ [t]).sum := by
  obtain ⟨a, h1, h2⟩ := acc_rel hadd h hne (safe_init hs)
  refine ⟨a, h1, ?_⟩
  rw [List.sum_append, List.sum_singleton]
  refine hadd _ _ _ _ h2 hx ?_
  by_cases e : ss.sum = t
  · right
    have hl := List.length_pos_iff.2 hne
    have := hs ss.length hl (by simp) (by simpa using e)
    simpa using this
  · exact Or.inl e

theorem map_rel {α β γ δ : Type} {P : α → β → Prop} {R : γ → δ → Prop} {f : α → δ} {g : β → γ} {as : List α} {bs : List β}
    (hf : List.Forall₂ P as bs) (h : ∀ a b, P a b → R (g b) (f a)) : List.Forall₂ R (bs.map g) (as.map f) := by
  induction hf with
  | nil => exact .nil
  | cons hab _ ih => exact .cons (h _ _ hab) ih

/-- the objects of the key stand for the exponents they should -/
structure PkRel (R1 : A1 → ZMod q → Prop) (R2 : A2 → ZMod q → Prop) (RT : AT → ZMod q → Prop) (ok : A2 → Prop) (S : Sys q) (pub : Nat)
    (t : Secrets q) (pk : Pk A1 A2 AT) : Prop where
  dom : poly q pk.domain = vanish q S.n
  domLen : pk.domain.length = S.n + 1
  domLead : pk.domain.getD S.n 0 = 1
  eGH : RT pk.eGH 1
  eGHab : ok pk.beta2 → RT pk.eGHab (t.alpha * t.beta)
  rleoDelta : List.Forall₂ R1 pk.rleoDelta ((List.range' pub (S.m - pub)).map fun i => t.delta⁻¹ * S.mix t i)
  alpha : R1 pk.alpha t.alpha
  rleoGamma : List.Forall₂ R1 pk.rleoGamma ((List.range pub).map fun i => t.gamma⁻¹ * S.mix t i)
  powersXDD : List.Forall₂ R1 pk.powersXDD ((List.range S.n).map fun k => t.x ^ k * (t.delta⁻¹ * (vanish q S.n).eval t.x))
  LE : List.Forall₂ R1 pk.LE ((List.range S.m).map fun i => (S.col S.E i).eval t.x + (S.col S.L i).eval t.x)
  Ex : List.Forall₂ R1 pk.Ex ((List.range S.m).map fun i => (S.col S.E i).eval t.x)
  beta2 : R2 pk.beta2 t.beta
  gamma2 : R2 pk.gamma2 t.gamma
  delta2 : R2 pk.delta2 t.delta
  Rx : List.Forall₂ R2 pk.Rx ((List.range S.m).map fun i => (S.col S.R i).eval t.x)
  powersX1 : ∃ g rest, pk.powersX1 = g :: rest ∧ R1 g 1
  beta1 : R1 pk.beta1 t.beta
  delta1 : R1 pk.delta1 t.delta
  powers1 : List.Forall₂ R1 pk.powersX1 ((List.range S.n).map fun k => t.x ^ k)
  powers2 : List.Forall₂ R2 pk.powersX2 ((List.range S.n).map fun k => t.x ^ k)

theorem powersLoop_rel {A : Type} {R : A → ZMod q → Prop} (x : Int) (t : Int) (k : Nat) (f : Int → A) (g : ZMod q → ZMod q)
    (h : ∀ z : Int, 0 ≤ z → R (f z) (g z)) (ht : 0 ≤ t) :
    List.Forall₂ R ((powersLoop q x t k).map f) ((List.range k).map fun i => g ((t : ZMod q) * (x : ZMod q) ^ i)) := by
  induction k generalizing t with
  | zero => exact .nil
  | succ k ih =>
    rw [List.range_succ_eq_map, powersLoop, List.map_cons, List.map_cons]
    refine .cons (by simpa using h t ht) ?_
    have := ih (Fq.mul q t x) (fq_nonneg _ _).1
    rw [List.map_map]
    refine Eq.subst (motive := fun l => List.Forall₂ R _ l) (List.map_congr_left fun i _ => ?_) this
    simp only [Function.comp, cast_mul']
    rw [pow_succ]; congr 1; ring

section
variable {raw : Api A1 A2 AT} {R1 : A1 → ZMod q → Prop} {R2 : A2 → ZMod q → Prop} {RT : AT → ZMod q → Prop} {ok : A2 → Prop}
  {X : ZMod q → Int} (I : Implements raw q R1 R2 RT ok X)
include I

theorem setupFrom_rel (S : Sys q) (hn : 0 < S.n) (pub : Nat) (hpub : pub ≤ S.m) {tox : Toxic}
    (ht : ToxicOK q tox) {vals : List (Int × Int × Int × Int)} (hv : ValsOK S (secretsOf q tox).x vals) :
    ∃ pk, setupFrom raw q pub S.n tox vals = some pk ∧ PkRel R1 R2 RT ok S pub (secretsOf q tox) pk := by
  have hp : q.Prime := Fact.out
  have hq : 0 < q := hp.pos
  obtain ⟨d, d1, d2, d3, d4, d5, -⟩ := C09_domainPolynomial q hp S.n hn
  obtain ⟨dx, e1, e2, e3⟩ := evalPoly_of_length (q := q) (l := d) (by omega) d4 tox.x
  have hnz : ∀ a : Int, 0 < a ∧ a < q → (a : ZMod q) ≠ 0 := fun a ha =>
    cast_ne_zero_of_not_dvd (fun hd => by have := Int.le_of_dvd ha.1 hd; omega)
  obtain ⟨iv, i1⟩ := inverse_of_cast_ne (hnz _ ht.delta)
  obtain ⟨ig, j1⟩ := inverse_of_cast_ne (hnz _ ht.gamma)
  have i2 := inverse_cast i1
  have j2 := inverse_cast j1
  unfold setupFrom
  simp only [Option.bind_eq_bind, d1, e1, i1, j1, Option.bind_some]
  refine ⟨_, rfl, ?_⟩
  have hb : ∀ (k : Int) (s : ZMod q), 0 ≤ k → (k : ZMod q) = s → R1 (raw.base1 k) s := fun k s hk e => e ▸ I.base1 k hk
  have hb2 : ∀ (k : Int) (s : ZMod q), 0 ≤ k → (k : ZMod q) = s → R2 (raw.base2 k) s := fun k s hk e => e ▸ I.base2 k hk
  constructor <;> simp only
  · exact d2
  · exact d3
  · exact d5
  · have := I.pair _ _ _ _ (I.base1 1 (by norm_num)) (I.base2 1 (by norm_num)) I.ok_one
    simpa using this
  · intro hok
    exact I.pair _ _ _ _ (I.base1 _ ht.alpha.1) (I.base2 _ ht.beta.1) hok
  · have : List.Forall₂ (fun i v => QuadOK ((S.col S.L i).eval (secretsOf q tox).x) ((S.col S.R i).eval (secretsOf q tox).x)
        ((S.col S.E i).eval (secretsOf q tox).x) ((S.col S.O i).eval (secretsOf q tox).x) v) (List.range' pub (S.m - pub))
        (vals.drop pub) := by
      have := List.forall₂_drop pub hv
      rwa [show (List.range S.m).drop pub = List.range' pub (S.m - pub) by
        rw [List.range_eq_range', List.drop_range']; simp] at this
    refine map_rel this fun i v hiv => hb _ _ (fq_nonneg _ _).1 ?_
    rw [cast_mul', rleo_cast S tox i v hiv, i2]; rfl
  · exact I.base1 _ ht.alpha.1
  · have : List.Forall₂ (fun i v => QuadOK ((S.col S.L i).eval (secretsOf q tox).x) ((S.col S.R i).eval (secretsOf q tox).x)
        ((S.col S.E i).eval (secretsOf q tox).x) ((S.col S.O i).eval (secretsOf q tox).x) v) (List.range pub)
        (vals.take pub) := by
      have := List.forall₂_take pub hv
      rwa [List.take_range, min_eq_left hpub] at this
    refine map_rel this fun i v hiv => hb _ _ (fq_nonneg _ _).1 ?_
    rw [cast_mul', rleo_cast S tox i v hiv, j2]; rfl
  · have h := powersLoop_rel (R := R1) tox.x tox.x (S.n - 1) (fun t => raw.base1 (Fq.mul q t (Fq.mul q iv dx)))
      (fun z => z * ((iv : ZMod q) * (dx : ZMod q))) (fun z hz => hb _ _ (fq_nonneg _ _).1 (by rw [cast_mul', cast_mul'])) ht.x.1
    have h' := List.Forall₂.cons (hb (Fq.mul q iv dx) ((iv : ZMod q) * (dx : ZMod q)) (fq_nonneg _ _).1 (cast_mul' _ _)) h
    refine Eq.subst (motive := fun l => List.Forall₂ R1 _ l) ?_ h'
    conv_rhs => rw [show S.n = (S.n - 1) + 1 by omega, List.range_succ_eq_map]
    have hn1 : S.n - 1 + 1 = S.n := by omega
    simp only [List.map_cons, List.map_map, pow_zero, one_mul, hn1]
    rw [i2, e2, d2]
    congr 1
    refine List.map_congr_left fun i _ => ?_
    simp only [Function.comp, secretsOf, vanish]; rw [pow_succ']
  · refine map_rel hv fun i v hiv => hb _ _ (fq_nonneg _ _).2 ?_
    rw [cast_add', hiv.1.1, hiv.1.2.2.1]
  · exact map_rel hv fun i v hiv => hb _ _ hiv.2 hiv.1.2.2.1
  · exact I.base2 _ ht.beta.1
  · exact I.base2 _ ht.gamma.1.le
  · exact I.base2 _ ht.delta.1.le
  · refine map_rel hv fun i v hiv => hb2 _ _ ?_ ?_
    · exact Int.emod_nonneg _ (by exact_mod_cast hq.ne')
    · rw [show ((Fq.copy q v.2.1 : Int) : ZMod q) = (v.2.1 : ZMod q) by simp [Fq.copy], hiv.1.2.1]
  · exact ⟨_, _, rfl, by have := I.base1 1 (by norm_num); simpa using this⟩
  · exact I.base1 _ ht.beta.1
  · exact I.base1 _ ht.delta.1.le
  · have h := powersLoop_rel (R := R1) tox.x tox.x (S.n - 1) raw.base1 (fun z => z) (fun z hz => I.base1 z hz) ht.x.1
    have h' := List.Forall₂.cons (hb 1 1 (by norm_num) (by simp)) h
    refine Eq.subst (motive := fun l => List.Forall₂ R1 _ l) ?_ h'
    conv_rhs => rw [show S.n = (S.n - 1) + 1 by omega, List.range_succ_eq_map]
    simp only [List.map_cons, List.map_map, pow_zero]
    congr 1
    refine List.map_congr_left fun i _ => ?_
    simp only [Function.comp, secretsOf]; rw [pow_succ']
  · have h := powersLoop_rel (R := R2) tox.x tox.x (S.n - 1) raw.base2 (fun z => z) (fun z hz => I.base2 z hz) ht.x.1
    have h' := List.Forall₂.cons (hb2 1 1 (by norm_num) (by simp)) h
    refine Eq.subst (motive := fun l => List.Forall₂ R2 _ l) ?_ h'
    conv_rhs => rw [show S.n = (S.n - 1) + 1 by omega, List.range_succ_eq_map]
    simp only [List.map_cons, List.map_map, pow_zero]
    congr 1
    refine List.map_congr_left fun i _ => ?_
    simp only [Function.comp, secretsOf]; rw [pow_succ']

theorem trustedSetup_rel (r : R1CS (List Int)) (hr : r.rows ≠ [])
    (hn : r.rows.length ≤ q) (hrect : Rectangular List.length r.index.length r.rows) (pub : Nat) (hpub : pub < r.index.length)
    {tox : Toxic} (ht : ToxicOK q tox) :
    ∃ tr pk, transposeR1CS r = some tr ∧ trustedSetup raw q pub tr tox = some pk ∧
      PkRel R1 R2 RT ok (denseSys q r) pub (secretsOf q tox) pk := by
  have hl := List.length_pos_iff.2 hr
  obtain ⟨cols, c1, c2⟩ := eapLoop_spec (q := q) r.rows.length hn (entryOf (r.rows.map Row.L)) (entryOf (r.rows.map Row.R))
    (entryOf (r.rows.map Row.E)) (entryOf (r.rows.map Row.O)) (List.range r.index.length)
  have hcl : cols.length = r.index.length := by rw [← c2.length_eq]; simp
  obtain ⟨vals, v1, v2⟩ := mapM_forall₂ (f := evalQuad q tox.x)
    (Q := fun i v => QuadOK (((denseSys q r).col (denseSys q r).L i).eval (secretsOf q tox).x)
      (((denseSys q r).col (denseSys q r).R i).eval (secretsOf q tox).x)
      (((denseSys q r).col (denseSys q r).E i).eval (secretsOf q tox).x)
      (((denseSys q r).col (denseSys q r).O i).eval (secretsOf q tox).x) v) (by
    rintro i c ⟨⟨a1, a2, a3⟩, ⟨b1, b2, b3⟩, ⟨d1, d2, d3⟩, ⟨e1, e2, e3⟩⟩
    obtain ⟨v, w1, w2⟩ := evalQuad_spec (q := q) hl ⟨a1, a2⟩ ⟨b1, b2⟩ ⟨d1, d2⟩ ⟨e1, e2⟩ tox.x
    refine ⟨v, w1, ?_⟩
    rw [a3, b3, d3, e3] at w2
    exact w2) c2
  obtain ⟨pk, p1, p2⟩ := setupFrom_rel I (denseSys q r) hl pub (le_of_lt hpub) ht (vals := vals) v2
  refine ⟨_, pk, transposeR1CS_spec r hr hrect, ?_, p2⟩
  unfold trustedSetup er1csToEAP
  simp only [Option.bind_eq_bind]
  rw [c1, Option.bind_some, if_neg (by omega), if_neg (by omega), ← hcl, List.take_length, v1, Option.bind_some]
  exact p1

theorem combine_rel (r : R1CS (List Int)) (hr : r.rows ≠ [])
    (hn : r.rows.length ≤ q) (hm : 0 < r.index.length) (hrect : Rectangular List.length r.index.length r.rows)
    (w : List Int) (hw : w.length = r.index.length) :
    ∃ tr px, transposeR1CS r = some tr ∧ combinePolynomials raw q w tr = some px ∧
      poly q px = (denseSys q r).comb (gxX X) (assign q w) ∧ px.length = 2 * r.rows.length - 1 ∧ Canon q px := by
  obtain ⟨tr, px, t1, t2, t3, t4, t5⟩ := combine_spec (exp_laws (q := q) X I.x_zero I.x_nonneg) r hr hn hm hrect w hw
  refine ⟨tr, px, t1, ?_, by rw [t3, gxOf_exp], t4, t5⟩
  rw [← t2]
  rw [transposeR1CS_spec r hr hrect] at t1
  obtain rfl := Option.some.inj t1
  obtain ⟨e, e1, e2, e3, e4⟩ := columnSum_spec (q := q) r.rows.length r.index.length (entryOf (r.rows.map Row.E)) w hw hm
  unfold combinePolynomials
  simp only [Option.bind_eq_bind]
  rw [e1]
  have : gPoints raw e = gPoints (expApi q X) e := by
    unfold gPoints
    refine List.map_congr_left fun k hk => ?_
    exact I.x1 _ _ (I.base1 k (e3 k hk).1)
  simp only [Option.bind_some, this]

theorem proofFrom_rel {S : Sys q} {pub : Nat} {t : Secrets q} {pk : Pk A1 A2 AT}
    (hpk : PkRel R1 R2 RT ok S pub t pk) (hpub : pub < S.m) (w : List Int) (hw : w.length = S.m) (hc : ∀ k ∈ w, 0 ≤ k)
    (Q : (ZMod q)[X]) (hB : SafeSeq (S.seqB t (assign q w)))
    (hF : SafeSeq (S.seqF t (assign q w))) (hC : SafeSeq (S.seqC pub t (assign q w) Q)) {qd : A1}
    (hqd : R1 qd (Q.eval t.x * (t.delta⁻¹ * (vanish q S.n).eval t.x))) :
    ∃ pf, proofFrom raw pub pk w qd = some pf ∧ (SafeSeq (S.seqA t (assign q w)) → R1 pf.A (S.seqA t (assign q w)).sum) ∧ R2 pf.B (S.seqB t (assign q w)).sum ∧
      R1 pf.C (S.seqC pub t (assign q w) Q).sum ∧ R1 pf.F (S.seqF t (assign q w)).sum := by
  have hne : ∀ f : Nat → ZMod q, (List.range S.m).map f ≠ [] := by
    intro f h; have := congrArg List.length h; simp at this; omega
  have hne' : ∀ f : Nat → ZMod q, (List.range' pub (S.m - pub)).map f ≠ [] := by
    intro f h; have := congrArg List.length h; simp at this; omega
  obtain ⟨la, a1, a2⟩ := scale_rel I.mul1 w hpk.LE (by simp [hw]) hc
  obtain ⟨lb, b1, b2⟩ := scale_rel I.mul2 w hpk.Rx (by simp [hw]) hc
  obtain ⟨lc, c1, c2⟩ := scale_rel I.mul1 (w.drop pub) hpk.rleoDelta (by simp [hw]) (fun k hk => hc k (List.mem_of_mem_drop hk))
  obtain ⟨lf, f1, f2⟩ := scale_rel I.mul1 w hpk.Ex (by simp [hw]) hc
  rw [zipWith_range w _ hw] at a2 b2 f2
  rw [zipWith_range' w _ _ hw] at c2
  obtain ⟨a, a3⟩ : ∃ a, accumulate raw.addTo1 la = some a := by
    have hl := a2.length_eq
    cases la with
    | nil => simp at hl; omega
    | cons x xs => exact ⟨_, rfl⟩
  have a4 : SafeSeq (S.seqA t (assign q w)) → R1 (raw.addTo1 a pk.alpha) (S.seqA t (assign q w)).sum := by
    intro hA
    obtain ⟨a', a3', a4⟩ := acc_snoc_rel I.addTo1 a2 (hne _) hpk.alpha hA
    obtain rfl : a = a' := by rw [a3] at a3'; exact Option.some.inj a3'
    exact a4
  obtain ⟨b, b3, b4⟩ := acc_rel I.addTo2 b2 (hne _) hB
  obtain ⟨c, c3, c4⟩ := acc_snoc_rel I.addTo1 c2 (hne' _) hqd hC
  obtain ⟨f, f3, f4⟩ := acc_rel I.addTo1 f2 (hne _) hF
  refine ⟨⟨raw.addTo1 a pk.alpha, b, raw.addTo1 c qd, f⟩, ?_, a4, b4, c4, f4⟩
  unfold proofFrom
  simp only [Option.bind_eq_bind]
  rw [a1, b1, c1, f1]
  simp only [Option.bind_some, a3, b3, c3, f3]
  rfl

/-- the verification equation on exponents -/
theorem verify_rel {S : Sys q} {pub : Nat} {t : Secrets q} {pk : Pk A1 A2 AT} (hpk : PkRel R1 R2 RT ok S pub t pk)
    (p : Proof A1 A2) (a b c f : ZMod q) (hA : R1 p.A a) (hB : R2 p.B b) (hC : R1 p.C c) (hF : R1 p.F f)
    (sig : List Int) (hs : ∀ k ∈ sig, 0 ≤ k) (hsl : sig.length = pub) (hpub : 0 < pub)
    (hsafe : SafeSeq (S.seqPub pub t (assign q sig))) (hg : t.gamma ≠ 0)
    (o1 : ok pk.beta2) (o2 : ok pk.gamma2) (o3 : ok pk.delta2) (o4 : ok p.B) (o5 : ok (raw.addFresh2 p.B pk.beta2)) :
    verifyProof raw pk p sig =
      some (decide (a * (b + t.beta) + gxX X f =
        t.alpha * t.beta + (∑ i ∈ Finset.range pub, assign q sig i * S.mix t i) + c * t.delta + f * b)) := by
  have hlen : pk.rleoGamma.length = pub := by rw [hpk.rleoGamma.length_eq]; simp
  unfold verifyProof
  rw [if_neg (by rw [hlen, hsl]; simp)]
  obtain ⟨l, l1, l2⟩ := scale_rel I.mul1 sig hpk.rleoGamma (by simp [hsl]) hs
  rw [zipWith_range sig _ hsl] at l2
  have hne : S.seqPub pub t (assign q sig) ≠ [] := by
    intro h; have := congrArg List.length h; simp [Sys.seqPub] at this; omega
  obtain ⟨ic, l3, l4⟩ := acc_rel I.addTo1 l2 hne hsafe
  simp only [Option.bind_eq_bind]
  rw [l1, Option.bind_some, l3, Option.bind_some]
  simp only [Option.pure_def]
  congr 1
  have h1 := I.pair _ _ _ _ hA (I.addFresh2 _ _ _ _ hB hpk.beta2) o5
  have h2 := I.mulT _ _ (raw.x1 p.F) hpk.eGH (by rw [I.x1 _ _ hF]; exact I.x_nonneg _)
  have h3 := I.pair _ _ _ _ l4 hpk.gamma2 o2
  have h4 := I.pair _ _ _ _ hC hpk.delta2 o3
  have h5 := I.pair _ _ _ _ hF hB o4
  have h6 := hpk.eGHab o1
  rw [I.eqT _ _ _ _ (I.addT _ _ _ _ h1 h2) (I.addT _ _ _ _ (I.addT _ _ _ _ h6 h3) (I.addT _ _ _ _ h4 h5)), decide_eq_decide,
    I.x1 _ _ hF]
  have hsum : (S.seqPub pub t (assign q sig)).sum * t.gamma = ∑ i ∈ Finset.range pub, assign q sig i * S.mix t i := by
    unfold Sys.seqPub
    rw [list_sum_range, Finset.sum_mul]
    refine Finset.sum_congr rfl fun i _ => ?_
    field_simp
  have hsum' := hsum
  unfold Sys.seqPub at hsum'
  rw [hsum', mul_one, ← add_assoc]
  rfl

/-- everything about the honest dense run -/
theorem honest_rel_any {S : Sys q} {pub : Nat} {t : Secrets q} {pk : Pk A1 A2 AT}
    (hpk : PkRel R1 R2 RT ok S pub t pk) (hn2 : 2 ≤ S.n) (hnq : S.n ≤ q) (hpub0 : 0 < pub) (hpub : pub < S.m)
    (hg : t.gamma ≠ 0) (hd : t.delta ≠ 0) (w : List Int) (hw : w.length = S.m) (hc : ∀ k ∈ w, 0 ≤ k)
    (px : List Int) (hpx : poly q px = S.comb (gxX X) (assign q w)) (hpl : px.length = 2 * S.n - 1)
    (hpc : Canon q px) (hs : S.Sat (gxX X) (assign q w))
    (hsB : SafeSeq (S.seqB t (assign q w))) (hsF : SafeSeq (S.seqF t (assign q w)))
    (hsQ : SafeSeq (seqQ S.n (S.n - 1) t (S.comb (gxX X) (assign q w) /ₘ vanish q S.n)))
    (hsC : SafeSeq (S.seqC pub t (assign q w) (S.comb (gxX X) (assign q w) /ₘ vanish q S.n)))
    (hsP : SafeSeq (S.seqPub pub t (assign q w))) :
      ∃ pf, generateProofs raw q pub pk w px = some pf ∧ (SafeSeq (S.seqA t (assign q w)) → R1 pf.A (S.seqA t (assign q w)).sum) ∧
        R1 pf.F (S.seqF t (assign q w)).sum ∧
        (∀ a0, R1 a0 (S.seqA t (assign q w)).sum → ok pk.beta2 → ok pk.gamma2 → ok pk.delta2 → ok pf.B → ok (raw.addFresh2 pf.B pk.beta2) →
        verifyProof raw pk { pf with A := a0 } (w.take pub) = some (decide (gxX X (Sys_val S S.E (assign q w) t.x) =
          (through S.n (fun j => gxX X (rowVal S.m S.E (assign q w) j))).eval t.x))) := by
  obtain ⟨qt, rm, e1, e2, e3, e4, e5, e6⟩ := div_vanish (n := S.n) hpk.dom hpk.domLen hpk.domLead (by omega) hpc
  have hz : Dense.isZeroArray rm = true := by
    rw [isZeroArray_iff e6, e3, hpx, modByMonic_eq_zero_iff_dvd (vanish_monic _), comb_dvd_iff S hnq]
    exact hs
  set Q := S.comb (gxX X) (assign q w) /ₘ vanish q S.n with hQ
  have hqdeg : Q.degree < ((S.n - 1 : Nat) : WithBot Nat) := by
    rw [hQ, ← hpx, ← e2]
    refine lt_of_lt_of_le (poly_degree_lt qt) ?_
    exact_mod_cast (by omega : qt.length ≤ S.n - 1)
  obtain ⟨lq, q1, q2⟩ := scale_rel I.mul1 qt hpk.powersXDD (by simp; omega) (fun k hk => (e5 k hk).1)
  have hseq : List.zipWith (fun (k : Int) b => (k : ZMod q) * b) qt
      ((List.range S.n).map fun k => t.x ^ k * (t.delta⁻¹ * (vanish q S.n).eval t.x)) = seqQ S.n (S.n - 1) t Q := by
    refine List.ext_getElem (by simp [seqQ]; omega) fun i h1 h2 => ?_
    have hi : i < qt.length := by simp at h1; omega
    simp only [List.getElem_zipWith, List.getElem_map, List.getElem_range, seqQ]
    rw [hQ, ← hpx, ← e2, poly_coeff, List.getD_eq_getElem _ _ hi]
  rw [hseq] at q2
  have hne : seqQ S.n (S.n - 1) t Q ≠ [] := by
    intro h; have := congrArg List.length h; simp [seqQ] at this; omega
  obtain ⟨qd, q3, q4⟩ := acc_rel I.addTo1 q2 hne hsQ
  rw [sum_seqQ _ _ _ _ hqdeg] at q4
  obtain ⟨pf, p1, pA, pB, pC, pF⟩ := proofFrom_rel I hpk hpub w hw hc Q hsB hsF hsC q4
  refine ⟨pf, ?_, pA, pF, fun a0 hA0 o1 o2 o3 o4 o5 => ?_⟩
  · unfold generateProofs
    simp only [Option.bind_eq_bind]
    rw [e1, Option.bind_some]
    simp only
    rw [if_pos hz, q1, Option.bind_some, q3, Option.bind_some, p1]
  have hsp : SafeSeq (S.seqPub pub t (assign q (w.take pub))) := by
    have : S.seqPub pub t (assign q (w.take pub)) = S.seqPub pub t (assign q w) := by
      unfold Sys.seqPub
      refine List.map_congr_left fun i hi => ?_
      rw [assign_take w pub i (by simpa using hi)]
    rw [this]; exact hsP
  rw [verify_rel I hpk { pf with A := a0 } _ _ _ _ hA0 pB pC pF (w.take pub) (fun k hk => hc k (List.mem_of_mem_take hk)) (by simp; omega) hpub0 hsp hg
    o1 o2 o3 o4 o5]
  congr 1
  have hsig : (∑ i ∈ Finset.range pub, assign q (w.take pub) i * S.mix t i) =
      ∑ i ∈ Finset.range pub, assign q w i * S.mix t i :=
    Finset.sum_congr rfl fun i hi => by rw [assign_take w pub i (by simpa using hi)]
  have hdiv : Q.eval t.x * (vanish q S.n).eval t.x = (S.comb (gxX X) (assign q w)).eval t.x := by
    have := (comb_dvd_iff S hnq (gxX X) (assign q w)).2 hs
    have h2 := modByMonic_add_div (S.comb (gxX X) (assign q w)) (vanish q S.n)
    rw [(modByMonic_eq_zero_iff_dvd (vanish_monic _)).2 this, zero_add, ← hQ] at h2
    rw [← h2, eval_mul, mul_comm]
  rw [hsig, sum_seqC _ _ hpub.le _ hd, sum_seqA, sum_seqB, sum_seqF, hdiv, comb_eval_secret, sum_mix]
  rw [decide_eq_decide]
  constructor
  · intro h; linear_combination h
  · intro h; linear_combination h

theorem honest_rel {S : Sys q} {pub : Nat} {t : Secrets q} {pk : Pk A1 A2 AT}
    (hpk : PkRel R1 R2 RT ok S pub t pk) (hn2 : 2 ≤ S.n) (hnq : S.n ≤ q) (hpub0 : 0 < pub) (hpub : pub < S.m)
    (hg : t.gamma ≠ 0) (hd : t.delta ≠ 0) (w : List Int) (hw : w.length = S.m) (hc : ∀ k ∈ w, 0 ≤ k)
    (px : List Int) (hpx : poly q px = S.comb (gxX X) (assign q w)) (hpl : px.length = 2 * S.n - 1)
    (hpc : Canon q px) (hs : S.Sat (gxX X) (assign q w)) (hsafe : S.Safe (gxX X) pub t (assign q w)) :
      ∃ pf, generateProofs raw q pub pk w px = some pf ∧
        (ok pk.beta2 → ok pk.gamma2 → ok pk.delta2 → ok pf.B → ok (raw.addFresh2 pf.B pk.beta2) →
        verifyProof raw pk pf (w.take pub) = some (decide (gxX X (Sys_val S S.E (assign q w) t.x) =
          (through S.n (fun j => gxX X (rowVal S.m S.E (assign q w) j))).eval t.x))) := by
  obtain ⟨pf, p1, p2, -, p3⟩ := honest_rel_any I hpk hn2 hnq hpub0 hpub hg hd w hw hc px hpx hpl hpc hs hsafe.B hsafe.F hsafe.Q hsafe.C
    hsafe.pub
  exact ⟨pf, p1, p3 pf.A (p2 hsafe.A)⟩

end
end APS.Snark
