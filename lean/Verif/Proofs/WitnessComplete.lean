import Verif.Proofs.WitnessLoop

/-! Completeness of witness calculation: if a vector satisfies the rows and every gate can be solved in order, the calculation
finds it. -/
namespace APS.Circuit
open APS.Spec APS.Avl APS.Avl.Tree

variable {q : Nat}

theorem scan_agrees {inv : InvSplit} {n : Nat} {e : Nat → Int} {s0 s1 : WState} {k : Nat → Int} {unk : List Nat} {t : List Int}
    (h : ScanSpec inv n e s0 k unk s1) (ha : Agrees s0 t)
    (hb : ∀ j, e j ≠ 0 → ¬ Kn s0 j → ∀ b f, inv.lookup j = some (b, f) → Kn s0 f ∧ t.getD j 0 = bitOf (t.getD f 0) b) :
    Agrees s1 t := by
  intro j hj
  by_cases h0 : Kn s0 j
  · rw [h.ext.val j h0]; exact ha j h0
  · obtain ⟨hl, he⟩ := (h.new j hj).resolve_left h0
    have hu : j ∉ unk := fun hu => (h.unks j hu).2.1 hj
    rcases h.coef j hu with ⟨a, -⟩ | ⟨a, -⟩ | ⟨-, -, -, -, -, b, f, hbf, hv⟩
    · exact absurd a h0
    · exact absurd a he
    · obtain ⟨hf, ht⟩ := hb j he h0 b f hbf
      rw [hv hf, ht, ha f hf]

section generic
variable {α : Type} {inv : InvSplit} {n : Nat} {scan : α → WState → Option (α × List Nat × WState)}
  {sum : α → List Int → Option Int} {get : α → Nat → Option Int} {entry : α → Nat → Int} {ok : α → Prop}

/-- the bits that the row reads are bits of numbers that are set -/
def BitsReady (inv : InvSplit) (entry : α → Nat → Int) (t : List Int) (row : Row α) (s : WState) : Prop :=
  ∀ j, Mentions entry row j → ¬ Kn s j → ∀ b f, inv.lookup j = some (b, f) → Kn s f ∧ t.getD j 0 = bitOf (t.getD f 0) b

theorem RowScan.agrees {row : Row α} {s s1 s2 s3 : WState} {c : Scanned α} {t : List Int}
    (h : RowScan inv n entry ok row s c s1 s2 s3) (ha : Agrees s t) (hb : BitsReady inv entry t row s) : Agrees c.s t := by
  have a1 := scan_agrees h.L ha fun j hj hn => hb j (Or.inl hj) hn
  have a2 := scan_agrees h.R a1 fun j hj hn b f hl => by
    obtain ⟨x, y⟩ := hb j (Or.inr (Or.inl hj)) (fun hk => hn (h.L.ext.kn j hk)) b f hl
    exact ⟨h.L.ext.kn f x, y⟩
  have a3 := scan_agrees h.E a2 fun j hj hn b f hl => by
    obtain ⟨x, y⟩ := hb j (Or.inr (Or.inr (Or.inl hj))) (fun hk => hn (h.R.ext.kn j (h.L.ext.kn j hk))) b f hl
    exact ⟨h.R.ext.kn f (h.L.ext.kn f x), y⟩
  exact scan_agrees h.O a3 fun j hj hn b f hl => by
    obtain ⟨x, y⟩ := hb j (Or.inr (Or.inr (Or.inr hj)))
      (fun hk => hn (h.E.ext.kn j (h.R.ext.kn j (h.L.ext.kn j hk)))) b f hl
    exact ⟨h.E.ext.kn f (h.R.ext.kn f (h.L.ext.kn f x)), y⟩

/-- an unknown of the row was not set before and is not a bit -/
theorem RowScan.unk {row : Row α} {s s1 s2 s3 : WState} {c : Scanned α} (h : RowScan inv n entry ok row s c s1 s2 s3) {j : Nat} :
    (j ∈ c.lu → entry row.L j ≠ 0 ∧ ¬ Kn s j ∧ inv.lookup j = none) ∧ (j ∈ c.ru → entry row.R j ≠ 0 ∧ ¬ Kn s j ∧ inv.lookup j = none) ∧
    (j ∈ c.eu → entry row.E j ≠ 0 ∧ ¬ Kn s j ∧ inv.lookup j = none) ∧ (j ∈ c.ou → entry row.O j ≠ 0 ∧ ¬ Kn s j ∧ inv.lookup j = none) := by
  have e1 := h.L.ext
  have e2 := e1.trans h.R.ext
  have e3 := e2.trans h.E.ext
  have e4 := e3.trans h.O.ext
  refine ⟨fun hj => ?_, fun hj => ?_, fun hj => ?_, fun hj => ?_⟩
  · obtain ⟨a, b, c, -⟩ := h.L.unks j hj; exact ⟨a, fun hk => b (e1.kn j hk), c⟩
  · obtain ⟨a, b, c, -⟩ := h.R.unks j hj; exact ⟨a, fun hk => b (e2.kn j hk), c⟩
  · obtain ⟨a, b, c, -⟩ := h.E.unks j hj; exact ⟨a, fun hk => b (e3.kn j hk), c⟩
  · obtain ⟨a, b, c, -⟩ := h.O.unks j hj; exact ⟨a, fun hk => b (e4.kn j hk), c⟩

/-- a position that was not set and is not a bit is not set by the scan -/
theorem RowScan.not_kn {row : Row α} {s s1 s2 s3 : WState} {c : Scanned α} (h : RowScan inv n entry ok row s c s1 s2 s3) {x : Nat}
    (hx : ¬ Kn s x) (hl : inv.lookup x = none) : ¬ Kn s1 x ∧ ¬ Kn s2 x ∧ ¬ Kn s3 x ∧ ¬ Kn c.s x := by
  have a1 : ¬ Kn s1 x := fun hk => by rcases h.L.new x hk with h' | ⟨h', -⟩; exacts [hx h', h' hl]
  have a2 : ¬ Kn s2 x := fun hk => by rcases h.R.new x hk with h' | ⟨h', -⟩; exacts [a1 h', h' hl]
  have a3 : ¬ Kn s3 x := fun hk => by rcases h.E.new x hk with h' | ⟨h', -⟩; exacts [a2 h', h' hl]
  have a4 : ¬ Kn c.s x := fun hk => by rcases h.O.new x hk with h' | ⟨h', -⟩; exacts [a3 h', h' hl]
  exact ⟨a1, a2, a3, a4⟩

/-- the check succeeds on a satisfied row all of whose positions are set -/
theorem check_complete [Fact q.Prime] (H : Ops q inv n scan sum get entry ok) {gxI : Int → Int} {gx : ZMod q → ZMod q}
    (hgx : ∀ k : Int, 0 ≤ k → (gxI k : ZMod q) = gx k) {row : Row α} (hrow : OkRow ok row)
    (hred : ∀ k, ok k → (∀ j, entry k j = entry row.O j) → ∀ w r, sum k w = some r → r < q)
    {s : WState} {t : List Int} (hs : WLen n s) (ht : t.length = n) (ha : Agrees s t) (hk : ∀ j, Mentions entry row j → Kn s j)
    (hsat : SatE q gx entry t row) :
    ∃ s', check q gxI scan sum row s = some s' ∧ WLen n s' ∧ SExt s s' ∧ Agrees s' t := by
  obtain ⟨c, h1⟩ := scanRow_total H hrow hs
  obtain ⟨s1, s2, s3, hc⟩ := scanRow_spec H hrow hs h1
  have nil : ∀ l : List Nat, (∀ j ∈ l, False) → l = [] := fun l hl => List.eq_nil_iff_forall_not_mem.mpr hl
  have hlu : c.lu = [] := nil _ fun j hj => (hc.unk.1 hj).2.1 (hk j (Or.inl (hc.unk.1 hj).1))
  have hru : c.ru = [] := nil _ fun j hj => (hc.unk.2.1 hj).2.1 (hk j (Or.inr (Or.inl (hc.unk.2.1 hj).1)))
  have heu : c.eu = [] := nil _ fun j hj => (hc.unk.2.2.1 hj).2.1 (hk j (Or.inr (Or.inr (Or.inl (hc.unk.2.2.1 hj).1))))
  have hou : c.ou = [] := nil _ fun j hj => (hc.unk.2.2.2 hj).2.1 (hk j (Or.inr (Or.inr (Or.inr (hc.unk.2.2.2 hj).1))))
  have hac : Agrees c.s t := hc.agrees ha fun j hj hn => absurd (hk j hj) hn
  obtain ⟨sl, hsl, vsl, -⟩ := H.sum_spec hc.okL hc.O.len.w
  obtain ⟨sr, hsr, vsr, -⟩ := H.sum_spec hc.okR hc.O.len.w
  obtain ⟨se, hse, vse, nse⟩ := H.sum_spec hc.okE hc.O.len.w
  obtain ⟨so, hso, vso, nso⟩ := H.sum_spec hc.okO hc.O.len.w
  have k1 : ∀ j, Mentions entry row j → Kn s1 j := fun j hj => hc.L.ext.kn j (hk j hj)
  have k2 : ∀ j, Mentions entry row j → Kn s2 j := fun j hj => hc.R.ext.kn j (k1 j hj)
  have k3 : ∀ j, Mentions entry row j → Kn s3 j := fun j hj => hc.E.ext.kn j (k2 j hj)
  have hz : RowLazy q inv entry row s s1 s2 s3 :=
    ⟨fun j hj hn => absurd (hk j (Or.inl hj)) hn, fun j hj hn => absurd (k1 j (Or.inr (Or.inl hj))) hn,
      fun j hj hn => absurd (k2 j (Or.inr (Or.inr (Or.inl hj)))) hn,
      fun j hj hn => absurd (k3 j (Or.inr (Or.inr (Or.inr hj)))) hn⟩
  obtain ⟨d1, d2, d3, d4⟩ := hc.dots hz hac ht
  rw [hlu, ← vsl] at d1
  rw [hru, ← vsr] at d2
  rw [heu, ← vse] at d3
  rw [hou, ← vso] at d4
  simp only [List.map_nil, List.sum_nil, add_zero] at d1 d2 d3 d4
  unfold SatE RowSat at hsat
  rw [d1, d2, d3, d4] at hsat
  have hlt : so < q := hred c.ok hc.okO (fun j => by
    rcases hc.O.coef j (by rw [hou]; simp) with ⟨-, h⟩ | ⟨h, h'⟩ | ⟨hn, -, he, -⟩
    · exact h
    · rw [h, h']
    · exact absurd (k3 j (Or.inr (Or.inr (Or.inr he)))) hn) _ _ hso
  have hq := (Fact.out : q.Prime).pos
  have heq : Fq.add q (Fq.mul q sr sl) (gxI se) = so := by
    have hcast : ((Fq.add q (Fq.mul q sr sl) (gxI se) : Int) : ZMod q) = ((so : Int) : ZMod q) := by
      rw [cast_add', cast_mul', hgx se nse, ← hsat]; ring
    rw [ZMod.intCast_eq_intCast_iff_dvd_sub] at hcast
    have h0 : 0 ≤ Fq.add q (Fq.mul q sr sl) (gxI se) := Int.emod_nonneg _ (by omega)
    have h1 : Fq.add q (Fq.mul q sr sl) (gxI se) < q := Int.emod_lt_of_pos _ (by omega)
    have := Int.eq_zero_of_abs_lt_dvd hcast (by rw [abs_lt]; omega)
    omega
  refine ⟨c.s, ?_, hc.O.len, hc.ext, hac⟩
  unfold check
  rw [h1]
  simp only [Option.bind_eq_bind, Option.bind_some, hlu, hru, heu, hou, List.length_nil, hsr, hso, hse, hsl, heq]
  simp

/-- division by a unit -/
theorem div_total [Fact q.Prime] (a : Int) {b : Int} (hb : (b : ZMod q) ≠ 0) :
    ∃ r, Fq.div q a b = some r ∧ 0 ≤ r ∧ r < q ∧ (r : ZMod q) = (a : ZMod q) / (b : ZMod q) := by
  obtain ⟨r, h1, h2, h3, h4, -⟩ := (C02_div q Fact.out a b).1 (fun hd => hb ((ZMod.intCast_zmod_eq_zero_iff_dvd b q).mpr hd))
  refine ⟨r, h1, h2, h3, ?_⟩
  rw [eq_div_iff hb, ← Int.cast_mul, ZMod.intCast_eq_intCast_iff]
  exact h4

/-- two canonical representatives of the same class are equal -/
theorem canon_eq {a b : Int} (ha : 0 ≤ a) (ha' : a < q) (hb : 0 ≤ b) (hb' : b < q) (h : (a : ZMod q) = (b : ZMod q)) : a = b := by
  rw [ZMod.intCast_eq_intCast_iff_dvd_sub] at h
  have := Int.eq_zero_of_abs_lt_dvd h (by rw [abs_lt]; omega)
  omega

/-- The unknown `x` of a row can be solved for: it occurs on one side only, with a unit as coefficient, and the cofactor is not
zero in the solution `t`. -/
def Solvable (q : Nat) (entry : α → Nat → Int) (t : List Int) (row : Row α) (x : Nat) : Prop :=
  ((entry row.L x : ZMod q) ≠ 0 ∧ entry row.R x = 0 ∧ entry row.E x = 0 ∧ entry row.O x = 0 ∧ dot q (entry row.R) t ≠ 0) ∨
  ((entry row.R x : ZMod q) ≠ 0 ∧ entry row.L x = 0 ∧ entry row.E x = 0 ∧ entry row.O x = 0 ∧ dot q (entry row.L) t ≠ 0) ∨
  ((entry row.O x : ZMod q) ≠ 0 ∧ entry row.L x = 0 ∧ entry row.R x = 0 ∧ entry row.E x = 0)

theorem unk_single {e : Nat → Int} {s0 s1 : WState} {k : Nat → Int} {unk : List Nat} {x : Nat}
    (h : ScanSpec inv n e s0 k unk s1) (hx : ¬ Kn s1 x) (he : e x ≠ 0) (hall : ∀ j ∈ unk, j = x) : unk = [x] := by
  have hmem : x ∈ unk := (h.cover x he).resolve_left hx
  have hnd := h.nodup
  cases hu : unk with
  | nil => rw [hu] at hmem; simp at hmem
  | cons a l =>
    rw [hu] at hall hnd
    have ha : a = x := hall a List.mem_cons_self
    subst ha
    cases l with
    | nil => rfl
    | cons b l' =>
      have hb : b = a := hall b (by simp)
      subst hb
      simp at hnd

/-- solving finds the value of the solution -/
theorem solve_complete [Fact q.Prime] (H : Ops q inv n scan sum get entry ok) {gxI : Int → Int} {gx : ZMod q → ZMod q}
    (hgx : ∀ k : Int, 0 ≤ k → (gxI k : ZMod q) = gx k) {row : Row α} (hrow : OkRow ok row)
    {s s1 s2 s3 : WState} {c : Scanned α} (hc : RowScan inv n entry ok row s c s1 s2 s3) {t : List Int} (ht : t.length = n)
    (hcan : ∀ v ∈ t, 0 ≤ v ∧ v < q) (ha : Agrees s t) {x : Nat} (hxn : ¬ Kn s x) (hxl : inv.lookup x = none)
    (hk : ∀ j, Mentions entry row j → Kn s j ∨ j = x) (hx : Solvable q entry t row x) (hsat : SatE q gx entry t row) :
    c.tooMany = false ∧ c.noUnknown = false ∧ ∃ s', solve q gxI sum get row c = some s' ∧ Agrees s' t := by
  have hac : Agrees c.s t := hc.agrees ha fun j hj hn b f hl => by
    rcases hk j hj with h | rfl
    · exact absurd h hn
    · rw [hxl] at hl; cases hl
  obtain ⟨n1, n2, n3, n4⟩ := hc.not_kn hxn hxl
  have uL : ∀ j ∈ c.lu, j = x := fun j hj => (hk j (Or.inl (hc.unk.1 hj).1)).resolve_left (hc.unk.1 hj).2.1
  have uR : ∀ j ∈ c.ru, j = x := fun j hj => (hk j (Or.inr (Or.inl (hc.unk.2.1 hj).1))).resolve_left (hc.unk.2.1 hj).2.1
  have uE : ∀ j ∈ c.eu, j = x := fun j hj =>
    (hk j (Or.inr (Or.inr (Or.inl (hc.unk.2.2.1 hj).1)))).resolve_left (hc.unk.2.2.1 hj).2.1
  have uO : ∀ j ∈ c.ou, j = x := fun j hj =>
    (hk j (Or.inr (Or.inr (Or.inr (hc.unk.2.2.2 hj).1)))).resolve_left (hc.unk.2.2.2 hj).2.1
  have nil : ∀ l : List Nat, (∀ j ∈ l, False) → l = [] := fun l hl => List.eq_nil_iff_forall_not_mem.mpr hl
  have lz : ∀ {s' : WState} {e : Nat → Int}, SExt s s' → (∀ j, e j ≠ 0 → Mentions entry row j) → LazyOK q inv e s' := by
    intro s' e hext hm j hj hn hl
    rcases hk j (hm j hj) with h | rfl
    · exact absurd (hext.kn j h) hn
    · exact absurd hxl hl
  have e1 := hc.L.ext
  have e2 := e1.trans hc.R.ext
  have e3 := e2.trans hc.E.ext
  have hz : RowLazy q inv entry row s s1 s2 s3 :=
    ⟨lz (.refl _) fun j h => Or.inl h, lz e1 fun j h => Or.inr (Or.inl h), lz e2 fun j h => Or.inr (Or.inr (Or.inl h)),
      lz e3 fun j h => Or.inr (Or.inr (Or.inr h))⟩
  obtain ⟨sl, hsl, vsl, -⟩ := H.sum_spec hc.okL hc.O.len.w
  obtain ⟨sr, hsr, vsr, -⟩ := H.sum_spec hc.okR hc.O.len.w
  obtain ⟨se, hse, vse, nse⟩ := H.sum_spec hc.okE hc.O.len.w
  obtain ⟨so, hso, vso, -⟩ := H.sum_spec hc.okO hc.O.len.w
  obtain ⟨d1, d2, d3, d4⟩ := hc.dots hz hac ht
  unfold SatE RowSat at hsat
  have nz : ∀ {v : Int}, (v : ZMod q) ≠ 0 → v ≠ 0 := fun h h' => h (by rw [h']; simp)
  have hxlt : x < n := by
    rcases hx with ⟨h, -⟩ | ⟨h, -⟩ | ⟨h, -⟩
    · have := unk_single hc.L n1 (nz h) uL
      exact (hc.L.unks x (by rw [this]; simp)).2.2.2.2
    · have := unk_single hc.R n2 (nz h) uR
      exact (hc.R.unks x (by rw [this]; simp)).2.2.2.2
    · have := unk_single hc.O n4 (nz h) uO
      exact (hc.O.unks x (by rw [this]; simp)).2.2.2.2
  have hxt : 0 ≤ t.getD x 0 ∧ t.getD x 0 < q := by
    rw [List.getD_eq_getElem _ _ (by rw [ht]; exact hxlt)]
    exact hcan _ (List.getElem_mem _)
  have put_ok : ∀ r : Int, r = t.getD x 0 → ∃ s', c.s.put x r = some s' ∧ Agrees s' t := by
    rintro r rfl
    obtain ⟨s', hs'⟩ := put_total (t.getD x 0) hc.O.len hxlt
    obtain ⟨-, -, p2, p3⟩ := put_spec hc.O.len hs'
    refine ⟨s', hs', fun j hj => ?_⟩
    rw [p3]
    by_cases hjx : j = x
    · rw [if_pos hjx, hjx]
    · rw [if_neg hjx]
      exact hac j (((p2 j).mp hj).resolve_left hjx)
  rcases hx with ⟨hL, zR, zE, zO, hdR⟩ | ⟨hR, zL, zE, zO, hdL⟩ | ⟨hO, zL, zR, zE⟩
  · have lu := unk_single hc.L n1 (nz hL) uL
    have ru : c.ru = [] := nil _ fun j hj => (hc.unk.2.1 hj).1 (by rw [uR j hj]; exact zR)
    have eu : c.eu = [] := nil _ fun j hj => (hc.unk.2.2.1 hj).1 (by rw [uE j hj]; exact zE)
    have ou : c.ou = [] := nil _ fun j hj => (hc.unk.2.2.2 hj).1 (by rw [uO j hj]; exact zO)
    rw [lu, ← vsl] at d1
    rw [ru, ← vsr] at d2
    rw [eu, ← vse] at d3
    rw [ou, ← vso] at d4
    simp only [List.map_cons, List.map_nil, List.sum_cons, List.sum_nil, add_zero] at d1 d2 d3 d4
    rw [d2] at hdR
    have hsr0 : sr ≠ 0 := nz hdR
    obtain ⟨r1, hr1, -, -, v1⟩ := div_total (q := q) (Fq.sub q so (gxI se)) hdR
    obtain ⟨r2, hr2, c1, c2, v2⟩ := div_total (q := q) (Fq.sub q r1 sl) hL
    have hval : r2 = t.getD x 0 := by
      refine canon_eq c1 c2 hxt.1 hxt.2 ?_
      rw [v2, cast_sub', v1, cast_sub', hgx se nse, div_eq_iff hL]
      rw [d1, d2, d3, d4] at hsat
      have : ((so : ZMod q) - gx (se : ZMod q)) / (sr : ZMod q) = (sl : ZMod q) + (entry row.L x : ZMod q) * ((t.getD x 0 : Int) : ZMod q) := by
        rw [div_eq_iff hdR, ← hsat]; ring
      rw [this]; ring
    obtain ⟨s', hp, hag⟩ := put_ok r2 hval
    refine ⟨by simp [Scanned.tooMany, lu, ru, eu, ou], by simp [Scanned.noUnknown, lu], s', ?_, hag⟩
    unfold solve
    rw [lu]
    simp only [hsr, hso, hse, hsl, H.get_spec hrow.L (nz hL), Option.bind_eq_bind, Option.bind_some, if_neg hsr0, solveFactor, hr1,
      hr2, hp]
  · have lu : c.lu = [] := nil _ fun j hj => (hc.unk.1 hj).1 (by rw [uL j hj]; exact zL)
    have ru := unk_single hc.R n2 (nz hR) uR
    have eu : c.eu = [] := nil _ fun j hj => (hc.unk.2.2.1 hj).1 (by rw [uE j hj]; exact zE)
    have ou : c.ou = [] := nil _ fun j hj => (hc.unk.2.2.2 hj).1 (by rw [uO j hj]; exact zO)
    rw [lu, ← vsl] at d1
    rw [ru, ← vsr] at d2
    rw [eu, ← vse] at d3
    rw [ou, ← vso] at d4
    simp only [List.map_cons, List.map_nil, List.sum_cons, List.sum_nil, add_zero] at d1 d2 d3 d4
    rw [d1] at hdL
    have hsl0 : sl ≠ 0 := nz hdL
    obtain ⟨r1, hr1, -, -, v1⟩ := div_total (q := q) (Fq.sub q so (gxI se)) hdL
    obtain ⟨r2, hr2, c1, c2, v2⟩ := div_total (q := q) (Fq.sub q r1 sr) hR
    have hval : r2 = t.getD x 0 := by
      refine canon_eq c1 c2 hxt.1 hxt.2 ?_
      rw [v2, cast_sub', v1, cast_sub', hgx se nse, div_eq_iff hR]
      rw [d1, d2, d3, d4] at hsat
      have : ((so : ZMod q) - gx (se : ZMod q)) / (sl : ZMod q) = (sr : ZMod q) + (entry row.R x : ZMod q) * ((t.getD x 0 : Int) : ZMod q) := by
        rw [div_eq_iff hdL, ← hsat]; ring
      rw [this]; ring
    obtain ⟨s', hp, hag⟩ := put_ok r2 hval
    refine ⟨by simp [Scanned.tooMany, lu, ru, eu, ou], by simp [Scanned.noUnknown, ru], s', ?_, hag⟩
    unfold solve
    rw [lu, ru]
    simp only [hsr, hso, hse, hsl, H.get_spec hrow.R (nz hR), Option.bind_eq_bind, Option.bind_some, if_neg hsl0, solveFactor, hr1,
      hr2, hp]
  · have lu : c.lu = [] := nil _ fun j hj => (hc.unk.1 hj).1 (by rw [uL j hj]; exact zL)
    have ru : c.ru = [] := nil _ fun j hj => (hc.unk.2.1 hj).1 (by rw [uR j hj]; exact zR)
    have eu : c.eu = [] := nil _ fun j hj => (hc.unk.2.2.1 hj).1 (by rw [uE j hj]; exact zE)
    have ou := unk_single hc.O n4 (nz hO) uO
    rw [lu, ← vsl] at d1
    rw [ru, ← vsr] at d2
    rw [eu, ← vse] at d3
    rw [ou, ← vso] at d4
    simp only [List.map_cons, List.map_nil, List.sum_cons, List.sum_nil, add_zero] at d1 d2 d3 d4
    obtain ⟨r2, hr2, c1, c2, v2⟩ := div_total (q := q) (Fq.sub q (Fq.add q (Fq.mul q sr sl) (gxI se)) so) hO
    have hval : r2 = t.getD x 0 := by
      refine canon_eq c1 c2 hxt.1 hxt.2 ?_
      rw [v2, cast_sub', cast_add', cast_mul', hgx se nse, div_eq_iff hO]
      rw [d1, d2, d3, d4] at hsat
      linear_combination hsat
    obtain ⟨s', hp, hag⟩ := put_ok r2 hval
    refine ⟨by simp [Scanned.tooMany, lu, ru, eu, ou], by simp [Scanned.noUnknown, ou], s', ?_, hag⟩
    unfold solve
    rw [lu, ru, ou]
    simp only [hsr, hso, hse, hsl, H.get_spec hrow.O (nz hO), Option.bind_eq_bind, Option.bind_some, solveOut, hr2, hp]

/-- how a row can be handled in state `s`: nothing is unknown (bits may be read), or there is one unknown to solve for -/
inductive Ready (q : Nat) (inv : InvSplit) (entry : α → Nat → Int) (t : List Int) (row : Row α) (s : WState) : Prop
  | known (hk : ∀ j, Mentions entry row j → Kn s j ∨ inv.lookup j ≠ none) (hb : BitsReady inv entry t row s)
  | solve (x : Nat) (hn : ¬ Kn s x) (hl : inv.lookup x = none) (hk : ∀ j, Mentions entry row j → Kn s j ∨ j = x)
      (hx : Solvable q entry t row x)

/-- what one gate achieves -/
structure StepDone (n : Nat) (entry : α → Nat → Int) (t : List Int) (row : Row α) (s s' : WState) : Prop where
  len : WLen n s'
  ext : SExt s s'
  known : ∀ j, Mentions entry row j → Kn s' j
  agrees : Agrees s' t

theorem RowScan.noUnk {row : Row α} {s s1 s2 s3 : WState} {c : Scanned α} (hc : RowScan inv n entry ok row s c s1 s2 s3)
    (hk : ∀ j, Mentions entry row j → Kn s j ∨ inv.lookup j ≠ none) : c.lu = [] ∧ c.ru = [] ∧ c.eu = [] ∧ c.ou = [] := by
  have nil : ∀ l : List Nat, (∀ j ∈ l, False) → l = [] := fun l hl => List.eq_nil_iff_forall_not_mem.mpr hl
  have key : ∀ j, Mentions entry row j → ¬ Kn s j → inv.lookup j = none → False := fun j hm hn hl => by
    rcases hk j hm with h | h
    exacts [hn h, h hl]
  exact ⟨nil _ fun j hj => key j (Or.inl (hc.unk.1 hj).1) (hc.unk.1 hj).2.1 (hc.unk.1 hj).2.2,
    nil _ fun j hj => key j (Or.inr (Or.inl (hc.unk.2.1 hj).1)) (hc.unk.2.1 hj).2.1 (hc.unk.2.1 hj).2.2,
    nil _ fun j hj => key j (Or.inr (Or.inr (Or.inl (hc.unk.2.2.1 hj).1))) (hc.unk.2.2.1 hj).2.1 (hc.unk.2.2.1 hj).2.2,
    nil _ fun j hj => key j (Or.inr (Or.inr (Or.inr (hc.unk.2.2.2 hj).1))) (hc.unk.2.2.2 hj).2.1 (hc.unk.2.2.2 hj).2.2⟩

end generic

/-! ### one gate -/

theorem stepD_complete [Fact q.Prime] {gxI : Int → Int} {gx : ZMod q → ZMod q} (hgx : ∀ k : Int, 0 ≤ k → (gxI k : ZMod q) = gx k)
    {inv : InvSplit} {n : Nat} {row : Row (List Int)} (hrow : OkRow (fun a => a.length = n) row) {s : WState} (hs : WLen n s)
    {t : List Int} (ht : t.length = n) (hcan : ∀ v ∈ t, 0 ≤ v ∧ v < q) (ha : Agrees s t) (hsat : SatE q gx denseEntry t row)
    (hr : Ready q inv denseEntry t row s) : ∃ s', stepD q gxI inv row s = some s' ∧ StepDone n denseEntry t row s s' := by
  have hq := (Fact.out : q.Prime).pos
  have H := opsD (q := q) hq inv n
  obtain ⟨c, h1⟩ := scanRow_total H hrow hs
  obtain ⟨s1, s2, s3, hc⟩ := scanRow_spec H hrow hs h1
  unfold stepD
  rw [h1, Option.bind_eq_bind, Option.bind_some]
  cases hr with
  | known hk hb =>
    obtain ⟨a1, a2, a3, a4⟩ := hc.noUnk hk
    have hm : c.tooMany = false := by simp [Scanned.tooMany, a1, a2, a3, a4]
    have hu : c.noUnknown = true := by simp [Scanned.noUnknown, a1, a2, a4]
    have hkn := hc.known_of_noUnknown hm hu
    obtain ⟨s', r1, r2, r3, r4⟩ := check_complete H hgx hrow (fun k _ _ w r h => (scalarProduct_dot hq h).2.2.1) hc.O.len ht
      (hc.agrees ha hb) hkn hsat
    refine ⟨s', ?_, r2, hc.ext.trans r3, fun j hj => r3.kn j (hkn j hj), r4⟩
    rw [hm, hu]
    exact r1
  | solve x hn hl hk hx =>
    obtain ⟨hm, hu, s', r1, r2⟩ := solve_complete H hgx hrow hc ht hcan ha hn hl hk hx hsat
    obtain ⟨b1, b2, b3, -, -⟩ := solve_sound H hgx hrow hc hm hu r1
    refine ⟨s', ?_, b1, b2, b3, r2⟩
    rw [hm, hu]
    exact r1

theorem stepS_complete [Fact q.Prime] {gxI : Int → Int} {gx : ZMod q → ZMod q} (hgx : ∀ k : Int, 0 ≤ k → (gxI k : ZMod q) = gx k)
    {inv : InvSplit} {n : Nat} {row : Row Tree} (hrow : OkRow (OkTree n) row) {s : WState} (hs : WLen n s)
    (hred : ∀ k, OkTree n k → (∀ j, sparseEntry k j = sparseEntry row.O j) → ∀ w r, Sparse.sparseScalarProduct q k w = some r → r < q)
    {t : List Int} (ht : t.length = n) (hcan : ∀ v ∈ t, 0 ≤ v ∧ v < q) (ha : Agrees s t) (hsat : SatE q gx sparseEntry t row)
    (hr : Ready q inv sparseEntry t row s) : ∃ s', stepS q gxI inv row s = some s' ∧ StepDone n sparseEntry t row s s' := by
  have hq := (Fact.out : q.Prime).pos
  have H := opsS (q := q) inv n hq
  obtain ⟨c, h1⟩ := scanRow_total H hrow hs
  obtain ⟨s1, s2, s3, hc⟩ := scanRow_spec H hrow hs h1
  unfold stepS
  rw [h1, Option.bind_eq_bind, Option.bind_some]
  cases hr with
  | known hk hb =>
    obtain ⟨a1, a2, a3, a4⟩ := hc.noUnk hk
    have hm : c.tooMany = false := by simp [Scanned.tooMany, a1, a2, a3, a4]
    have hu : c.noUnknown = true := by simp [Scanned.noUnknown, a1, a2, a4]
    have hkn := hc.known_of_noUnknown hm hu
    obtain ⟨s', r1, r2, r3, r4⟩ := check_complete H hgx hrow hred hc.O.len ht (hc.agrees ha hb) hkn hsat
    refine ⟨s', ?_, r2, hc.ext.trans r3, fun j hj => r3.kn j (hkn j hj), r4⟩
    rw [hm]
    have : solve q gxI (Sparse.sparseScalarProduct q) (fun t x => t.get x) row c = some c.s := by
      unfold solve
      rw [a1, a2, a4]
    simp only [Bool.false_eq_true, if_false, this, Option.bind_eq_bind, Option.bind_some]
    exact r1
  | solve x hn hl hk hx =>
    obtain ⟨hm, hu, s', r1, r2⟩ := solve_complete H hgx hrow hc ht hcan ha hn hl hk hx hsat
    obtain ⟨b1, b2, b3, -, -⟩ := solve_sound H hgx hrow hc hm hu r1
    obtain ⟨s'', c1, c2, c3, c4⟩ := check_complete H hgx hrow hred b1 ht r2 b3 hsat
    refine ⟨s'', ?_, c2, b2.trans c3, fun j hj => c3.kn j (b3 j hj), c4⟩
    rw [hm]
    simp only [Bool.false_eq_true, if_false, r1, Option.bind_eq_bind, Option.bind_some]
    exact c1

end APS.Circuit
