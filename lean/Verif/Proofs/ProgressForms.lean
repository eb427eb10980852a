import Verif.Spec.Positive
import Verif.Proofs.Compile

/-! Forms with positive coefficients: sums and products of them are forms with positive coefficients, and the compiler makes gates of them. -/
namespace APS.Prog
open APS.Circuit
open APS.LangSpec (LongHash)

variable {H : Name → Nat} {q : Nat}

/-- sum of the coefficients -/
def total (f : Factors) : Int := (f.map (·.mul)).sum

@[simp] theorem total_nil : total [] = 0 := rfl
@[simp] theorem total_cons (x : Factor) (f : Factors) : total (x :: f) = x.mul + total f := rfl
theorem total_append (f g : Factors) : total (f ++ g) = total f + total g := by simp [total]

/-- positive coefficients -/
def Pos (f : Factors) : Prop := ∀ x ∈ f, 1 ≤ x.mul

theorem Pos.nonneg {f : Factors} (h : Pos f) : 0 ≤ total f := by
  induction f with
  | nil => simp
  | cons x f ih =>
    have h1 := h x (by simp)
    have h2 := ih fun y hy => h y (List.mem_cons_of_mem _ hy)
    rw [total_cons]; omega

/-- positive coefficients with a sum of at most `v` -/
structure Sized (f : Factors) (v : Nat) : Prop where
  ne : f ≠ []
  pos : Pos f
  le : total f ≤ v

theorem Sized.one {f : Factors} {v : Nat} (h : Sized f v) : 1 ≤ total f := by
  match f, h.ne, h.pos with
  | x :: f, _, hp =>
    have h1 := hp x (by simp)
    have h2 : 0 ≤ total f := Pos.nonneg fun y hy => hp y (List.mem_cons_of_mem _ hy)
    rw [total_cons]; omega

/-! ### sums -/

theorem addFactor_mul {l r s : Factor} (h : addFactor q l r = some s) : s.mul = Fq.add q l.mul r.mul := by
  unfold addFactor at h
  split at h
  · cases h; rfl
  · split at h
    · cases h; rfl
    · cases h

theorem addInto_total {l : Factor} (hl : 1 ≤ l.mul) : ∀ {rs rs' : Factors}, Pos rs → l.mul + total rs < q → addInto q l rs = some rs' →
    Pos rs' ∧ total rs' = l.mul + total rs := by
  intro rs
  induction rs with
  | nil => intro rs' _ _ h; cases h
  | cons r rs ih =>
    intro rs' hp hlt h
    have hr := hp r (by simp)
    have hrs : Pos rs := fun y hy => hp y (List.mem_cons_of_mem _ hy)
    have h0 := hrs.nonneg
    rw [total_cons] at hlt
    simp only [addInto] at h
    split at h
    · rename_i s hs
      cases h
      have e : s.mul = l.mul + r.mul := by rw [addFactor_mul hs, Fq.add, Int.emod_eq_of_lt] <;> omega
      refine ⟨fun y hy => ?_, by rw [total_cons, total_cons, e]; omega⟩
      rcases List.mem_cons.mp hy with rfl | hy
      · omega
      · exact hrs y hy
    · simp only [Option.map_eq_some_iff] at h
      obtain ⟨t, ht, rfl⟩ := h
      obtain ⟨h1, h2⟩ := ih hrs (by omega) ht
      refine ⟨fun y hy => ?_, by rw [total_cons, total_cons, h2]; omega⟩
      rcases List.mem_cons.mp hy with rfl | hy
      · exact hr
      · exact h1 y hy

theorem addLoop_total : ∀ {ls rs : Factors}, Pos ls → Pos rs → total ls + total rs < q →
    Pos (addLoop q ls rs).1 ∧ Pos (addLoop q ls rs).2 ∧ total (addLoop q ls rs).1 + total (addLoop q ls rs).2 = total ls + total rs := by
  intro ls
  induction ls with
  | nil => intro rs _ hr _; exact ⟨fun _ h => by simp [addLoop] at h, hr, rfl⟩
  | cons l ls ih =>
    intro rs hl hr hlt
    have h1 := hl l (by simp)
    have hls : Pos ls := fun y hy => hl y (List.mem_cons_of_mem _ hy)
    have h0 := hls.nonneg
    have h2 := hr.nonneg
    rw [total_cons] at hlt
    simp only [addLoop]
    split
    · rename_i rs' hs
      obtain ⟨a, b⟩ := addInto_total h1 hr (by omega) hs
      obtain ⟨c, d, e⟩ := ih hls a (by omega)
      exact ⟨c, d, by rw [e, b, total_cons]; omega⟩
    · obtain ⟨c, d, e⟩ := ih hls hr (by omega)
      refine ⟨fun y hy => ?_, d, ?_⟩
      · rcases List.mem_cons.mp hy with rfl | hy
        · exact h1
        · exact c y hy
      · show total (l :: (addLoop q ls rs).1) + total (addLoop q ls rs).2 = total (l :: ls) + total rs
        rw [total_cons, total_cons]; omega

theorem Sized.add {f g : Factors} {a b : Nat} (hf : Sized f a) (hg : Sized g b) (hlt : a + b < q) : Sized (addFactors q f g) (a + b) := by
  have h1 := hf.le
  have h2 := hg.le
  have h3 := hf.one
  have h4 := hg.one
  obtain ⟨c, d, e⟩ := addLoop_total (q := q) hf.pos hg.pos (by omega)
  have hfil : (addLoop q f g).2.filter (fun f => f.mul ≠ 0) = (addLoop q f g).2 := List.filter_eq_self.mpr fun x hx => by
    have := d x hx
    simp only [ne_eq, decide_not, Bool.not_eq_eq_eq_not, Bool.not_true, decide_eq_false_iff_not]
    omega
  have ht : total ((addLoop q f g).1 ++ (addLoop q f g).2) = total f + total g := by rw [total_append, e]
  have hne : (addLoop q f g).1 ++ (addLoop q f g).2 ≠ [] := fun h => by rw [h, total_nil] at ht; omega
  unfold addFactors
  simp only [hfil, if_neg hne]
  refine ⟨hne, fun x hx => ?_, by rw [ht]; push_cast; omega⟩
  rcases List.mem_append.mp hx with hx | hx
  · exact c x hx
  · exact d x hx

/-! ### products -/

theorem mulOne_total {l r : Factor} (h : l.tok.isNum = true ∨ r.tok.isNum = true) : ∃ s, mulOne q l r = some s ∧ s.mul = Fq.mul q r.mul l.mul := by
  unfold mulOne
  cases hl : l.tok.isNum <;> cases hr : r.tok.isNum <;> simp_all [numF]

theorem row_total {r : Factor} (hr : 1 ≤ r.mul) : ∀ (l : Factors), Pos l → (∀ x ∈ l, x.tok.isNum = true ∨ r.tok.isNum = true) → r.mul * total l < q →
    ∃ h, l.mapM (fun f => mulRow q f [r] f) = some h ∧ Pos h ∧ total h = r.mul * total l ∧ (l ≠ [] → h ≠ []) := by
  intro l
  induction l with
  | nil => intro _ _ _; exact ⟨[], by simp, by simp [Pos], by simp, by simp⟩
  | cons x l ih =>
    intro hp hn hlt
    have hx := hp x (by simp)
    have hl : Pos l := fun y hy => hp y (List.mem_cons_of_mem _ hy)
    have h0 := hl.nonneg
    rw [total_cons, mul_add] at hlt
    have h1 : 1 ≤ r.mul * x.mul := by nlinarith
    have h2 : 0 ≤ r.mul * total l := by positivity
    obtain ⟨h, a1, a2, a3, -⟩ := ih hl (fun y hy => hn y (List.mem_cons_of_mem _ hy)) (by omega)
    obtain ⟨s, b1, b2⟩ := mulOne_total (q := q) (hn x (by simp))
    have e : s.mul = r.mul * x.mul := by rw [b2, Fq.mul, Int.emod_eq_of_lt] <;> omega
    refine ⟨s :: h, ?_, fun y hy => ?_, by rw [total_cons, total_cons, a3, e, mul_add], by simp⟩
    · rw [List.mapM_cons, a1]
      simp only [mulRow, b1]
      rfl
    · rcases List.mem_cons.mp hy with rfl | hy
      · omega
      · exact a2 y hy

theorem sized_row {r : Factor} {l : Factors} {a b : Nat} (hr : 1 ≤ r.mul) (hra : r.mul ≤ a) (hl : Sized l b)
    (hn : ∀ x ∈ l, x.tok.isNum = true ∨ r.tok.isNum = true) (hlt : a * b < q) :
    ∃ h, l.mapM (fun f => mulRow q f [r] f) = some h ∧ Sized h (a * b) := by
  have h1 := hl.le
  have h2 := hl.one
  have h3 : r.mul * total l ≤ (a : Int) * b := by nlinarith
  obtain ⟨h, a1, a2, a3, a4⟩ := row_total (q := q) hr l hl.pos hn (by
    refine lt_of_le_of_lt h3 ?_
    exact_mod_cast hlt)
  exact ⟨h, a1, a4 hl.ne, a2, by rw [a3]; push_cast; exact h3⟩

theorem Sized.scale {f g : Factors} {a b : Nat} (hf : Sized f a) (hg : Sized g b) (hs : isSingleNumber f = true ∨ isSingleNumber g = true)
    (hlt : a * b < q) : ∃ h, mulFactors q f g = some h ∧ Sized h (a * b) := by
  unfold mulFactors
  rcases hs with hs | hs
  · obtain ⟨c, rfl, hc⟩ := (isSingleNumber_iff).mp hs
    have hc1 := hf.pos c (by simp)
    have hca : c.mul ≤ a := by have := hf.le; simpa using this
    by_cases hlen : ([c] : Factors).length < g.length
    · simp only [if_pos hlen]
      exact sized_row hc1 hca hg (fun _ _ => Or.inr hc) hlt
    · simp only [if_neg hlen]
      match g, hg, hlen with
      | [y], hg, _ =>
        obtain ⟨h, h1, h2⟩ := sized_row (q := q) (hg.pos y (by simp)) (by have := hg.le; simpa using this) hf
          (fun x hx => Or.inl (by rw [List.mem_singleton.mp hx]; exact hc)) (by rw [mul_comm]; exact hlt)
        exact ⟨h, h1, by rw [mul_comm]; exact h2⟩
      | [], hg, _ => exact (hg.ne rfl).elim
      | _ :: _ :: _, _, hlen => simp at hlen
  · obtain ⟨c, rfl, hc⟩ := (isSingleNumber_iff).mp hs
    have hlen : ¬ f.length < ([c] : Factors).length := by
      have : f.length ≠ 0 := fun h => hf.ne (List.length_eq_zero_iff.mp h)
      simp only [List.length_singleton]; omega
    simp only [if_neg hlen]
    obtain ⟨h, h1, h2⟩ := sized_row (q := q) (hg.pos c (by simp)) (by have := hg.le; simpa using this) hf (fun _ _ => Or.inr hc) (by rw [mul_comm]; exact hlt)
    exact ⟨h, h1, by rw [mul_comm]; exact h2⟩

/-! ### gates -/

theorem sig16_total {n : Nat} (h : 10 ^ 15 ≤ n) : ∃ s, sig16 n = some s := by
  unfold sig16
  simp only
  rw [if_neg]
  · exact ⟨_, rfl⟩
  · have := (Nat.length_toDigits_le_iff (b := 10) (k := 15) (n := n) (by norm_num) (by norm_num))
    omega

theorem withID_total (hH : LongHash H) (g : Gate) : ∃ g', withID H g = some g' := by
  unfold withID
  split
  · obtain ⟨s, hs⟩ := sig16_total (hH.gate ((sortF g.left).flatMap Factor.str) ((sortF g.right).flatMap Factor.str) ((sortF g.expo ++ sortF g.out).flatMap Factor.str))
    unfold setAndGetID gateHash hashFactors
    rw [hs]
    exact ⟨_, rfl⟩
  · exact ⟨_, rfl⟩

theorem add_total (hH : LongHash H) (s : St) (g : Gate) (post : Gate → Gate) : ∃ s' g', s.add H g post = some (s', g') := by
  obtain ⟨g', hg⟩ := withID_total hH g
  unfold St.add Container.add
  rw [hg]
  by_cases h : g'.ident ∈ s.c.computed <;> simp [h]

theorem gcdLoop_nonneg : ∀ (fs : Factors) {g : Int}, 0 ≤ g → 0 ≤ gcdLoop g fs
  | [], _, h => h
  | f :: fs, g, _ => gcdLoop_nonneg fs (by positivity)

theorem content_total {f : Factors} {v : Nat} (h : Sized f v) : ∃ g f', factorSignature f = some (g, f') ∧ 1 ≤ g ∧ g ≤ v := by
  match f, h with
  | x :: fs, h =>
    have hx := h.pos x (by simp)
    have h0 : 0 ≤ gcdLoop x.mul fs := gcdLoop_nonneg fs (by omega)
    have hd := (gcdLoop_dvd x.mul fs).1
    have hne : gcdLoop x.mul fs ≠ 0 := fun e => by rw [e] at hd; have := zero_dvd_iff.mp hd; omega
    have hle : gcdLoop x.mul fs ≤ x.mul := Int.le_of_dvd (by omega) hd
    have ht : 0 ≤ total fs := Pos.nonneg fun y hy => h.pos y (List.mem_cons_of_mem _ hy)
    have := h.le
    rw [total_cons] at this
    simp only [factorSignature, extractGCD, if_neg hne]
    exact ⟨_, _, rfl, by omega, by omega⟩
  | [], h => exact (h.ne rfl).elim

theorem Sized.mulGate (hH : LongHash H) {f g : Factors} {a b : Nat} (hf : Sized f a) (hg : Sized g b) (hlt : a * b < q) (s : St) :
    ∃ h s', mulGate H q f g s = some (h, s') ∧ Sized h (a * b) := by
  unfold Circuit.mulGate
  by_cases hs : isSingleNumber f = true ∨ isSingleNumber g = true
  · obtain ⟨h, h1, h2⟩ := hf.scale hg hs hlt
    refine ⟨h, s, ?_, h2⟩
    simp [hs, h1]
  · obtain ⟨g1, f', a1, a2, a3⟩ := content_total hf
    obtain ⟨g2, g', b1, b2, b3⟩ := content_total hg
    obtain ⟨s', o, h1⟩ := add_total hH s { typ := .mult, left := f', right := g' } (fun g => { g with out := [argF g.ident 1] })
    have e : g1 * g2 ≤ (a : Int) * b := by nlinarith
    have e1 : 1 ≤ g1 * g2 := by nlinarith
    have e2 : ((a * b : Nat) : Int) < q := by exact_mod_cast hlt
    push_cast at e2
    have hk : Fq.mul q g1 g2 = g1 * g2 := by rw [Fq.mul, Int.emod_eq_of_lt] <;> omega
    refine ⟨[argF o.ident (g1 * g2)], s', ?_, by simp, ?_, ?_⟩
    · simp only [Bool.or_eq_true, if_neg hs, extractConstant, a1, b1, Option.bind_eq_bind, Option.bind_some, Option.pure_def, h1, hk]
    · intro x hx; rw [List.mem_singleton.mp hx]; exact e1
    · simp only [total_cons, total_nil, argF, add_zero]; push_cast; exact e

theorem complete_total (hH : LongHash H) (f : Factors) (s : St) : ∃ s', completeFunction H f s = some s' := by
  have key : ∃ s', completeFunction.completeAdd H f s = some s' := by
    obtain ⟨t, ht⟩ := sig16_total (hH.text (f.flatMap Factor.str))
    obtain ⟨s', o, h1⟩ := add_total hH s { typ := .addition, ident := t, left := f, out := [argF t 1] } id
    refine ⟨s', ?_⟩
    simp only [completeFunction.completeAdd, signature, hashFactors, ht, Option.bind_eq_bind, Option.bind_some, h1, Option.pure_def]
  unfold completeFunction
  split
  · exact ⟨_, rfl⟩
  · split
    · split
      · exact ⟨_, rfl⟩
      · exact key
    · exact key

theorem withID_typ {g g' : Gate} (h : withID H g = some g') : g'.typ = g.typ := by
  unfold withID setAndGetID at h
  split at h
  · obtain ⟨t, -, rfl⟩ := Option.map_eq_some_iff.mp h
    rfl
  · cases h; rfl

theorem add_gates {s s' : St} {g g' : Gate} {post : Gate → Gate} (hp : ∀ x, (post x).typ = x.typ) (h : s.add H g post = some (s', g')) :
    ∀ x ∈ s'.c.gates, x ∈ s.c.gates ∨ x.typ = g.typ := by
  unfold St.add Container.add at h
  cases hw : withID H g with
  | none => simp [hw] at h
  | some g1 =>
    intro x hx
    rw [hw] at h
    by_cases hm : g1.ident ∈ s.c.computed
    · simp only [if_pos hm, Option.some.injEq, Prod.mk.injEq] at h
      obtain ⟨rfl, rfl⟩ := h
      exact Or.inl hx
    · simp only [if_neg hm, Option.some.injEq, Prod.mk.injEq] at h
      obtain ⟨rfl, rfl⟩ := h
      rcases List.mem_append.mp hx with hx | hx
      · exact Or.inl hx
      · rw [List.mem_singleton.mp hx, hp, withID_typ hw]
        exact Or.inr rfl

theorem add_count {s s' : St} {g g' : Gate} {post : Gate → Gate} (h : s.add H g post = some (s', g')) : s'.c.gates.length ≤ s.c.gates.length + 1 := by
  unfold St.add Container.add at h
  cases hw : withID H g with
  | none => simp [hw] at h
  | some g1 =>
    rw [hw] at h
    by_cases hm : g1.ident ∈ s.c.computed
    · simp only [if_pos hm, Option.some.injEq, Prod.mk.injEq] at h
      obtain ⟨rfl, rfl⟩ := h
      exact Nat.le_succ _
    · simp only [if_neg hm, Option.some.injEq, Prod.mk.injEq] at h
      obtain ⟨rfl, rfl⟩ := h
      simp

theorem mulGate_count {f g h : Factors} {s s' : St} (hm : mulGate H q f g s = some (h, s')) : s'.c.gates.length ≤ s.c.gates.length + 1 := by
  unfold Circuit.mulGate at hm
  split at hm
  · obtain ⟨_, -, hm⟩ := Option.bind_eq_some_iff.mp hm
    cases hm
    exact Nat.le_succ _
  · obtain ⟨⟨_, _, _⟩, -, hm⟩ := Option.bind_eq_some_iff.mp hm
    obtain ⟨⟨s1, g1⟩, h1, hm⟩ := Option.bind_eq_some_iff.mp hm
    cases hm
    exact add_count h1

theorem complete_count {f : Factors} {s s' : St} (h : completeFunction H f s = some s') : s'.c.gates.length ≤ s.c.gates.length + 1 := by
  have key : completeFunction.completeAdd H f s = some s' → s'.c.gates.length ≤ s.c.gates.length + 1 := by
    intro h
    unfold completeFunction.completeAdd at h
    obtain ⟨_, -, h⟩ := Option.bind_eq_some_iff.mp h
    obtain ⟨⟨s1, g1⟩, h1, h⟩ := Option.bind_eq_some_iff.mp h
    cases h
    exact add_count h1
  unfold completeFunction at h
  split at h
  · cases h; exact Nat.le_succ _
  · split at h
    · split at h
      · cases h; exact Nat.le_succ _
      · exact key h
    · exact key h

/-- a product makes no other gates than products -/
theorem mulGate_gates {f g h : Factors} {s s' : St} (hm : mulGate H q f g s = some (h, s')) : ∀ x ∈ s'.c.gates, x ∈ s.c.gates ∨ x.typ = .mult := by
  unfold Circuit.mulGate at hm
  split at hm
  · obtain ⟨_, -, hm⟩ := Option.bind_eq_some_iff.mp hm
    cases hm
    exact fun x hx => Or.inl hx
  · obtain ⟨⟨_, _, _⟩, -, hm⟩ := Option.bind_eq_some_iff.mp hm
    obtain ⟨⟨s1, g1⟩, h1, hm⟩ := Option.bind_eq_some_iff.mp hm
    cases hm
    exact add_gates (post := fun g => { g with out := [argF g.ident 1] }) (fun _ => rfl) h1

theorem complete_gates {f : Factors} {s s' : St} (h : completeFunction H f s = some s') : ∀ x ∈ s'.c.gates, x ∈ s.c.gates ∨ x.typ = .addition := by
  have key : completeFunction.completeAdd H f s = some s' → ∀ x ∈ s'.c.gates, x ∈ s.c.gates ∨ x.typ = .addition := by
    intro h
    unfold completeFunction.completeAdd at h
    obtain ⟨_, -, h⟩ := Option.bind_eq_some_iff.mp h
    obtain ⟨⟨s1, g1⟩, h1, h⟩ := Option.bind_eq_some_iff.mp h
    cases h
    exact add_gates (fun _ => rfl) h1
  unfold completeFunction at h
  split at h
  · cases h; exact fun x hx => Or.inl hx
  · split at h
    · split at h
      · cases h; exact fun x hx => Or.inl hx
      · exact key h
    · exact key h

/-- the gate is not part of a `SPLIT`, and no base multiplication -/
def NoSplit (g : Gate) : Prop := g.typ ≠ .sumCheck ∧ g.typ ≠ .zeroOrOne ∧ g.typ ≠ .scalarBase

theorem noSplit_mult {g : Gate} (h : g.typ = .mult) : NoSplit g := ⟨by rw [h]; simp, by rw [h]; simp, by rw [h]; simp⟩

theorem noSplit_addition {g : Gate} (h : g.typ = .addition) : NoSplit g := ⟨by rw [h]; simp, by rw [h]; simp, by rw [h]; simp⟩

theorem noSplit_equality {g : Gate} (h : g.typ = .equality) : NoSplit g := ⟨by rw [h]; simp, by rw [h]; simp, by rw [h]; simp⟩

theorem num_total {w : Name} (hw : APS.Spec.IsLit w) (h0 : Nat.ofDigitChars 10 w 0 ≠ 0) (hlt : Nat.ofDigitChars 10 w 0 < q) :
    ∃ f, compileNum q w = some f ∧ Sized f (Nat.ofDigitChars 10 w 0) := by
  refine ⟨[⟨⟨true, w⟩, (Nat.ofDigitChars 10 w 0 : Nat)⟩], ?_, by simp, ?_, by simp⟩
  · have e : ((Nat.ofDigitChars 10 w 0 : Nat) : Int) % q = (Nat.ofDigitChars 10 w 0 : Nat) := Int.emod_eq_of_lt (by positivity) (by exact_mod_cast hlt)
    simp only [compileNum, Fq.stringToField, parseInt_digits w hw.1 hw.2, Option.map_some, e]
  · intro x hx
    rw [List.mem_singleton.mp hx]
    show (1 : Int) ≤ (Nat.ofDigitChars 10 w 0 : Nat)
    omega

end APS.Prog
