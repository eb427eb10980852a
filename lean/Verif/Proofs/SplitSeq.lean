import Verif.Proofs.EndToEnd

/-! The bit wires of each split number are created in order, and the split map lists their positions in order. -/
namespace APS.Circuit
open APS.Spec APS.Avl APS.Avl.Tree

variable {q : Nat}

/-! ### invariants of compilation -/

/-- `P` survives every gate that is not a zero-or-one gate and gets its name from the hash -/
def StableP (H : Name → Nat) (P : St → Prop) : Prop :=
  ∀ {s s' : St} {g g' : Gate} {post : Gate → Gate}, g.typ ≠ .zeroOrOne → (g.ident = [] ∨ ∃ n, sig16 n = some g.ident) → (∀ x, (post x).ident = x.ident) →
    (∀ x, (post x).typ = x.typ) → s.add H g post = some (s', g') → P s → P s'

theorem compile_inv {H : Name → Nat} {P : St → Prop} (hP : StableP H P) {env : Env} (e : Expr) :
    ∀ {s s' : St} {f : Factors}, ExprOK e → compile H q env e s = some (f, s') → P s → P s' := by
  induction e with
  | num t =>
    intro s s' f _ h hs
    simp only [compile] at h
    obtain ⟨x, -, hx⟩ := Option.map_eq_some_iff.mp h
    cases hx; exact hs
  | var n =>
    intro s s' f _ h hs
    simp only [compile] at h
    split at h
    · cases h
    · obtain ⟨x, -, hx⟩ := Option.map_eq_some_iff.mp h
      cases hx; exact hs
  | add a b iha ihb =>
    intro s s' f hok h hs
    obtain ⟨l, s1, r, s2, ha, hb, hk⟩ := bind2 (k := fun l r s => pure (addFactors q l r, s)) h
    simp at hk
    obtain ⟨rfl, rfl⟩ := hk
    exact ihb hok.2 hb (iha hok.1 ha hs)
  | sub a b iha ihb =>
    intro s s' f hok h hs
    obtain ⟨l, s1, r, s2, ha, hb, hk⟩ := bind2 (k := fun l r s => pure (addFactors q l (negateFactors r), s)) h
    simp at hk
    obtain ⟨rfl, rfl⟩ := hk
    exact ihb hok.2 hb (iha hok.1 ha hs)
  | mul a b iha ihb =>
    intro s s' f hok h hs
    obtain ⟨l, s1, r, s2, ha, hb, hk⟩ := bind2 (k := fun l r s => mulGate H q l r s) h
    have := ihb hok.2 hb (iha hok.1 ha hs)
    rcases mulGate_eq hk with ⟨_, _, rfl⟩ | ⟨k, l', r', g, hx, hg, rfl⟩
    · exact this
    · refine hP ?_ (Or.inl rfl) ?_ ?_ hg this <;> simp
  | div a b iha ihb =>
    intro s s' f hok h hs
    obtain ⟨l, s1, r, s2, ha, hb, hk⟩ := bind2 (k := fun l r s => divGate H q l r s) h
    have := ihb hok.2 hb (iha hok.1 ha hs)
    rcases divGate_eq hk with ⟨_, _, rfl⟩ | ⟨gl, l', gr, r', k, g, h1, h2, h3, hg, rfl⟩
    · exact this
    · refine hP ?_ (Or.inl rfl) ?_ ?_ hg this <;> simp
  | baseMul a iha =>
    intro s s' f hok h hs
    simp only [compile] at h
    cases ha : compile H q env a s with
    | none => simp [ha] at h
    | some p =>
      obtain ⟨l, s1⟩ := p
      simp [ha] at h
      obtain ⟨g, hg, rfl⟩ := baseGate_eq h
      exact hP (by simp) (Or.inl rfl) (fun _ => rfl) (fun _ => rfl) hg (iha hok ha hs)
  | addGate a b _ _ => intro s s' f hok; exact absurd hok (by simp [ExprOK])

theorem completeFunction_inv {H : Name → Nat} {P : St → Prop} (hP : StableP H P) {f : Factors} {s s' : St}
    (h : completeFunction H f s = some s') (hs : P s) : P s' := by
  rcases completeFunction_sig h with rfl | ⟨sig, g, hsig, ha⟩
  · exact hs
  · exact hP (g := { typ := .addition, ident := sig, left := f, out := [argF sig 1] }) (by simp) (Or.inr ⟨hashFactors H f, hsig⟩) (fun _ => rfl) (fun _ => rfl) ha hs

theorem execStmt_inv {H : Name → Nat} {P : St → Prop} (hP : StableP H P)
    (hS : ∀ {f : Factors} {s s' : St}, splitGate H q f s = some s' → P s → P s') {env env' : Env} {s s' : St} {st : Stmt}
    (hok : StmtOK st) (h : execStmt H q (env, s) st = some (env', s')) (hs : P s) : P s' := by
  cases st with
  | assign x e =>
    obtain ⟨f, s1, hc, hf, rfl⟩ := exec_assign h
    exact completeFunction_inv hP hf (compile_inv hP e hok hc hs)
  | equal a b =>
    obtain ⟨l, s1, r, s2, g, ha, hb, hg, rfl⟩ := exec_equal h
    exact hP (by simp) (Or.inl rfl) (fun _ => rfl) (fun _ => rfl) hg (compile_inv hP b hok.2 hb (compile_inv hP a hok.1 ha hs))
  | split e =>
    obtain ⟨f, s1, hc, hf, rfl⟩ := exec_split h
    exact hS hf (compile_inv hP e hok hc hs)
  | expr e =>
    obtain ⟨f, s1, hc, hf, rfl⟩ := exec_expr h
    exact completeFunction_inv hP hf (compile_inv hP e hok hc hs)

theorem body_inv {H : Name → Nat} {P : St → Prop} (hP : StableP H P)
    (hS : ∀ {f : Factors} {s s' : St}, splitGate H q f s = some s' → P s → P s') (body : List Stmt) :
    ∀ {env env' : Env} {s s' : St}, (∀ st ∈ body, StmtOK st) → body.foldlM (execStmt H q) (env, s) = some (env', s') →
      P s → P s' := by
  induction body with
  | nil => intro env env' s s' _ h hs; simp at h; obtain ⟨rfl, rfl⟩ := h; exact hs
  | cons st rest ih =>
    intro env env' s s' hok h hs
    obtain ⟨⟨env1, s1⟩, h1, h2⟩ := body_cons h
    exact ih (fun x hx => hok x (List.mem_cons_of_mem _ hx)) h2 (execStmt_inv hP hS (hok st List.mem_cons_self) h1 hs)

theorem execute_inv {H : Name → Nat} {P : St → Prop} (hP : StableP H P)
    (hS : ∀ {f : Factors} {s s' : St}, splitGate H q f s = some s' → P s → P s') {p : Prog} {f : Factors} {s : St}
    (hok : ProgOK p) (h : execute H q p = some (f, s)) (h0 : P {}) : P s := by
  obtain ⟨env, s1, s2, h1, h2, h3⟩ := execute_eq h
  exact completeFunction_inv hP h3 (compile_inv hP p.ret hok.2 h2 (body_inv hP hS p.body hok.1 h1 h0))

/-! ### the zero-or-one gates of one number -/

/-- the zero-or-one gates of the number `z` -/
def isZO (z : Name) (g : Gate) : Bool := decide (g.typ = .zeroOrOne) && decide (g.arith.ident = z)

/-- their wires, in order -/
def zoIdents (gs : List Gate) (z : Name) : List Name := (gs.filter (isZO z)).map (·.ident)

theorem zoIdents_append (a b : List Gate) (z : Name) : zoIdents (a ++ b) z = zoIdents a z ++ zoIdents b z := by
  simp [zoIdents]

/-- either no bit of `z` exists or all of them, in order -/
def ZoSeq (N : Nat) (gs : List Gate) : Prop := ∀ z, zoIdents gs z = [] ∨ zoIdents gs z = (List.range N).map fun i => bitName i z

theorem add_gates {H : Name → Nat} {s s' : St} {g g' : Gate} {post : Gate → Gate} (hp : ∀ x, (post x).ident = x.ident)
    (h : s.add H g post = some (s', g')) :
    (s'.c.gates = s.c.gates ∧ g'.ident ∈ s.c.computed ∧ g' ∈ s'.dropped ∧ s'.c.computed = s.c.computed) ∨
    (s'.c.gates = s.c.gates ++ [g'] ∧ g'.ident ∉ s.c.computed ∧ s'.c.computed = s.c.computed ++ [g'.ident]) := by
  obtain ⟨g0, _, rfl, hc | hc⟩ := St.add_spec h hp
  · left; rw [hc.2]; exact ⟨rfl, by rw [hp]; exact hc.1, by simp, rfl⟩
  · right; rw [hc.2]; exact ⟨rfl, by rw [hp]; exact hc.1, by rw [hp]⟩

theorem zoSeq_stable {H : Name → Nat} {N : Nat} {sf : St} :
    StableP H (fun s => s.c.computed = s.c.gates.map (·.ident) ∧ (Ext s sf → ZoSeq N s.c.gates)) := by
  intro s s' g g' post ht _ hp hpt h ⟨hc, hs⟩
  have he := St.add_ext h hp
  refine ⟨?_, fun hx => ?_⟩
  · rcases add_gates hp h with ⟨a, -, -, b⟩ | ⟨a, -, b⟩
    · rw [a, b, hc]
    · rw [a, b, hc]; simp
  · have := hs (he.trans hx)
    rcases add_gates hp h with ⟨a, -⟩ | ⟨a, -⟩
    · rw [a]; exact this
    · rw [a]
      intro z
      rw [zoIdents_append]
      have : zoIdents [g'] z = [] := by
        obtain ⟨g0, h0, rfl, -⟩ := St.add_spec h hp
        simp [zoIdents, isZO, hpt, (withID_fields h0).1, ht]
      rw [this, List.append_nil]
      exact ‹ZoSeq N s.c.gates› z

theorem ident_inj {s : St} {I : List Name} (hw : WF I s) {a b : Gate} (ha : a ∈ s.c.gates) (hb : b ∈ s.c.gates)
    (h : a.ident = b.ident) : a = b := by
  have := hw.nodup
  rw [hw.comp] at this
  exact List.inj_on_of_nodup_map this ha hb h

/-- the gate that clashes with a dropped bit gate is the same bit gate -/
theorem bit_present {I : List Name} {s s1 sf : St} {z : Tok} {i : Nat} (hc : s.c.computed = s.c.gates.map (·.ident))
    (he : Ext s sf) (hw : WF I sf) (hn : NoConfusion sf) (hmem : bitName i z.ident ∈ s.c.computed)
    (hd : bitGate z i ∈ s1.dropped) (he1 : Ext s1 sf) : bitGate z i ∈ s.c.gates := by
  rw [hc] at hmem
  obtain ⟨g1, hg1, hid⟩ := List.mem_map.mp hmem
  obtain ⟨g', hg', hs⟩ := hn _ (he1.dropped.subset hd)
  rcases hs with rfl | ⟨ht, -⟩
  · rwa [ident_inj hw hg' (he.gates.subset hg1) hid.symm]
  · simp [bitGate] at ht

theorem splitLoop_ext {H : Name → Nat} {z : Tok} (is : List Nat) : ∀ {s s' : St}, splitLoop H z is s = some s' → Ext s s' := by
  induction is with
  | nil => intro s s' h; simp [splitLoop] at h; subst h; exact .refl _
  | cons i is ih =>
    intro s s' h
    obtain ⟨s1, ha, h1⟩ := splitLoop_cons h
    exact (St.add_ext ha (fun _ => rfl)).trans (ih h1)

theorem splitLoop_absent {H : Name → Nat} {I : List Name} {sf : St} {z : Tok} (hw : WF I sf) (hn : NoConfusion sf)
    (is : List Nat) : ∀ {s s' : St}, s.c.computed = s.c.gates.map (·.ident) → splitLoop H z is s = some s' → Ext s' sf →
    is.Nodup → (∀ i ∈ is, bitGate z i ∉ s.c.gates) →
    s'.c.gates = s.c.gates ++ is.map (bitGate z) ∧ s'.c.computed = s'.c.gates.map (·.ident) := by
  induction is with
  | nil => intro s s' hc h _ _ _; simp [splitLoop] at h; subst h; simp [hc]
  | cons i is ih =>
    intro s s' hc h he hnd hab
    obtain ⟨s1, ha, h1⟩ := splitLoop_cons h
    have hx1 := St.add_ext ha (fun _ => rfl)
    have hx2 := (splitLoop_ext _ h1).trans he
    rw [List.nodup_cons] at hnd
    rcases add_gates (fun _ => rfl) ha with ⟨-, b, c, -⟩ | ⟨a, -, b⟩
    · exact absurd (bit_present hc (hx1.trans hx2) hw hn b c hx2) (hab i List.mem_cons_self)
    · obtain ⟨r1, r2⟩ := ih (s := s1) (by rw [a, b, hc]; simp) h1 he hnd.2 (fun k hk hin => by
        rw [a, List.mem_append] at hin
        rcases hin with hin | hin
        · exact hab k (List.mem_cons_of_mem _ hk) hin
        · simp only [List.mem_singleton] at hin
          have : bitName k z.ident = bitName i z.ident := congrArg Gate.ident hin
          rw [bitName_inj this] at hk
          exact hnd.1 hk)
      exact ⟨by rw [r1, a]; simp, r2⟩

theorem splitLoop_present {H : Name → Nat} {z : Tok} (is : List Nat) : ∀ {s s' : St}, splitLoop H z is s = some s' →
    (∀ i ∈ is, bitName i z.ident ∈ s.c.computed) → s'.c = s.c := by
  induction is with
  | nil => intro s s' h _; simp [splitLoop] at h; subst h; rfl
  | cons i is ih =>
    intro s s' h hp
    obtain ⟨s1, ha, h1⟩ := splitLoop_cons h
    rcases add_gates (fun _ => rfl) ha with ⟨a, -, -, b⟩ | ⟨-, a, -⟩
    · have hc : s1.c = s.c := by
        cases hs : s1.c; cases hs' : s.c; rw [hs, hs'] at a b; simp at a b; rw [a, b]
      rw [ih h1 fun k hk => by rw [hc]; exact hp k (List.mem_cons_of_mem _ hk), hc]
    · exact absurd (hp i List.mem_cons_self) a

theorem zoSeq_split {H : Name → Nat} {I : List Name} {sf : St} (hw : WF I sf) (hn : NoConfusion sf) {f : Factors} {s s' : St}
    (h : splitGate H q f s = some s')
    (hs : s.c.computed = s.c.gates.map (·.ident) ∧ (Ext s sf → ZoSeq (Fq.bitLen q) s.c.gates)) :
    s'.c.computed = s'.c.gates.map (·.ident) ∧ (Ext s' sf → ZoSeq (Fq.bitLen q) s'.c.gates) := by
  obtain ⟨x, s1, g, rfl, hl, ha⟩ := splitGate_eq h
  have he := St.add_ext ha (fun _ => rfl)
  by_cases hx : Ext s' sf
  · refine zoSeq_stable (sf := sf) (by simp) (Or.inl rfl) (fun _ => rfl) (fun _ => rfl) ha ?_
    have hx1 := he.trans hx
    have hz := hs.2 ((splitLoop_ext _ hl).trans hx1)
    rcases hz x.tok.ident with h0 | h0
    · obtain ⟨r1, r2⟩ := splitLoop_absent hw hn _ hs.1 hl hx1 List.nodup_range (fun i _ hin => by
        have : bitName i x.tok.ident ∈ zoIdents s.c.gates x.tok.ident :=
          List.mem_map.mpr ⟨_, List.mem_filter.mpr ⟨hin, by simp [isZO, bitGate]⟩, rfl⟩
        rw [h0] at this; simp at this)
      refine ⟨r2, fun _ z => ?_⟩
      rw [r1, zoIdents_append]
      by_cases hzz : x.tok.ident = z
      · subst hzz
        rw [h0]
        right
        simp only [zoIdents, List.filter_map, List.map_map, List.nil_append]
        rw [List.filter_eq_self.mpr (by simp [isZO, bitGate])]
        rfl
      · have : zoIdents ((List.range (Fq.bitLen q)).map (bitGate x.tok)) z = [] := by
          simp only [zoIdents, List.filter_map, List.map_map]
          rw [List.filter_eq_nil_iff.mpr (by simp [isZO, bitGate, hzz])]
          rfl
        rw [this, List.append_nil]
        exact hz z
    · have := splitLoop_present _ hl (fun i hi => by
        have : bitName i x.tok.ident ∈ zoIdents s.c.gates x.tok.ident := by rw [h0]; exact List.mem_map.mpr ⟨i, hi, rfl⟩
        rw [hs.1]
        obtain ⟨y, hy, hid⟩ := List.mem_map.mp this
        exact List.mem_map.mpr ⟨y, List.mem_of_mem_filter hy, hid⟩)
      show s1.c.computed = _ ∧ _
      rw [this]
      exact ⟨hs.1, fun _ => hz⟩
  · refine ⟨?_, fun hc => absurd hc hx⟩
    have c1 : ∀ (is : List Nat) {s s' : St}, splitLoop H x.tok is s = some s' → s.c.computed = s.c.gates.map (·.ident) →
        s'.c.computed = s'.c.gates.map (·.ident) := by
      intro is
      induction is with
      | nil => intro s s' h hc; simp [splitLoop] at h; subst h; exact hc
      | cons i is ih =>
        intro s s' h hc
        obtain ⟨s1, ha, h1⟩ := splitLoop_cons h
        refine ih h1 ?_
        rcases add_gates (fun _ => rfl) ha with ⟨a, -, -, b⟩ | ⟨a, -, b⟩
        · rw [a, b, hc]
        · rw [a, b, hc]; simp
    rcases add_gates (fun _ => rfl) ha with ⟨a, -, -, b⟩ | ⟨a, -, b⟩
    · rw [a, b, c1 _ hl hs.1]
    · rw [a, b, c1 _ hl hs.1]; simp

/-- in a compiled program the bits of each number are complete and in order -/
theorem execute_zoSeq [Fact q.Prime] {H : Name → Nat} {p : Prog} {f : Factors} {s : St} (hok : ProgOK p)
    (h : execute H q p = some (f, s)) (hn : NoConfusion s) : ZoSeq (Fq.bitLen q) s.c.gates :=
  (execute_inv (q := q) (P := fun t => t.c.computed = t.c.gates.map (·.ident) ∧ (Ext t s → ZoSeq (Fq.bitLen q) t.c.gates))
    zoSeq_stable (fun h' hs => zoSeq_split (execute_wf hok h).1 hn h' hs) hok h
    ⟨rfl, fun _ z => Or.inl rfl⟩).2 (.refl _)

/-! ### the split map -/

/-- the split map lists, for each number with bits, the positions of its bit wires in order -/
structure SplitSpec (m : IndexMap) (sp : SplitMap) (gs : List Gate) : Prop where
  keys : (sp.map Prod.fst).Nodup
  entry : ∀ k zs, (k, zs) ∈ sp → zs = (zoIdents gs k).map m.get
  cover : ∀ g ∈ gs, g.typ = .zeroOrOne → g.arith.ident ∈ sp.map Prod.fst

theorem zoIdents_eq_nil {gs : List Gate} {k : Name} (h : ∀ g ∈ gs, g.typ = .zeroOrOne → g.arith.ident ≠ k) : zoIdents gs k = [] := by
  rw [zoIdents, List.filter_eq_nil_iff.mpr, List.map_nil]
  intro g hg hz
  simp only [isZO, Bool.and_eq_true, decide_eq_true_eq] at hz
  exact h g hg hz.1 hz.2

theorem push_spec {m : IndexMap} {sp : SplitMap} {gs : List Gate} (h : SplitSpec m sp gs) {g : Gate} (ht : g.typ = .zeroOrOne) :
    SplitSpec m (sp.push g.arith.ident (m.get g.ident)) (gs ++ [g]) := by
  have hz : ∀ k, zoIdents [g] k = if g.arith.ident = k then [g.ident] else [] := by
    intro k
    by_cases hk : g.arith.ident = k <;> simp [zoIdents, isZO, ht, hk]
  unfold SplitMap.push
  by_cases hany : sp.any (fun e => e.1 == g.arith.ident) = true
  · rw [if_pos hany]
    have hk : (sp.map (fun e => if e.1 == g.arith.ident then (e.1, e.2 ++ [m.get g.ident]) else e)).map Prod.fst = sp.map Prod.fst := by
      rw [List.map_map]
      apply List.map_congr_left
      intro e _
      simp only [Function.comp]
      split <;> rfl
    refine ⟨by rw [hk]; exact h.keys, fun k zs hm => ?_, fun y hy hty => ?_⟩
    · obtain ⟨⟨k', zs'⟩, he, heq⟩ := List.mem_map.mp hm
      rw [zoIdents_append, hz, List.map_append]
      by_cases hkk : k' = g.arith.ident
      · subst hkk
        simp at heq
        obtain ⟨rfl, rfl⟩ := heq
        rw [← h.entry _ _ he]
        simp
      · simp [hkk] at heq
        obtain ⟨rfl, rfl⟩ := heq
        rw [← h.entry _ _ he, if_neg (Ne.symm hkk)]
        simp
    · rw [hk]
      rcases List.mem_append.mp hy with hy | hy
      · exact h.cover y hy hty
      · simp at hy; subst hy
        simp only [List.any_eq_true, beq_iff_eq] at hany
        obtain ⟨e, he, hee⟩ := hany
        exact List.mem_map.mpr ⟨e, he, hee⟩
  · rw [if_neg hany]
    have hnot : g.arith.ident ∉ sp.map Prod.fst := by
      intro hin
      obtain ⟨e, he, hee⟩ := List.mem_map.mp hin
      exact hany (List.any_eq_true.mpr ⟨e, he, by simp [hee]⟩)
    refine ⟨?_, fun k zs hm => ?_, fun y hy hty => ?_⟩
    · rw [List.map_append, List.nodup_append]
      refine ⟨h.keys, by simp, fun a ha b hb => ?_⟩
      simp at hb; subst hb
      rintro rfl; exact hnot ha
    · rw [zoIdents_append, hz, List.map_append]
      rcases List.mem_append.mp hm with hm | hm
      · have hne : g.arith.ident ≠ k := by
          rintro rfl
          exact hnot (List.mem_map.mpr ⟨_, hm, rfl⟩)
        rw [if_neg hne, ← h.entry _ _ hm]
        simp
      · simp at hm
        obtain ⟨rfl, rfl⟩ := hm
        rw [if_pos rfl, zoIdents_eq_nil (k := g.arith.ident) fun y hy hty hc => hnot (by rw [← hc]; exact h.cover y hy hty)]
        simp
    · rw [List.map_append, List.mem_append]
      rcases List.mem_append.mp hy with hy | hy
      · exact Or.inl (h.cover y hy hty)
      · simp at hy; subst hy; simp

theorem SplitSpec.skip {m : IndexMap} {sp : SplitMap} {gs : List Gate} (h : SplitSpec m sp gs) {g : Gate} (ht : g.typ ≠ .zeroOrOne) :
    SplitSpec m sp (gs ++ [g]) := by
  refine ⟨h.keys, fun k zs hm => ?_, fun y hy hty => ?_⟩
  · rw [zoIdents_append, zoIdents_eq_nil (gs := [g]) (k := k) (by simp [ht]), List.append_nil]
    exact h.entry k zs hm
  · rcases List.mem_append.mp hy with hy | hy
    · exact h.cover y hy hty
    · simp at hy; subst hy; exact absurd hty ht

theorem SplitSpec.mono {m m' : IndexMap} {sp : SplitMap} {gs : List Gate} (h : SplitSpec m sp gs)
    (hg : ∀ g ∈ gs, g.typ = .zeroOrOne → m'.get g.ident = m.get g.ident) : SplitSpec m' sp gs := by
  refine ⟨h.keys, fun k zs hm => ?_, h.cover⟩
  rw [h.entry k zs hm]
  simp only [zoIdents, List.map_map]
  apply List.map_congr_left
  intro g hg'
  obtain ⟨h1, h2⟩ := List.mem_filter.mp hg'
  simp only [isZO, Bool.and_eq_true, decide_eq_true_eq] at h2
  exact (hg g h1 h2.1).symm

theorem indexGates_split : ∀ (gs done : List Gate) (m : IndexMap) (sp : SplitMap) (m' : IndexMap) (sp' : SplitMap), IdxInv m →
    (∀ g ∈ done ++ gs, g.typ = .zeroOrOne → g.noNew = false) → (∀ g ∈ done, g.typ = .zeroOrOne → m.has g.ident = true) →
    SplitSpec m sp done → indexGates m sp gs = some (m', sp') → SplitSpec m' sp' (done ++ gs) := by
  intro gs
  induction gs with
  | nil =>
    intro done m sp m' sp' _ _ _ h he
    simp [indexGates] at he
    obtain ⟨rfl, rfl⟩ := he
    simpa using h
  | cons g gs ih =>
    intro done m sp m' sp' hi hz hd h he
    have e : done ++ g :: gs = (done ++ [g]) ++ gs := by simp
    rw [e] at hz ⊢
    unfold indexGates at he
    by_cases hn : g.noNew = true
    · rw [if_pos hn] at he
      have ht : g.typ ≠ .zeroOrOne := fun ht => by rw [hz g (by simp) ht] at hn; cases hn
      refine ih _ _ _ _ _ hi hz (fun y hy hty => ?_) (h.skip ht) he
      rcases List.mem_append.mp hy with hy | hy
      · exact hd y hy hty
      · simp at hy; subst hy; exact absurd hty ht
    · rw [if_neg hn] at he
      by_cases hh : m.has g.ident = true
      · rw [if_pos hh] at he; cases he
      · rw [if_neg hh] at he
        have hh' : m.has g.ident = false := by simpa using hh
        have hi' := hi.set hh'
        have hpre : m <+: m.set g.ident m.length := by rw [set_fresh hh']; exact List.prefix_append _ _
        have hmono : SplitSpec (m.set g.ident m.length) sp done :=
          h.mono fun y hy hty => (prefix_get hpre hi' (hd y hy hty)).2
        have hhas : ∀ n, m.has n = true ∨ n = g.ident → (m.set g.ident m.length).has n = true := by
          intro n hn
          rw [has_iff, set_fresh hh', List.map_append, List.mem_append]
          rcases hn with hn | rfl
          · exact Or.inl (has_iff.mp hn)
          · right; simp
        refine ih _ _ _ _ _ hi' hz (fun y hy hty => ?_) ?_ he
        · rcases List.mem_append.mp hy with hy | hy
          · exact hhas _ (Or.inl (hd y hy hty))
          · simp at hy; subst hy; exact hhas _ (Or.inr rfl)
        · by_cases ht : g.typ = .zeroOrOne
          · rw [if_pos ht]; exact push_spec hmono ht
          · rw [if_neg ht]; exact hmono.skip ht

theorem buildIndex_split {publics inputs : List Name} {gates : List Gate} {rand : Bool} {m : IndexMap} {sp : SplitMap}
    (h : buildIndex publics inputs gates rand = some (m, sp)) (hp : publics.Nodup)
    (hr : rand = true → ∀ n, n = randIn ∨ n = randOut → n ∉ publics ∧ n ∉ inputs ∧ ∀ g ∈ gates, g.noNew = false → g.ident ≠ n)
    (hz : ∀ g ∈ gates, g.typ = .zeroOrOne → g.noNew = false) : SplitSpec m sp gates := by
  have hI := (buildIndex_spec h hp hr).inv
  unfold buildIndex at h
  obtain ⟨p1, p2⟩ := indexPublics_eq publics [] .nil hp (by simp [IndexMap.has])
  obtain ⟨i1, i2, i3⟩ := indexInputs_eq inputs _ p1
  cases hg : indexGates (indexInputs (indexPublics [] publics) inputs) [] gates with
  | none => simp [hg] at h
  | some r =>
    obtain ⟨m1, sp1⟩ := r
    simp only [hg, Option.some.injEq, Prod.mk.injEq] at h
    obtain ⟨h, rfl⟩ := h
    obtain ⟨g1, g2, g3⟩ := indexGates_eq _ _ _ _ _ i1 hg
    have base := indexGates_split gates [] _ _ _ _ i1 (by simpa using hz) (by simp) ⟨by simp, by simp, by simp⟩ hg
    rw [List.nil_append] at base
    have n1 : ∀ n, m1.has n = true ↔ n ∈ publics ∨ n ∈ inputs ∨ ∃ g ∈ gates, g.noNew = false ∧ g.ident = n := by
      intro n
      rw [has_iff, g3, List.mem_append, i3, p2]
      simp only [List.map_nil, List.nil_append, List.mem_map, List.mem_filter, Bool.not_eq_true', or_assoc, and_assoc]
    have hpre : m1 <+: m := by
      cases rand with
      | false => simp only [Bool.false_eq_true, if_false] at h; subst h; exact List.prefix_refl _
      | true =>
        simp only [if_true] at h
        have f1 : m1.has randIn = false := by
          rw [Bool.eq_false_iff]; intro hc
          obtain ⟨a, b, c⟩ := hr rfl randIn (Or.inl rfl)
          rcases (n1 _).mp hc with h | h | ⟨g, hg, hn, hx⟩
          exacts [a h, b h, c g hg hn hx]
        have f2 : (m1.set randIn m1.length).has randOut = false := by
          rw [Bool.eq_false_iff]; intro hc
          rw [has_iff, set_fresh f1, List.map_append, List.mem_append] at hc
          rcases hc with hc | hc
          · obtain ⟨a, b, c⟩ := hr rfl randOut (Or.inr rfl)
            rcases (n1 _).mp (has_iff.mpr hc) with h | h | ⟨g, hg, hn, hx⟩
            exacts [a h, b h, c g hg hn hx]
          · simp only [List.map_cons, List.map_nil, List.mem_singleton] at hc; exact absurd hc (by decide)
        rw [← h, set_fresh f2, set_fresh f1, List.append_assoc]
        exact List.prefix_append _ _
    exact base.mono fun g hg hty => (prefix_get hpre hI ((n1 _).mpr (Or.inr (Or.inr ⟨g, hg, hz g hg hty, rfl⟩)))).2

end APS.Circuit
