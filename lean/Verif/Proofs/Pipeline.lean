import Verif.Proofs.Statement
import Verif.Proofs.R1CS

/-! From programs to constraint rows: the gate lists produced by `execute` satisfy what the generators expect. -/
namespace APS.Circuit
open APS.Spec

variable {q : Nat}

/-- a name that is an input or the output of an attempted gate that makes a new wire -/
def Att (I : List Name) (s : St) (n : Name) : Prop :=
  n ∈ I ∨ ∃ g, (g ∈ s.c.gates ∨ g ∈ s.dropped) ∧ g.noNew = false ∧ g.ident = n

theorem Att.mono {I : List Name} {s s' : St} {n : Name} (h : Att I s n) (he : Ext s s') : Att I s' n := by
  rcases h with h | ⟨g, hg, h1, h2⟩
  · exact Or.inl h
  · refine Or.inr ⟨g, ?_, h1, h2⟩
    rcases hg with hg | hg
    · exact Or.inl (he.gates.subset hg)
    · exact Or.inr (he.dropped.subset hg)

/-- all names of a form are inputs or wires -/
def AttF (I : List Name) (s : St) (f : Factors) : Prop := ∀ n, some n ∈ f.map Factor.key → Att I s n

theorem AttF.mono {I : List Name} {s s' : St} {f : Factors} (h : AttF I s f) (he : Ext s s') : AttF I s' f :=
  fun n hn => (h n hn).mono he

/-- all names a gate uses are inputs or wires -/
structure GateAtt (I : List Name) (s : St) (g : Gate) : Prop where
  arith : (g.typ = .sumCheck ∨ g.typ = .zeroOrOne) → g.arith.isNum = false → Att I s g.arith.ident
  left : AttF I s g.left
  right : AttF I s g.right
  expo : AttF I s g.expo
  out : AttF I s g.out

theorem GateAtt.mono {I : List Name} {s s' : St} {g : Gate} (h : GateAtt I s g) (he : Ext s s') : GateAtt I s' g :=
  ⟨fun a b => (h.arith a b).mono he, h.left.mono he, h.right.mono he, h.expo.mono he, h.out.mono he⟩

theorem attF_nil (I : List Name) (s : St) : AttF I s [] := by simp [AttF]

theorem attF_perm {I : List Name} {s : St} {f f' : Factors} (h : AttF I s f) (hp : (f'.map Factor.key).Perm (f.map Factor.key)) :
    AttF I s f' := fun n hn => h n (hp.subset hn)

/-- every gate only uses inputs and wires -/
def SplitAtt (I : List Name) (s : St) : Prop := ∀ g, (g ∈ s.c.gates ∨ g ∈ s.dropped) → GateAtt I s g

theorem add_mem_inv {H : Name → Nat} {s s' : St} {g g' : Gate} {post : Gate → Gate}
    (h : s.add H g post = some (s', g')) (hp : ∀ x, (post x).ident = x.ident) {x : Gate}
    (hx : x ∈ s'.c.gates ∨ x ∈ s'.dropped) : (x ∈ s.c.gates ∨ x ∈ s.dropped) ∨ x = g' := by
  obtain ⟨g0, _, _, hc | hc⟩ := St.add_spec h hp
  · rw [hc.2] at hx
    simp only [List.mem_append, List.mem_singleton] at hx
    rcases hx with hx | hx | hx
    exacts [Or.inl (Or.inl hx), Or.inl (Or.inr hx), Or.inr hx]
  · rw [hc.2] at hx
    simp only [List.mem_append, List.mem_singleton] at hx
    rcases hx with (hx | hx) | hx
    exacts [Or.inl (Or.inl hx), Or.inr hx, Or.inl (Or.inr hx)]

theorem SplitAtt.add {H : Name → Nat} {I : List Name} {s s' : St} {g g' : Gate} {post : Gate → Gate} (hs : SplitAtt I s)
    (h : s.add H g post = some (s', g')) (hp : ∀ x, (post x).ident = x.ident)
    (hg : GateAtt I s' g') : SplitAtt I s' := by
  intro x hx
  rcases add_mem_inv h hp hx with hx | rfl
  · exact (hs x hx).mono (St.add_ext h hp)
  · exact hg

theorem attF_new {H : Name → Nat} {I : List Name} {s s' : St} {g g' : Gate} {post : Gate → Gate}
    (h : s.add H g post = some (s', g')) (hp : ∀ x, (post x).ident = x.ident) (hn : g'.noNew = false) (k : Int) :
    AttF I s' [argF g'.ident k] := by
  intro n hk
  simp at hk
  subst hk
  exact Or.inr ⟨g', St.add_mem h hp, hn, rfl⟩

def EnvAtt (I : List Name) (env : Env) (s : St) : Prop := ∀ n f, env.lookup n = some f → AttF I s f

theorem EnvAtt.mono {I : List Name} {env : Env} {s s' : St} (h : EnvAtt I env s) (he : Ext s s') : EnvAtt I env s' :=
  fun n f hf => (h n f hf).mono he

theorem attF_of_keys {I : List Name} {s : St} {f l r : Factors} (hl : AttF I s l) (hr : AttF I s r)
    (h : ∀ k ∈ f.map Factor.key, k = none ∨ k ∈ l.map Factor.key ∨ k ∈ r.map Factor.key) : AttF I s f := by
  intro n hn
  rcases h _ hn with h | h | h
  · cases h
  · exact hl n h
  · exact hr n h

theorem compile_att [Fact q.Prime] {H : Name → Nat} {I : List Name} {env : Env} (e : Expr) : ∀ {s s' : St} {f : Factors},
    ExprOK e → WF I s → EnvOK I q env s → EnvAtt I env s → SplitAtt I s → compile H q env e s = some (f, s') →
    AttF I s' f ∧ SplitAtt I s' := by
  induction e with
  | num t =>
    intro s s' f _ _ _ _ hs h
    simp only [compile] at h
    cases hc : compileNum q t with
    | none => simp [hc] at h
    | some x =>
      simp [hc] at h
      obtain ⟨rfl, rfl⟩ := h
      obtain ⟨h1, h2, -⟩ := compileNum_spec (q := q) (fun _ => 0) hc
      exact ⟨fun n hn => absurd (h2 _ hn) (by simp), hs⟩
  | var n =>
    intro s s' f _ hw henv ha hs h
    simp only [compile] at h
    cases hl : env.lookup n with
    | none => simp [hl] at h
    | some x =>
      simp only [hl] at h
      cases hr : readVar q x with
      | none => simp [hr] at h
      | some y =>
        simp [hr] at h
        obtain ⟨rfl, rfl⟩ := h
        obtain ⟨h1, h2, -⟩ := readVar_spec (fun _ => 0) (henv n x hl).1 hr
        refine ⟨fun m hm => ?_, hs⟩
        rcases h2 _ hm with h | h
        · cases h
        · exact ha n x hl m h
  | add a b iha ihb =>
    intro s s' f hok hw henv hat hs h
    obtain ⟨l, s1, r, s2, ha, hb, hk⟩ := bind2 (k := fun l r s => pure (addFactors q l r, s)) h
    simp at hk
    obtain ⟨rfl, rfl⟩ := hk
    have r1 := compile_wf a hok.1 hw henv ha
    have r2 := compile_wf b hok.2 r1.wf (henv.mono hw r1.wf r1.ext) hb
    obtain ⟨a1, s1'⟩ := iha hok.1 hw henv hat hs ha
    obtain ⟨a2, s2'⟩ := ihb hok.2 r1.wf (henv.mono hw r1.wf r1.ext) (hat.mono r1.ext) s1' hb
    exact ⟨attF_of_keys (a1.mono r2.ext) a2 (addFactors_keys l r), s2'⟩
  | sub a b iha ihb =>
    intro s s' f hok hw henv hat hs h
    obtain ⟨l, s1, r, s2, ha, hb, hk⟩ := bind2 (k := fun l r s => pure (addFactors q l (negateFactors r), s)) h
    simp at hk
    obtain ⟨rfl, rfl⟩ := hk
    have r1 := compile_wf a hok.1 hw henv ha
    have r2 := compile_wf b hok.2 r1.wf (henv.mono hw r1.wf r1.ext) hb
    obtain ⟨a1, s1'⟩ := iha hok.1 hw henv hat hs ha
    obtain ⟨a2, s2'⟩ := ihb hok.2 r1.wf (henv.mono hw r1.wf r1.ext) (hat.mono r1.ext) s1' hb
    exact ⟨attF_of_keys (a1.mono r2.ext) a2 (by rw [← negateFactors_keys r]; exact addFactors_keys l _), s2'⟩
  | mul a b iha ihb =>
    intro s s' f hok hw henv hat hs h
    obtain ⟨l, s1, r, s2, ha, hb, hk⟩ := bind2 (k := fun l r s => mulGate H q l r s) h
    have r1 := compile_wf a hok.1 hw henv ha
    have r2 := compile_wf b hok.2 r1.wf (henv.mono hw r1.wf r1.ext) hb
    obtain ⟨a1, s1'⟩ := iha hok.1 hw henv hat hs ha
    obtain ⟨a2, s2'⟩ := ihb hok.2 r1.wf (henv.mono hw r1.wf r1.ext) (hat.mono r1.ext) s1' hb
    rcases mulGate_eq hk with ⟨hsn, hm, rfl⟩ | ⟨k, l', r', g, hx, hg, rfl⟩
    · exact ⟨attF_of_keys (a1.mono r2.ext) a2 (mulFactors_good r1.good r2.good hsn hm).2.2, s2'⟩
    · obtain ⟨g0, h0, rfl, -⟩ := St.add_spec hg (fun _ => rfl)
      obtain ⟨f1, f2, f3, f4, f5, f6, -, -⟩ := withID_fields h0
      obtain ⟨pl, pr⟩ := extractConstant_keys hx
      have he := St.add_ext hg (fun _ => rfl)
      have hnew := attF_new (I := I) hg (fun _ => rfl) f6
      exact ⟨hnew k, s2'.add hg (fun _ => rfl) ⟨by simp [f1], attF_perm ((a1.mono r2.ext).mono he) ((f2.map _).trans pl),
        attF_perm (a2.mono he) ((f3.map _).trans pr), by rw [f4.eq_nil]; exact attF_nil _ _, hnew 1⟩⟩
  | div a b iha ihb =>
    intro s s' f hok hw henv hat hs h
    obtain ⟨l, s1, r, s2, ha, hb, hk⟩ := bind2 (k := fun l r s => divGate H q l r s) h
    have r1 := compile_wf a hok.1 hw henv ha
    have r2 := compile_wf b hok.2 r1.wf (henv.mono hw r1.wf r1.ext) hb
    obtain ⟨a1, s1'⟩ := iha hok.1 hw henv hat hs ha
    obtain ⟨a2, s2'⟩ := ihb hok.2 r1.wf (henv.mono hw r1.wf r1.ext) (hat.mono r1.ext) s1' hb
    rcases divGate_eq hk with ⟨hsn, ⟨i, hi, hm⟩, rfl⟩ | ⟨gl, l', gr, r', k, g, h1, h2, h3, hg, rfl⟩
    · obtain ⟨i1, i2, i3, _⟩ := invertFactors_single (fun _ => 0) hsn hi
      have ai : AttF I s' i := fun n hn => by cases i3 _ hn
      exact ⟨attF_of_keys (a1.mono r2.ext) ai (mulFactors_good r1.good i1 (Or.inr i2) hm).2.2, s2'⟩
    · obtain ⟨g0, h0, rfl, -⟩ := St.add_spec hg (fun _ => rfl)
      obtain ⟨f1, f2, f3, f4, f5, f6, -, -⟩ := withID_fields h0
      obtain ⟨pl, -, -⟩ := factorSignature_keys h1
      obtain ⟨pr, -, -⟩ := factorSignature_keys h2
      have he := St.add_ext hg (fun _ => rfl)
      have hnew := attF_new (I := I) hg (fun _ => rfl) f6
      exact ⟨hnew k, s2'.add hg (fun _ => rfl) ⟨by simp [f1], hnew 1, attF_perm (a2.mono he) ((f3.map _).trans pr),
        by rw [f4.eq_nil]; exact attF_nil _ _, attF_perm ((a1.mono r2.ext).mono he) ((f5.map _).trans pl)⟩⟩
  | baseMul a iha =>
    intro s s' f hok hw henv hat hs h
    simp only [compile] at h
    cases ha : compile H q env a s with
    | none => simp [ha] at h
    | some p =>
      obtain ⟨l, s1⟩ := p
      simp [ha] at h
      obtain ⟨a1, s1'⟩ := iha hok hw henv hat hs ha
      obtain ⟨g, hg, rfl⟩ := baseGate_eq h
      obtain ⟨g0, h0, rfl, -⟩ := St.add_spec hg (fun _ => rfl)
      obtain ⟨f1, f2, f3, f4, f5, f6, -, -⟩ := withID_fields h0
      have he := St.add_ext hg (fun _ => rfl)
      refine ⟨attF_new hg (fun _ => rfl) f6 1, s1'.add hg (fun _ => rfl) ⟨by simp [f1], ?_, ?_, ?_, ?_⟩⟩
      · exact attF_perm (attF_nil _ _) (f2.map _)
      · exact attF_perm (attF_nil _ _) (f3.map _)
      · exact attF_perm (a1.mono he) (f4.map _)
      · exact attF_perm (attF_nil _ _) (f5.map _)
  | addGate a b _ _ => intro s s' f hok; exact absurd hok (by simp [ExprOK])

theorem completeFunction_att {H : Name → Nat} {I : List Name} {f : Factors} {s s' : St} (hs : SplitAtt I s) (hf : AttF I s f)
    (h : completeFunction H f s = some s') : SplitAtt I s' := by
  rcases completeFunction_eq h with rfl | ⟨sig, g, hsig, ha⟩
  · exact hs
  · obtain ⟨g0, h0, rfl, -⟩ := St.add_spec ha (fun _ => rfl)
    obtain rfl := withID_of_ne h0 hsig
    exact hs.add ha (fun _ => rfl) ⟨by simp, hf.mono (St.add_ext ha (fun _ => rfl)), attF_nil _ _, attF_nil _ _,
      attF_new (g' := { typ := .addition, ident := sig, left := f, out := [argF sig 1] }) ha (fun _ => rfl) rfl 1⟩

theorem splitLoop_att {H : Name → Nat} {I : List Name} {z : Tok} (is : List Nat) : ∀ {s s' : St}, SplitAtt I s →
    (z.isNum = false → Att I s z.ident) → splitLoop H z is s = some s' →
    SplitAtt I s' ∧ Ext s s' ∧ ∀ i ∈ is, Att I s' (bitName i z.ident) := by
  induction is with
  | nil => intro s s' hs _ h; simp [splitLoop] at h; subst h; exact ⟨hs, Ext.refl _, by simp⟩
  | cons i is ih =>
    intro s s' hs hz h
    obtain ⟨s1, ha, h1⟩ := splitLoop_cons h
    have he := St.add_ext ha (fun _ => rfl)
    obtain ⟨h2, h3, h4⟩ := ih (hs.add ha (fun _ => rfl) ⟨fun _ hn => (hz hn).mono he, attF_nil _ _, attF_nil _ _,
      attF_nil _ _, attF_nil _ _⟩) (fun hn => (hz hn).mono he) h1
    refine ⟨h2, he.trans h3, fun k hk => ?_⟩
    rcases List.mem_cons.mp hk with rfl | hk
    · exact Att.mono (Or.inr ⟨bitGate z k, St.add_mem ha (fun _ => rfl), rfl, rfl⟩) h3
    · exact h4 k hk

theorem splitGate_att {H : Name → Nat} {I : List Name} {f : Factors} {s s' : St} (hs : SplitAtt I s) (hf : AttF I s f)
    (h : splitGate H q f s = some s') : SplitAtt I s' := by
  obtain ⟨x, s1, g, rfl, hl, ha⟩ := splitGate_eq h
  obtain ⟨h1, he, hb⟩ := splitLoop_att _ hs (fun hn => hf _ (by simp [Factor.key, hn])) hl
  have he2 := St.add_ext ha (fun _ => rfl)
  obtain ⟨g0, h0, rfl, -⟩ := St.add_spec ha (fun _ => rfl)
  obtain ⟨f1, f2, f3, f4, f5, f6, f7, -⟩ := withID_fields h0
  refine h1.add ha (fun _ => rfl) ⟨fun _ hn => ?_, ?_, ?_, ?_, ?_⟩
  · simp only [id_eq, f7] at hn ⊢
    exact (hf _ (by simp [Factor.key, hn])).mono (he.trans he2)
  · refine attF_perm (f := bitSum (Fq.bitLen q) x.tok.ident) ?_ (f2.map _)
    intro n hn
    simp only [bitSum, List.mem_map] at hn
    obtain ⟨y, ⟨i, hi, rfl⟩, hy⟩ := hn
    simp [Factor.key, argF] at hy
    subst hy
    exact (hb i hi).mono he2
  · exact attF_perm (attF_nil _ _) (f3.map _)
  · exact attF_perm (attF_nil _ _) (f4.map _)
  · exact attF_perm (attF_nil _ _) (f5.map _)

theorem execStmt_att [Fact q.Prime] {H : Name → Nat} {I : List Name} {env env' : Env} {s s' : St} {st : Stmt}
    (hok : StmtOK st) (hw : WF I s) (henv : EnvOK I q env s) (hat : EnvAtt I env s) (hs : SplitAtt I s)
    (h : execStmt H q (env, s) st = some (env', s')) : EnvAtt I env' s' ∧ SplitAtt I s' := by
  obtain ⟨hext, -, -⟩ := execStmt_wf hok hw henv h
  cases st with
  | assign x e =>
    obtain ⟨f, s1, hc, hf, rfl⟩ := exec_assign h
    have r := compile_wf e hok hw henv hc
    obtain ⟨a1, s1'⟩ := compile_att e hok hw henv hat hs hc
    obtain ⟨he, -⟩ := completeFunction_wf r.wf r.good r.known hf
    refine ⟨fun n f' hn => ?_, completeFunction_att s1' a1 hf⟩
    rw [List.lookup_cons] at hn
    split at hn
    · cases hn; exact a1.mono he
    · exact (hat n f' hn).mono hext
  | equal a b =>
    obtain ⟨l, s1, r, s2, g, ha, hb, hg, rfl⟩ := exec_equal h
    have r1 := compile_wf a hok.1 hw henv ha
    obtain ⟨a1, s1'⟩ := compile_att a hok.1 hw henv hat hs ha
    obtain ⟨a2, s2'⟩ := compile_att b hok.2 r1.wf (henv.mono hw r1.wf r1.ext) (hat.mono r1.ext) s1' hb
    obtain ⟨g0, h0, rfl, -⟩ := St.add_spec hg (fun _ => rfl)
    obtain ⟨f1, f2, f3, f4, f5, f6, -, -⟩ := withID_fields h0
    have r2 := compile_wf b hok.2 r1.wf (henv.mono hw r1.wf r1.ext) hb
    have he := St.add_ext hg (fun _ => rfl)
    refine ⟨hat.mono hext, s2'.add hg (fun _ => rfl) ⟨by simp [f1], ?_, ?_, ?_, ?_⟩⟩
    · exact attF_perm ((a1.mono r2.ext).mono he) (f2.map _)
    · exact attF_perm (a2.mono he) (f3.map _)
    · exact attF_perm (attF_nil _ _) (f4.map _)
    · exact attF_perm (attF_nil _ _) (f5.map _)
  | split e =>
    obtain ⟨f, s1, hc, hf, rfl⟩ := exec_split h
    obtain ⟨a1, s1'⟩ := compile_att e hok hw henv hat hs hc
    exact ⟨hat.mono hext, splitGate_att s1' a1 hf⟩
  | expr e =>
    obtain ⟨f, s1, hc, hf, rfl⟩ := exec_expr h
    obtain ⟨a1, s1'⟩ := compile_att e hok hw henv hat hs hc
    exact ⟨hat.mono hext, completeFunction_att s1' a1 hf⟩

theorem body_att [Fact q.Prime] {H : Name → Nat} {I : List Name} (body : List Stmt) : ∀ {env env' : Env} {s s' : St},
    (∀ st ∈ body, StmtOK st) → WF I s → EnvOK I q env s → EnvAtt I env s → SplitAtt I s →
    body.foldlM (execStmt H q) (env, s) = some (env', s') → EnvAtt I env' s' ∧ SplitAtt I s' := by
  induction body with
  | nil => intro env env' s s' _ _ _ hat hs h; simp at h; obtain ⟨rfl, rfl⟩ := h; exact ⟨hat, hs⟩
  | cons st rest ih =>
    intro env env' s s' hok hw henv hat hs h
    obtain ⟨⟨env1, s1⟩, h1, h2⟩ := body_cons h
    obtain ⟨e1, w1, v1⟩ := execStmt_wf (hok st List.mem_cons_self) hw henv h1
    obtain ⟨a1, b1⟩ := execStmt_att (hok st List.mem_cons_self) hw henv hat hs h1
    exact ih (fun x hx => hok x (List.mem_cons_of_mem _ hx)) w1 v1 a1 b1 h2

theorem execute_att [Fact q.Prime] {H : Name → Nat} {p : Prog} {f : Factors} {s : St} (hok : ProgOK p)
    (h : execute H q p = some (f, s)) : SplitAtt p.inputs s ∧ AttF p.inputs s f := by
  obtain ⟨env, s1, s2, h1, h2, h3⟩ := execute_eq h
  obtain ⟨e1, w1, v1⟩ := body_wf p.body hok.1 (wf_empty p.inputs) (envOK_init _) h1
  obtain ⟨a1, b1⟩ := body_att p.body hok.1 (wf_empty p.inputs) (envOK_init (q := q) _) (fun n f hf => by
    obtain ⟨hn, rfl⟩ := lookup_initEnv _ _ _ hf
    intro k hk
    simp at hk
    subst hk
    exact Or.inl hn) (by intro g hg; simp at hg) h1
  have r := compile_wf p.ret hok.2 w1 v1 h2
  obtain ⟨a2, b2⟩ := compile_att p.ret hok.2 w1 v1 a1 b1 h2
  obtain ⟨he, -⟩ := completeFunction_wf r.wf r.good r.known h3
  exact ⟨completeFunction_att b2 a2 h3, a2.mono he⟩

/-! ### gates of a program satisfy what constraint generation expects -/

theorem att_has {I publics : List Name} {s : St} {rand : Bool} {m : IndexMap} (hn : NoConfusion s)
    (hi : IndexSpec publics I s.c.gates rand m) {n : Name} (h : Att I s n) : m.has n = true := by
  rw [hi.names]
  rcases h with h | ⟨g, hg | hg, h1, h2⟩
  · exact Or.inr (Or.inl h)
  · exact Or.inr (Or.inr (Or.inl ⟨g, hg, h1, h2⟩))
  · obtain ⟨g', hg', hs⟩ := hn g hg
    refine Or.inr (Or.inr (Or.inl ⟨g', hg', ?_, ?_⟩))
    · rcases hs with rfl | ⟨-, rfl⟩
      · exact h1
      · exact h1
    · rcases hs with rfl | ⟨-, rfl⟩
      · exact h2
      · exact h2

/-- names written successfully have a position -/
theorem formDense_has {m : IndexMap} : ∀ (f : Factors) (arr arr' : List Int),
    f.foldlM (insertDense m) arr = some arr' → ∀ n, some n ∈ f.map Factor.key → m.has n = true := by
  intro f
  induction f with
  | nil => intro _ _ _ n hn; simp at hn
  | cons y ys ih =>
    intro arr arr' h n hn
    rw [List.foldlM_cons] at h
    cases hy : insertDense m arr y with
    | none => simp [hy] at h
    | some a =>
      simp only [hy, Option.bind_eq_bind, Option.bind_some] at h
      rw [List.map_cons, List.mem_cons] at hn
      rcases hn with hn | hn
      · unfold insertDense at hy
        unfold Factor.key at hn
        by_cases hnum : y.tok.isNum = true
        · simp [hnum] at hn
        · simp only [hnum, Bool.false_eq_true, if_false, Option.some.injEq] at hn hy
          subst hn
          by_contra hc
          simp [hc] at hy
      · exact ih a arr' h n hn

theorem formSparse_has {m : IndexMap} : ∀ (f : Factors) (arr arr' : APS.Avl.Tree),
    f.foldlM (insertSparse q m) arr = some arr' → ∀ n, some n ∈ f.map Factor.key → m.has n = true := by
  intro f
  induction f with
  | nil => intro _ _ _ n hn; simp at hn
  | cons y ys ih =>
    intro arr arr' h n hn
    rw [List.foldlM_cons] at h
    cases hy : insertSparse q m arr y with
    | none => simp [hy] at h
    | some a =>
      simp only [hy, Option.bind_eq_bind, Option.bind_some] at h
      rw [List.map_cons, List.mem_cons] at hn
      rcases hn with hn | hn
      · unfold insertSparse at hy
        unfold Factor.key at hn
        by_cases hnum : y.tok.isNum = true
        · simp [hnum] at hn
        · simp only [hnum, Bool.false_eq_true, if_false, Option.some.injEq] at hn
          subst hn
          by_contra hc
          simp [hnum, hc] at hy
      · exact ih a arr' h n hn

theorem distinct_of_keys {m : IndexMap} (hm : GoodIndex m) {f : Factors} (hn : (f.map Factor.key).Nodup)
    (hh : ∀ n, some n ∈ f.map Factor.key → m.has n = true ∧ m.get n ≠ 0) : Distinct m f := by
  unfold Distinct
  rw [List.nodup_iff_pairwise_ne, List.pairwise_map] at hn ⊢
  refine hn.imp_of_mem ?_
  intro a b ha hb hab hpos
  apply hab
  have key : ∀ x ∈ f, x.tok.isNum = false → m.has x.tok.ident = true ∧ m.get x.tok.ident ≠ 0 := by
    intro x hx hnum
    exact hh _ (List.mem_map.mpr ⟨x, hx, by simp [Factor.key, hnum]⟩)
  unfold pos at hpos
  unfold Factor.key
  rcases hna : a.tok.isNum with _ | _ <;> rcases hnb : b.tok.isNum with _ | _ <;> simp only [hna, hnb, Bool.false_eq_true, if_false, if_true] at hpos ⊢
  · rw [hm.inj _ _ (key a ha hna).1 (key b hb hnb).1 hpos]
  · exact absurd hpos (key a ha hna).2
  · exact absurd hpos.symm (key b hb hnb).2

/-- all the names a gate mentions have a position -/
def GateHas (m : IndexMap) (g : Gate) : Prop :=
  ∀ n, (some n ∈ g.left.map Factor.key ∨ some n ∈ g.right.map Factor.key ∨ some n ∈ g.expo.map Factor.key ∨
    some n ∈ g.out.map Factor.key) → m.has n = true

theorem swap_has {m : IndexMap} {g : Gate} (h : GateHas m (swapLonger g)) : GateHas m g := by
  unfold swapLonger at h
  split at h
  · intro n hn
    apply h n
    rcases hn with hn | hn | hn | hn
    exacts [Or.inr (Or.inl hn), Or.inl hn, Or.inr (Or.inr (Or.inl hn)), Or.inr (Or.inr (Or.inr hn))]
  · exact h

theorem swap_shape {g : Gate} (h : GateShape g) : GateShape (swapLonger g) := by
  unfold swapLonger
  split
  · rename_i hl
    unfold GateShape at h ⊢
    revert h
    cases g.typ <;> simp only [] <;> intro h
    · exact h
    · exact ⟨h.2.1, h.1, h.2.2⟩
    · exact h
    · rw [h.1] at hl; simp at hl
    · rw [h.1] at hl; simp at hl
    · exact ⟨h.2.1, h.1, h.2.2⟩
  · exact h

theorem rowDense_has {m : IndexMap} {g : Gate} {row : Row (List Int)} (hs : GateShape g) (h : rowDense m g = some row) :
    GateHas m g := by
  apply swap_has
  have hs' := swap_shape hs
  unfold rowDense at h
  simp only [] at h
  generalize swapLonger g = g' at h hs'
  have P := fun f arr h => formDense_has (m := m) f (List.replicate m.length 0) arr h
  cases ht : g'.typ with
  | mult =>
    simp only [ht, GateShape] at h hs'
    cases ha : formDense m g'.left with
    | none => simp [ha] at h
    | some a =>
      cases hb : formDense m g'.right with
      | none => simp [ha, hb] at h
      | some b =>
        cases hc : formDense m g'.out with
        | none => simp [ha, hb, hc] at h
        | some c =>
          rintro n (hn | hn | hn | hn)
          · exact P _ _ ha n hn
          · exact P _ _ hb n hn
          · simp [hs'.1] at hn
          · exact P _ _ hc n hn
  | scalarBase =>
    simp only [ht, GateShape] at h hs'
    cases ha : formDense m g'.expo with
    | none => simp [ha] at h
    | some a =>
      rintro n (hn | hn | hn | hn)
      · simp [hs'.1] at hn
      · simp [hs'.2.1] at hn
      · exact P _ _ ha n hn
      · simp [hs'.2.2.1] at hn
  | equality =>
    simp only [ht, GateShape] at h hs'
    cases ha : formDense m g'.left with
    | none => simp [ha] at h
    | some a =>
      cases hc : formDense m g'.right with
      | none => simp [ha, hc] at h
      | some c =>
        rintro n (hn | hn | hn | hn)
        · exact P _ _ ha n hn
        · exact P _ _ hc n hn
        · simp [hs'.1] at hn
        · simp [hs'.2.1] at hn
  | zeroOrOne =>
    simp only [ht, GateShape] at hs'
    rintro n (hn | hn | hn | hn)
    · simp [hs'.1] at hn
    · simp [hs'.2.1] at hn
    · simp [hs'.2.2.1] at hn
    · simp [hs'.2.2.2.1] at hn
  | addition =>
    simp only [ht, GateShape] at h hs'
    cases ha : formDense m g'.left with
    | none => simp [ha] at h
    | some a =>
      cases hc : formDense m g'.out with
      | none => simp [ha, hc] at h
      | some c =>
        rintro n (hn | hn | hn | hn)
        · exact P _ _ ha n hn
        · simp [hs'.1] at hn
        · simp [hs'.2.1] at hn
        · exact P _ _ hc n hn
  | sumCheck =>
    simp only [ht, GateShape] at h hs'
    cases ha : formDense m g'.left with
    | none => simp [ha] at h
    | some a =>
      rintro n (hn | hn | hn | hn)
      · exact P _ _ ha n hn
      · simp [hs'.1] at hn
      · simp [hs'.2.1] at hn
      · simp [hs'.2.2.1] at hn

theorem rowSparse_has {m : IndexMap} {g : Gate} {row : Row APS.Avl.Tree} (hs : GateShape g)
    (h : rowSparse q m g = some row) : GateHas m g := by
  apply swap_has
  have hs' := swap_shape hs
  unfold rowSparse at h
  simp only [] at h
  generalize swapLonger g = g' at h hs'
  have P := fun f arr h => formSparse_has (q := q) (m := m) f .nil arr h
  cases ht : g'.typ with
  | mult =>
    simp only [ht, GateShape] at h hs'
    cases ha : formSparse q m g'.left with
    | none => simp [ha] at h
    | some a =>
      cases hb : formSparse q m g'.right with
      | none => simp [ha, hb] at h
      | some b =>
        cases hc : formSparse q m g'.out with
        | none => simp [ha, hb, hc] at h
        | some c =>
          rintro n (hn | hn | hn | hn)
          · exact P _ _ ha n hn
          · exact P _ _ hb n hn
          · simp [hs'.1] at hn
          · exact P _ _ hc n hn
  | scalarBase =>
    simp only [ht, GateShape] at h hs'
    cases ha : formSparse q m g'.expo with
    | none => simp [ha] at h
    | some a =>
      rintro n (hn | hn | hn | hn)
      · simp [hs'.1] at hn
      · simp [hs'.2.1] at hn
      · exact P _ _ ha n hn
      · simp [hs'.2.2.1] at hn
  | equality =>
    simp only [ht, GateShape] at h hs'
    cases ha : formSparse q m g'.left with
    | none => simp [ha] at h
    | some a =>
      cases hc : formSparse q m g'.right with
      | none => simp [ha, hc] at h
      | some c =>
        rintro n (hn | hn | hn | hn)
        · exact P _ _ ha n hn
        · exact P _ _ hc n hn
        · simp [hs'.1] at hn
        · simp [hs'.2.1] at hn
  | zeroOrOne =>
    simp only [ht, GateShape] at hs'
    rintro n (hn | hn | hn | hn)
    · simp [hs'.1] at hn
    · simp [hs'.2.1] at hn
    · simp [hs'.2.2.1] at hn
    · simp [hs'.2.2.2.1] at hn
  | addition =>
    simp only [ht, GateShape] at h hs'
    cases ha : formSparse q m g'.left with
    | none => simp [ha] at h
    | some a =>
      cases hb : (APS.Avl.Tree.nil).insert 0 1 with
      | none => simp [ha, hb] at h
      | some b =>
        cases hc : formSparse q m g'.out with
        | none => simp [ha, hb, hc] at h
        | some c =>
          rintro n (hn | hn | hn | hn)
          · exact P _ _ ha n hn
          · simp [hs'.1] at hn
          · simp [hs'.2.1] at hn
          · exact P _ _ hc n hn
  | sumCheck =>
    simp only [ht, GateShape] at h hs'
    cases ha : formSparse q m g'.left with
    | none => simp [ha] at h
    | some a =>
      rintro n (hn | hn | hn | hn)
      · exact P _ _ ha n hn
      · simp [hs'.1] at hn
      · simp [hs'.2.1] at hn
      · simp [hs'.2.2.1] at hn

theorem mapM_mem {α β : Type} {F : α → Option β} : ∀ {l : List α} {r : List β}, l.mapM F = some r →
    (∀ x ∈ l, ∃ y ∈ r, F x = some y) ∧ (∀ y ∈ r, ∃ x ∈ l, F x = some y) := by
  intro l
  induction l with
  | nil => intro r h; simp at h; subst h; simp
  | cons a as ih =>
    intro r h
    rw [List.mapM_cons] at h
    cases ha : F a with
    | none => simp [ha] at h
    | some b =>
      simp only [ha, Option.bind_eq_bind, Option.bind_some] at h
      cases hr : as.mapM F with
      | none => simp [hr] at h
      | some bs =>
        simp [hr] at h
        subst h
        obtain ⟨h1, h2⟩ := ih hr
        constructor
        · intro x hx
          rcases List.mem_cons.mp hx with rfl | hx
          · exact ⟨b, List.mem_cons_self, ha⟩
          · obtain ⟨y, hy, hf⟩ := h1 x hx
            exact ⟨y, List.mem_cons_of_mem _ hy, hf⟩
        · intro y hy
          rcases List.mem_cons.mp hy with rfl | hy
          · exact ⟨a, List.mem_cons_self, ha⟩
          · obtain ⟨x, hx, hf⟩ := h2 y hy
            exact ⟨x, List.mem_cons_of_mem _ hx, hf⟩

theorem gatesToR1CS_eq {publics inputs : List Name} {gates : List Gate} {rand : Bool} {r : R1CS (List Int)}
    (h : gatesToR1CS publics inputs gates rand = some r) :
    buildIndex publics inputs gates rand = some (r.index, r.split) ∧
    ∃ rows, gates.mapM (rowDense r.index) = some rows ∧
      ((rand = false ∧ r.rows = rows) ∨ (rand = true ∧ ∃ rr, randRowDense r.index = some rr ∧ r.rows = rows ++ [rr])) := by
  unfold gatesToR1CS at h
  cases hb : buildIndex publics inputs gates rand with
  | none => simp [hb] at h
  | some x =>
    obtain ⟨m, sp⟩ := x
    simp only [hb, Option.bind_eq_bind, Option.bind_some] at h
    cases hm : gates.mapM (rowDense m) with
    | none => simp [hm] at h
    | some rows =>
      simp only [hm, Option.bind_some] at h
      cases rand with
      | false =>
        simp at h; subst h
        exact ⟨rfl, rows, hm, Or.inl ⟨rfl, rfl⟩⟩
      | true =>
        simp only [if_true] at h
        cases hr : randRowDense m with
        | none => simp [hr] at h
        | some rr =>
          simp [hr] at h; subst h
          exact ⟨rfl, rows, hm, Or.inr ⟨rfl, rr, hr, rfl⟩⟩

theorem gatesToSparseR1CS_eq {publics inputs : List Name} {gates : List Gate} {rand : Bool} {r : R1CS APS.Avl.Tree}
    (h : gatesToSparseR1CS q publics inputs gates rand = some r) :
    buildIndex publics inputs gates rand = some (r.index, r.split) ∧
    ∃ rows, gates.mapM (rowSparse q r.index) = some rows ∧
      ((rand = false ∧ r.rows = rows) ∨ (rand = true ∧ ∃ rr, randRowSparse q r.index = some rr ∧ r.rows = rows ++ [rr])) := by
  unfold gatesToSparseR1CS at h
  cases hb : buildIndex publics inputs gates rand with
  | none => simp [hb] at h
  | some x =>
    obtain ⟨m, sp⟩ := x
    simp only [hb, Option.bind_eq_bind, Option.bind_some] at h
    cases hm : gates.mapM (rowSparse q m) with
    | none => simp [hm] at h
    | some rows =>
      simp only [hm, Option.bind_some] at h
      cases rand with
      | false =>
        simp at h; subst h
        exact ⟨rfl, rows, hm, Or.inl ⟨rfl, rfl⟩⟩
      | true =>
        simp only [if_true] at h
        cases hr : randRowSparse q m with
        | none => simp [hr] at h
        | some rr =>
          simp [hr] at h; subst h
          exact ⟨rfl, rows, hm, Or.inr ⟨rfl, rr, hr, rfl⟩⟩

/-- for a program, every gate whose names all have a position satisfies `GateOK` -/
theorem gateOK_of {I : List Name} {s : St} (hw : WF I s) (ha : SplitAtt I s) (hn : NoConfusion s) (hc : NoConstSplit s)
    {one : Name} {P : List Name} {rand : Bool} {m : IndexMap} (hi : IndexSpec (one :: P) I s.c.gates rand m)
    (h1 : one ∉ I) (h2 : one ∉ s.c.computed) {g : Gate} (hg : g ∈ s.c.gates) (hh : GateHas m g) : GateOK m g := by
  have hgood := hi.inv.good
  have hone : m.get one = 0 := hi.pub 0 one rfl
  have hone' : m.has one = true := (hi.names one).mpr (Or.inl List.mem_cons_self)
  have hk := hw.known g hg
  have hne : ∀ n, n ∈ I ++ s.c.computed → m.has n = true → m.get n ≠ 0 := by
    intro n hn hh h0
    have : n = one := hgood.inj _ _ hh hone' (by rw [h0, hone])
    subst this
    rcases List.mem_append.mp hn with hn | hn
    exacts [h1 hn, h2 hn]
  have hnd := hw.forms g hg
  have hsh := hnd.shape
  have hD : ∀ F : Factors, (F.map Factor.key).Nodup → KnownF (I ++ s.c.computed) F →
      (∀ n, some n ∈ F.map Factor.key → m.has n = true) → Distinct m F := fun F h1 h2 h3 =>
    distinct_of_keys hgood h1 fun n hn => ⟨h3 n hn, hne n (h2 n hn) (h3 n hn)⟩
  refine ⟨hD _ hnd.left hk.left fun n hn => hh n (Or.inl hn), hD _ hnd.right hk.right fun n hn => hh n (Or.inr (Or.inl hn)),
    hD _ hnd.expo hk.expo fun n hn => hh n (Or.inr (Or.inr (Or.inl hn))),
    hD _ hnd.out hk.out fun n hn => hh n (Or.inr (Or.inr (Or.inr hn))), ?_, ?_, ?_⟩
  · rintro (ht | ht) <;> (unfold GateShape at hsh; rw [ht] at hsh; exact hsh.1)
  · intro ht
    have hnn : g.noNew = false := by
      rcases ht with ht | ht <;> (unfold GateShape at hsh; rw [ht] at hsh)
      exacts [hsh.2.2.2, hsh.2.2.2.2]
    have hhas : m.has g.ident = true := (hi.names _).mpr (Or.inr (Or.inr (Or.inl ⟨g, hg, hnn, rfl⟩)))
    exact ⟨hhas, hne _ hk.ident hhas⟩
  · intro ht
    exact att_has hn hi ((ha g (Or.inl hg)).arith (Or.inl ht) (hc g hg (Or.inl ht)))

end APS.Circuit
