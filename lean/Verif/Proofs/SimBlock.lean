import Verif.Proofs.SimSet

/-! The compiler on the heap: blocks of statements, given what single tasks do. -/
namespace APS.Prog
open APS.Lex (Token TokenType)
open APS.Parse (Constraint)
open APS.Circuit
open APS.LangSpec (builtins Stm Fun isWord okEx okExs okStms find kwBase kwEqual kwSplit compareOp declared)
open APS.ParseSpec (Ex indexText tree trees)
open APS.Sym (Sym Static sym_wf arithGate complete)

variable {H : Name → Nat} {q : Nat} {P : List Fun}

/-- `execTasks` and `executeTasks` in one: `top` says whether `completeFunction` follows every task -/
def execGen (H : Name → Nat) (top : Bool) (comp : Comp) (cur : Nat) : List Constraint → W → Option (Res × W)
  | [], w => some ({}, w)
  | t :: ts, w => do
    let (r, w) ← comp cur t w
    let s ← complete H top r.facs w.s
    if r.ret then pure ({ r with ret := true }, { w with s := s }) else execGen H top comp cur ts { w with s := s }

theorem execGen_false (comp : Comp) (cur : Nat) : ∀ (ts : List Constraint) (w : W), execGen H false comp cur ts w = execTasks comp cur ts w := by
  intro ts
  induction ts with
  | nil => intro w; rfl
  | cons t ts ih =>
    intro w
    simp only [execGen, execTasks, complete, Bool.false_eq_true, if_false, Option.bind_eq_bind, Option.bind_some, ih]

theorem execGen_true {n main : Nat} : ∀ {ts : List Constraint} {w w' : W} {f : Factors}, executeTasks H q n main ts w = some (f, w') →
    ∃ r, execGen H true (compile H q n) main ts w = some (r, w') ∧ r.facs = f := by
  intro ts
  induction ts with
  | nil => intro w w' f h; simp only [executeTasks, Option.some.injEq, Prod.mk.injEq] at h; obtain ⟨rfl, rfl⟩ := h; exact ⟨{}, rfl, rfl⟩
  | cons t ts ih =>
    intro w w' f h
    simp only [executeTasks, Option.bind_eq_bind, Option.bind_eq_some_iff, Prod.exists] at h
    obtain ⟨r, w1, h1, s, h2, h3⟩ := h
    simp only [execGen, complete, if_true, h1, h2, Option.bind_eq_bind, Option.bind_some]
    split at h3
    · rename_i hr
      rw [if_pos hr]
      simp only [Option.pure_def, Option.some.injEq, Prod.mk.injEq] at h3
      obtain ⟨rfl, rfl⟩ := h3
      exact ⟨_, rfl, rfl⟩
    · rename_i hr
      rw [if_neg hr]
      exact ih h3

theorem completeg_computed {top : Bool} {f : Factors} {s s' : St} (h : complete H top f s = some s') : Grows s s' := by
  unfold complete at h
  split at h
  · exact complete_computed h
  · cases h; exact Grows.refl _

theorem execGen_mono {top : Bool} {comp : Comp} (hm : MonoC comp) {cur : Nat} : ∀ {ts : List Constraint} {w w' : W} {r : Res},
    execGen H top comp cur ts w = some (r, w') → Mono w w' := by
  intro ts
  induction ts with
  | nil => intro w w' r h; simp only [execGen, Option.some.injEq, Prod.mk.injEq] at h; obtain ⟨rfl, rfl⟩ := h; exact Mono.refl _
  | cons t ts ih =>
    intro w w' r h
    simp only [execGen, Option.bind_eq_bind, Option.bind_eq_some_iff, Prod.exists] at h
    obtain ⟨r1, w1, h1, s, h2, h3⟩ := h
    have m1 := (hm _ _ _ _ _ h1).trans (Mono.gates (completeg_computed h2))
    split at h3
    · simp only [Option.pure_def, Option.some.injEq, Prod.mk.injEq] at h3
      obtain ⟨rfl, rfl⟩ := h3
      exact m1
    · exact m1.trans (ih h3)

theorem complete_nil {top : Bool} {s s2 : St} (h : complete H top [] s = some s2) : s2 = s := by
  unfold complete at h
  split at h
  · simp [completeFunction] at h; exact h.symm
  · cases h; rfl

/-! ### what single tasks do -/

/-- the names of a statement belong to its frame -/
structure StCov (P : List Fun) (F : Frame) (st : Stm) : Prop where
  bases : ∀ y ∈ st.declares, y ∈ F.bases
  names : ∀ y ∈ st.declares, NameOK P y
  vars : ∀ y ∈ F.vs, base y ∈ st.declares → y ∈ stVars st

def DeclSpec (H : Name → Nat) (q : Nat) (P : List Fun) (comp : Comp) : Prop :=
  ∀ (I : List Name) (env : Env) (vis : List Name) (F : Frame) (rest : List Frame) (V : Name → Prop) (y : Name) (ks : List Nat) (e : Ex)
    (w : W) (r : Res) (w' : W), NameOK P y → okEx P vis e → Inv q P I env vis (F :: rest) w → Rep w.m (F :: rest) V env →
    comp F.addr (setTask (.mk ⟨.varDeclare, y ++ indexText ks⟩ []) e) w = some (r, w') → Fin q I w' →
    r.ret = false ∧ MemOK w'.m ∧ Step (F :: rest) w.m w'.m ∧
      Rep w'.m (F :: rest) (fun x => V x ∨ x = y ++ indexText ks) ((y ++ indexText ks, r.facs) :: env) ∧
      Sym H q P (.ex env e w.s r.facs w'.s) ∧ (r.facs.map (·.tok.ident)).Nodup

/-- statements with one task -/
def StSpec (H : Name → Nat) (q : Nat) (P : List Fun) (comp : Comp) : Prop :=
  ∀ (I : List Name) (env : Env) (outer vis : List Name) (F : Frame) (rest : List Frame) (st : Stm) (i : Nat) (t : Constraint)
    (w : W) (r : Res) (w' : W), st.isExit = false → stTasks i st = [t] → (∀ a es, st ≠ .declArr a es) → st.ok P outer vis → StCov P F st →
    (∀ E ∈ F :: rest, ∀ y ∈ E.bases, y ∈ outer) → (∀ y ∈ vis, y ∈ outer) → Loop w.m (Outside (F :: rest)) F.addr i st →
    Inv q P I env vis (F :: rest) w → comp F.addr t w = some (r, w') → Fin q I w' →
    ∃ env', r.ret = false ∧ MemOK w'.m ∧ Step (F :: rest) w.m w'.m ∧ Rep w'.m (F :: rest) (fun x => base x ∈ st.declares ++ vis) env' ∧ Apart env' ∧
      ∀ top s2, complete H top r.facs w'.s = some s2 → Sym H q P (.stm top env st w.s env' s2)

/-- an `if` with a `return` -/
def ExitSpec (H : Name → Nat) (q : Nat) (P : List Fun) (comp : Comp) : Prop :=
  ∀ (I : List Name) (env : Env) (outer vis : List Name) (F : Frame) (rest : List Frame) (l : Ex) (cmp : Name) (r0 : Ex) (body : List Stm) (e : Ex)
    (i : Nat) (w : W) (r : Res) (w' : W), (Stm.cond l cmp r0 body (some e)).ok P outer vis → (∀ E ∈ F :: rest, ∀ y ∈ E.bases, y ∈ outer) →
    (∀ y ∈ vis, y ∈ outer) → Loop w.m (Outside (F :: rest)) F.addr i (.cond l cmp r0 body (some e)) → Inv q P I env vis (F :: rest) w →
    comp F.addr (node .ifFunctionCall (ifName i)) w = some (r, w') → Fin q I w' →
    ∃ a b, Sym H q P (.ex env l {} [a] {}) ∧ Sym H q P (.ex env r0 {} [b] {}) ∧ Static q a ∧ Static q b ∧
      ((compareOp cmp a.mul.toNat b.mul.toNat = .ok false ∧ r = {} ∧ w'.s = w.s ∧ Next w w') ∨
        (compareOp cmp a.mul.toNat b.mul.toNat = .ok true ∧ r.ret = true ∧ MemOK w'.m ∧ Step (F :: rest) w.m w'.m ∧
          ∃ env1 s1, Sym H q P (.stms false env body w.s env1 s1) ∧ Sym H q P (.ex env1 e s1 r.facs w'.s)))

/-- the task of `return` -/
def RetSpec (H : Name → Nat) (q : Nat) (P : List Fun) (comp : Comp) : Prop :=
  ∀ (I : List Name) (env : Env) (vis : List Name) (F : Frame) (rest : List Frame) (e : Ex) (w : W) (r : Res) (w' : W),
    okEx P vis e → Inv q P I env vis (F :: rest) w → comp F.addr (node .ret [] [tree e]) w = some (r, w') → Fin q I w' →
    r.ret = true ∧ Next w w' ∧ Sym H q P (.ex env e w.s r.facs w'.s)

/-! ### arrays -/

theorem elems_spec [Fact q.Prime] {top : Bool} {comp : Comp} (hm : MonoC comp) (hD : DeclSpec H q P comp) {I : List Name} {vis : List Name}
    {F : Frame} {rest : List Frame} {a : Name} (ha : NameOK P a) {tail : List Constraint} :
    ∀ (es : List Ex) (i : Nat) (env : Env) (V : Name → Prop) (w w' : W) (r : Res), okExs P vis es → (∀ x, base x ∈ vis → V x) →
    Inv q P I env vis (F :: rest) w → Rep w.m (F :: rest) V env →
    execGen H top comp F.addr (elemTasks a i es ++ tail) w = some (r, w') → Fin q I w' →
    ∃ env1 w1, Sym H q P (.decls top env a i es w.s env1 w1.s) ∧ Inv q P I env1 vis (F :: rest) w1 ∧
      Rep w1.m (F :: rest) (fun x => V x ∨ ∃ j, i ≤ j ∧ j < i + es.length ∧ x = a ++ indexText [j]) env1 ∧
      Step (F :: rest) w.m w1.m ∧ execGen H top comp F.addr tail w1 = some (r, w') := by
  intro es
  induction es with
  | nil =>
    intro i env V w w' r _ _ h hrep hx _
    exact ⟨env, w, .declsNil, h, hrep.mono fun _ _ x _ hx => hx.elim id (fun ⟨j, h1, h2, _⟩ => by simp at h2; omega), Step.refl _ _, hx⟩
  | cons e es ih =>
    intro i env V w w' r hok hV h hrep hx hf
    simp only [elemTasks, List.cons_append, execGen, Option.bind_eq_bind, Option.bind_eq_some_iff, Prod.exists] at hx
    obtain ⟨r1, w1, h1, s2, h2, h3⟩ := hx
    have hf2 : Fin q I { w1 with s := s2 } := by
      split at h3
      · simp only [Option.pure_def, Option.some.injEq, Prod.mk.injEq] at h3
        obtain ⟨-, rfl⟩ := h3
        exact hf
      · exact hf.mono (execGen_mono hm h3)
    have hf1 : Fin q I w1 := hf2.mono (Mono.gates (completeg_computed h2))
    obtain ⟨a1, a2, a3, a4, a5, a6⟩ := hD _ _ _ _ _ _ _ _ _ _ _ _ ha hok.1 h hrep h1 hf1
    rw [if_neg (by simp [a1])] at h3
    have r1w := ExSpec.res h a5
    obtain ⟨e2, wf2⟩ := APS.Sym.complete_wf r1w.wf r1w.good r1w.known h2
    have ev2 := (((h.env.mono h.wf r1w.wf r1w.ext).cons (x := a ++ indexText [i]) r1w.good r1w.known).mono r1w.wf wf2 e2)
    have hi : Inv q P I ((a ++ indexText [i], r1.facs) :: env) vis (F :: rest) { w1 with s := s2 } :=
      h.after_step a2 a3 (a4.mono fun _ _ x _ hx => Or.inl (hV x hx)) h.vis wf2 ev2 (h.sep.cons a6)
    obtain ⟨env1, w3, b1, b2, b3, b4, b5⟩ := ih (i + 1) _ _ _ _ _ hok.2 (fun x hx => Or.inl (hV x hx)) hi a4 h3 hf
    refine ⟨env1, w3, .declsCons a5 h2 b1, b2, b3.mono ?_, a3.trans h.chain b4, b5⟩
    rintro _ _ x _ (hx | ⟨j, j1, j2, j3⟩)
    · exact Or.inl (Or.inl hx)
    · simp only [List.length_cons] at j2
      rcases Nat.lt_or_ge i j with hj | hj
      · exact Or.inr ⟨j, by omega, by omega, j3⟩
      · have : j = i := by omega
        subst this
        exact Or.inl (Or.inr j3)

/-! ### blocks -/

theorem stm_wf [Fact q.Prime] {top : Bool} {I : List Name} {env env' : Env} {vis : List Name} {ch : List Frame} {w : W} {st : Stm} {s2 : St}
    (h : Inv q P I env vis ch w) (hs : Sym H q P (.stm top env st w.s env' s2)) : WF I s2 ∧ EnvOK I q env' s2 :=
  (sym_wf hs I h.wf h.env).2

theorem Loops.next {ch : List Frame} {m m' : Mem} (hok : MemOK m) (hs : Step ch m m') {F : Frame} (hF : F ∈ ch) {i : Nat} {sts : List Stm}
    (h : Loops m (Outside ch) F.addr i sts) : Loops m' (Outside ch) F.addr i sts :=
  loops_step hok hs (fun _ h => h) (fun k hk => hs.loops F hF k hk) h

/-- after the first statement -/
theorem stm_first [Fact q.Prime] {top : Bool} {comp : Comp} (hm : MonoC comp) (hD : DeclSpec H q P comp) (hS : StSpec H q P comp) {I : List Name}
    {outer : List Name} {F : Frame} {rest : List Frame} {tail : List Constraint} (hout : ∀ E ∈ F :: rest, ∀ y ∈ E.bases, y ∈ outer)
    {st : Stm} {sts : List Stm} {i : Nat} {env : Env} {vis : List Name} {w w' : W} {r : Res} (hst : st.isExit = false) (ok1 : st.ok P outer vis)
    (cov : StCov P F st) (hvo : ∀ y ∈ vis, y ∈ outer) (hl : Loop w.m (Outside (F :: rest)) F.addr i st) (h : Inv q P I env vis (F :: rest) w)
    (hx : execGen H top comp F.addr (tasksFrom i (st :: sts) ++ tail) w = some (r, w')) (hf : Fin q I w') :
    ∃ env1 w1, Sym H q P (.stm top env st w.s env1 w1.s) ∧ Inv q P I env1 (st.declares ++ vis) (F :: rest) w1 ∧
      Step (F :: rest) w.m w1.m ∧ execGen H top comp F.addr (tasksFrom (i + width st) sts ++ tail) w1 = some (r, w') := by
  have hvis' : ∀ y ∈ st.declares ++ vis, NameOK P y := by
    intro y hy
    rcases List.mem_append.mp hy with hy | hy
    · exact cov.names y hy
    · exact h.vis y hy
  by_cases hd : ∃ a es, st = .declArr a es
  · obtain ⟨a, es, rfl⟩ := hd
    simp only [tasksFrom, stTasks, List.append_assoc] at hx
    have ha : NameOK P a := cov.names a (by simp [Stm.declares])
    obtain ⟨env1, w1, b1, b2, b3, b4, b5⟩ := elems_spec hm hD ha es 0 env _ w w' r ok1 (fun _ hx => hx) h h.rep hx hf
    refine ⟨env1, w1, .declArr b1, ⟨b2.ok, b2.chain, b2.glob, b3.mono ?_, b2.names, hvis', b2.wf, b2.env, b2.sep⟩, b4, b5⟩
    intro E hE x hx1 hx2
    rcases List.mem_append.mp hx2 with hx2 | hx2
    · right
      have hfor : ¬ IsFor x := by
        have := isWord_notFor (cov.names _ hx2).word (x.dropWhile (· != '['))
        rwa [base, List.takeWhile_append_dropWhile] at this
      obtain ⟨o1, o2⟩ := own_var b2.chain hE hfor hx1
      obtain ⟨-, rfl⟩ := b2.chain.unique hE (List.mem_cons_self (a := F) (l := rest)) o2 (cov.bases _ hx2)
      have := cov.vars x o1 hx2
      simp only [stVars, List.mem_map, List.mem_range] at this
      obtain ⟨j, j1, j2⟩ := this
      exact ⟨j, by omega, by omega, j2.symm⟩
    · exact Or.inl hx2
  · have hnd : ∀ a es, st ≠ .declArr a es := fun a es he => hd ⟨a, es, he⟩
    obtain ⟨t, ht, hwd⟩ : ∃ t, stTasks i st = [t] ∧ width st = 1 := by
      cases st with
      | declArr a es => exact (hnd a es rfl).elim
      | decl => exact ⟨_, rfl, rfl⟩
      | assign => exact ⟨_, rfl, rfl⟩
      | call => exact ⟨_, rfl, rfl⟩
      | loop => exact ⟨_, rfl, rfl⟩
      | cond => exact ⟨_, rfl, rfl⟩
    simp only [tasksFrom, ht, List.cons_append, List.nil_append, execGen, Option.bind_eq_bind, Option.bind_eq_some_iff, Prod.exists] at hx
    obtain ⟨r1, w1, h1, s2, h2, h3⟩ := hx
    have hf2 : Fin q I { w1 with s := s2 } := by
      split at h3
      · simp only [Option.pure_def, Option.some.injEq, Prod.mk.injEq] at h3
        obtain ⟨-, rfl⟩ := h3
        exact hf
      · exact hf.mono (execGen_mono hm h3)
    have hf1 : Fin q I w1 := hf2.mono (Mono.gates (completeg_computed h2))
    obtain ⟨env1, a1, a2, a3, a4, a6, a5⟩ := hS I env outer vis F rest st i t w r1 w1 hst ht hnd ok1 cov hout hvo hl h h1 hf1
    rw [if_neg (by simp [a1])] at h3
    have sy := a5 top s2 h2
    obtain ⟨wf2, ev2⟩ := stm_wf h sy
    exact ⟨env1, { w1 with s := s2 }, sy, h.after_step a2 a3 a4 hvis' wf2 ev2 a6, a3, h3⟩

theorem stms_spec [Fact q.Prime] {top : Bool} {comp : Comp} (hm : MonoC comp) (hD : DeclSpec H q P comp) (hS : StSpec H q P comp) {I : List Name}
    {outer : List Name} {F : Frame} {rest : List Frame} {tail : List Constraint} (hout : ∀ E ∈ F :: rest, ∀ y ∈ E.bases, y ∈ outer) :
    ∀ (sts : List Stm) (i : Nat) (env : Env) (vis : List Name) (w w' : W) (r : Res), (∀ st ∈ sts, st.isExit = false) → okStms P outer vis sts → (∀ st ∈ sts, StCov P F st) →
    (∀ y ∈ vis, y ∈ outer) → Loops w.m (Outside (F :: rest)) F.addr i sts → Inv q P I env vis (F :: rest) w →
    execGen H top comp F.addr (tasksFrom i sts ++ tail) w = some (r, w') → Fin q I w' →
    ∃ env1 w1 vis1, Sym H q P (.stms top env sts w.s env1 w1.s) ∧ (∀ y, y ∈ vis1 ↔ y ∈ declared sts ∨ y ∈ vis) ∧
      Inv q P I env1 vis1 (F :: rest) w1 ∧ Step (F :: rest) w.m w1.m ∧ execGen H top comp F.addr tail w1 = some (r, w') := by
  intro sts
  induction sts with
  | nil =>
    intro i env vis w w' r _ _ _ _ _ h hx _
    exact ⟨env, w, vis, .stmsNil, by simp [declared], h, Step.refl _ _, hx⟩
  | cons st sts ih =>
    intro i env vis w w' r hne hok hcov hvo hl h hx hf
    obtain ⟨ok1, ok2⟩ := hok
    have cov := hcov st (by simp)
    -- after the first statement
    have first := stm_first hm hD hS hout (hne st (by simp)) ok1 cov hvo hl.1 h hx hf
    obtain ⟨env1, w1, c1, c2, c3, c4⟩ := first
    have hl1 := Loops.next h.ok c3 (List.mem_cons_self (a := F) (l := rest)) hl.2
    have hvo1 : ∀ y ∈ st.declares ++ vis, y ∈ outer := by
      intro y hy
      rcases List.mem_append.mp hy with hy | hy
      · exact hout F (by simp) y (cov.bases y hy)
      · exact hvo y hy
    obtain ⟨env2, w2, vis2, d1, d2, d3, d4, d5⟩ := ih _ _ _ _ _ _ (fun s hs => hne s (List.mem_cons_of_mem _ hs)) ok2 (fun s hs => hcov s (List.mem_cons_of_mem _ hs)) hvo1 hl1 c2 c4 hf
    refine ⟨env2, w2, vis2, .stmsCons c1 d1, ?_, d3, c3.trans h.chain d4, d5⟩
    intro y
    rw [d2]
    simp only [declared, List.flatMap_cons, List.mem_append]
    tauto

/-- the body of a function with its `return` -/
theorem fn_spec [Fact q.Prime] {top : Bool} {comp : Comp} (hm : MonoC comp) (hD : DeclSpec H q P comp) (hS : StSpec H q P comp)
    (hX : ExitSpec H q P comp) (hR : RetSpec H q P comp) {I : List Name}
    {outer : List Name} {F : Frame} {rest : List Frame} {ret : Ex} (hout : ∀ E ∈ F :: rest, ∀ y ∈ E.bases, y ∈ outer) :
    ∀ (sts : List Stm) (i : Nat) (env : Env) (vis : List Name) (w w' : W) (r : Res), okStms P outer vis sts → (∀ st ∈ sts, StCov P F st) →
    (∀ vis1, (∀ y, y ∈ vis1 ↔ y ∈ declared sts ∨ y ∈ vis) → okEx P vis1 ret) →
    (∀ y ∈ vis, y ∈ outer) → Loops w.m (Outside (F :: rest)) F.addr i sts → Inv q P I env vis (F :: rest) w →
    execGen H top comp F.addr (tasksFrom i sts ++ [node .ret [] [tree ret]]) w = some (r, w') → Fin q I w' →
    ∃ s1, Sym H q P (.fn top env sts ret w.s r.facs s1) ∧ complete H top r.facs s1 = some w'.s ∧ Step (F :: rest) w.m w'.m ∧ MemOK w'.m := by
  intro sts
  induction sts with
  | nil =>
    intro i env vis w w' r _ _ hret _ _ h hx hf
    simp only [tasksFrom, List.nil_append, execGen, Option.bind_eq_bind, Option.bind_eq_some_iff, Prod.exists] at hx
    obtain ⟨r1, w1, h1, s2, h2, h3⟩ := hx
    have hf2 : Fin q I { w1 with s := s2 } := by
      split at h3
      · simp only [Option.pure_def, Option.some.injEq, Prod.mk.injEq] at h3
        obtain ⟨-, rfl⟩ := h3
        exact hf
      · simp only [Option.some.injEq, Prod.mk.injEq] at h3
        obtain ⟨-, rfl⟩ := h3
        exact hf
    have hf1 : Fin q I w1 := hf2.mono (Mono.gates (completeg_computed h2))
    obtain ⟨a1, a2, a3⟩ := hR _ _ _ _ _ _ _ _ _ (hret vis (by simp [declared])) h h1 hf1
    simp only [a1, if_true, Option.pure_def, Option.some.injEq, Prod.mk.injEq] at h3
    obtain ⟨rfl, rfl⟩ := h3
    exact ⟨w1.s, .fnEnd a3, h2, Step.of_grow0 h.chain a2.grow, a2.ok⟩
  | cons st sts ih =>
    intro i env vis w w' r hok hcov hret hvo hl h hx hf
    obtain ⟨ok1, ok2⟩ := hok
    have cov := hcov st (by simp)
    have hret1 : ∀ vis1, (∀ y, y ∈ vis1 ↔ y ∈ declared sts ∨ y ∈ st.declares ++ vis) → okEx P vis1 ret := by
      intro vis1 hv
      refine hret vis1 fun y => ?_
      rw [hv]
      simp only [declared, List.flatMap_cons, List.mem_append]
      tauto
    have hvo1 : ∀ y ∈ st.declares ++ vis, y ∈ outer := by
      intro y hy
      rcases List.mem_append.mp hy with hy | hy
      · exact hout F (by simp) y (cov.bases y hy)
      · exact hvo y hy
    cases hst : st.isExit with
    | false =>
      obtain ⟨env1, w1, c1, c2, c3, c4⟩ := stm_first hm hD hS hout hst ok1 cov hvo hl.1 h hx hf
      have hl1 := Loops.next h.ok c3 (List.mem_cons_self (a := F) (l := rest)) hl.2
      obtain ⟨s1, d1, d2, d3, d4⟩ := ih _ _ _ _ _ _ ok2 (fun s hs => hcov s (List.mem_cons_of_mem _ hs)) hret1 hvo1 hl1 c2 c4 hf
      exact ⟨s1, .fnStep hst c1 d1, d2, c3.trans h.chain d3, d4⟩
    | true =>
      match st, hst with
      | .cond l cmp r0 body (some e), _ =>
        simp only [tasksFrom, stTasks, width, List.cons_append, List.nil_append, execGen, Option.bind_eq_bind, Option.bind_eq_some_iff, Prod.exists] at hx
        obtain ⟨r1, w1, h1, s2, h2, h3⟩ := hx
        have hf2 : Fin q I { w1 with s := s2 } := by
          split at h3
          · simp only [Option.pure_def, Option.some.injEq, Prod.mk.injEq] at h3
            obtain ⟨-, rfl⟩ := h3
            exact hf
          · exact hf.mono (execGen_mono hm h3)
        have hf1 : Fin q I w1 := hf2.mono (Mono.gates (completeg_computed h2))
        obtain ⟨a, b, ya, yb, sa, sb, ⟨hc, rfl, e1, n1⟩ | ⟨hc, a1, a2, a3, env1, s1, a4, a5⟩⟩ := hX _ _ _ _ _ _ _ _ _ _ _ _ _ _ _ ok1 hout hvo hl.1 h h1 hf1
        · rw [if_neg (by simp)] at h3
          have e2 : s2 = w1.s := complete_nil h2
          subst e2
          have hi1 : Inv q P I env vis (F :: rest) w1 := h.next n1 (by rw [e1]; exact h.wf) (by rw [e1]; exact h.env)
          have st1 := Step.of_grow0 h.chain n1.grow
          have hl1 := Loops.next h.ok st1 (List.mem_cons_self (a := F) (l := rest)) hl.2
          obtain ⟨s1, d1, d2, d3, d4⟩ := ih _ _ _ _ _ _ ok2 (fun s hs => hcov s (List.mem_cons_of_mem _ hs)) hret1 hvo1 hl1 hi1 h3 hf
          rw [e1] at d1
          exact ⟨s1, .fnSkip ya yb sa sb hc d1, d2, st1.trans h.chain d3, d4⟩
        · simp only [a1, if_true, Option.pure_def, Option.some.injEq, Prod.mk.injEq] at h3
          obtain ⟨rfl, rfl⟩ := h3
          exact ⟨w1.s, .fnQuit ya yb sa sb hc a4 a5, h2, a3, a2⟩

end APS.Prog
