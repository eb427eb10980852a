import Verif.Proofs.SimCall

/-! The compiler on the heap: statements, loops, and the induction over the fuel. -/
namespace APS.Prog
open APS.Lex (Token TokenType)
open APS.Parse (Constraint)
open APS.Circuit
open APS.LangSpec (builtins Stm Fun isWord okEx okExs okStms find kwBase kwEqual kwSplit compareOp declared ifFrees)
open APS.ParseSpec (Ex indexText tree trees tuples)
open APS.Sym (Sym Static sym_wf arithGate complete envOK_zip)

variable {H : Name → Nat} {q : Nat} {P : List Fun}

theorem index_nil (x : Name) : x ++ indexText [] = x := by simp [indexText]

/-! ### single statements -/

/-- variables in sight after a declaration -/
theorem sight {ch : List Frame} {m : Mem} (hc : Chain m ch) {F : Frame} (hF : F ∈ ch) {st : Stm} (cov : StCov P F st) {E : Frame} (hE : E ∈ ch) {x : Name}
    (hx : (m.ownFunction E.addr x).isSome) (hb : base x ∈ st.declares) : x ∈ stVars st := by
  have hfor : ¬ IsFor x := by
    have := isWord_notFor (cov.names _ hb).word (x.dropWhile (· != '['))
    rwa [base, List.takeWhile_append_dropWhile] at this
  obtain ⟨o1, o2⟩ := own_var hc hE hfor hx
  obtain ⟨-, rfl⟩ := hc.unique hE hF o2 (cov.bases _ hb)
  exact cov.vars x o1 hb

theorem st_decl [Fact q.Prime] (hP : ProgOK P) {n : Nat} (hE : ExSpec H q P (compile H q n)) {I : List Name} {env : Env} {vis : List Name}
    {F : Frame} {rest : List Frame} {x : Name} {e : Ex} {w w' : W} {r : Res} (ho : okEx P vis e) (cov : StCov P F (.decl x e))
    (h : Inv q P I env vis (F :: rest) w) (hc : compile H q (n + 1) F.addr (setTask (.mk ⟨.varDeclare, x⟩ []) e) w = some (r, w')) (hf : Fin q I w') :
    ∃ env', r.ret = false ∧ MemOK w'.m ∧ Step (F :: rest) w.m w'.m ∧ Rep w'.m (F :: rest) (fun y => base y ∈ (Stm.decl x e).declares ++ vis) env' ∧ Apart env' ∧
      ∀ top s2, complete H top r.facs w'.s = some s2 → Sym H q P (.stm top env (.decl x e) w.s env' s2) := by
  have hx := cov.names x (by simp [Stm.declares])
  rw [← index_nil x] at hc
  obtain ⟨a1, a2, a3, a4, a5, a6⟩ := decl_spec hP hE (ks := []) hx ho h h.rep hc hf
  rw [index_nil] at a4
  refine ⟨_, a1, a2, a3, a4.mono ?_, h.sep.cons a6, fun top s2 hs => .decl a5 hs⟩
  intro E hE' y hy hb
  rcases List.mem_append.mp hb with hb | hb
  · right
    have hch := h.chain.step' a3
    have := sight hch (List.mem_cons_self (a := F) (l := rest)) cov hE' hy hb
    simpa [stVars] using this
  · exact Or.inl hb

theorem st_assign [Fact q.Prime] (hP : ProgOK P) (hq : 2 ^ 63 ≤ q) {n : Nat} (hE : ExSpec H q P (compile H q n)) {I : List Name} {env : Env}
    {vis : List Name} {F : Frame} {rest : List Frame} {x : Name} {idx : List Ex} {e : Ex} {w w' : W} {r : Res}
    (ho : x ∈ vis ∧ okExs P vis idx ∧ okEx P vis e)
    (h : Inv q P I env vis (F :: rest) w) (hc : compile H q (n + 1) F.addr (setTask (target x idx) e) w = some (r, w')) (hf : Fin q I w') :
    ∃ env', r.ret = false ∧ MemOK w'.m ∧ Step (F :: rest) w.m w'.m ∧ Rep w'.m (F :: rest) (fun y => base y ∈ (Stm.assign x idx e).declares ++ vis) env' ∧ Apart env' ∧
      ∀ top s2, complete H top r.facs w'.s = some s2 → Sym H q P (.stm top env (.assign x idx e) w.s env' s2) := by
  obtain ⟨ks, g, a1, a2, a3, a4, a5, a6, a7, a8⟩ := set_spec hP hq hE ho.1 ho.2.1 ho.2.2 h hc hf
  exact ⟨_, a1, a2, a3, a4, h.sep.cons a8, fun top s2 hs => .assign a5 a7 a6 hs⟩

theorem st_call [Fact q.Prime] (hP : ProgOK P) {n : Nat} (hE : ExSpec H q P (compile H q n)) (hE' : ∀ k, k < n → ExSpec H q P (compile H q k))
    (hD : DeclSpec H q P (compile H q n)) (hS : StSpec H q P (compile H q n)) (hX : ExitSpec H q P (compile H q n)) {I : List Name} {env : Env} {outer vis : List Name}
    {F : Frame} {rest : List Frame} {f : Name} {args : List Ex} {w w' : W} {r : Res} (ho : (Stm.call f args).ok P outer vis)
    (h : Inv q P I env vis (F :: rest) w) (hc : compile H q (n + 1) F.addr (tree (.call f args)) w = some (r, w')) (hf : Fin q I w') :
    ∃ env', r.ret = false ∧ MemOK w'.m ∧ Step (F :: rest) w.m w'.m ∧ Rep w'.m (F :: rest) (fun y => base y ∈ (Stm.call f args).declares ++ vis) env' ∧ Apart env' ∧
      ∀ top s2, complete H top r.facs w'.s = some s2 → Sym H q P (.stm top env (.call f args) w.s env' s2) := by
  simp only [Stm.ok] at ho
  split at ho
  · rename_i he
    subst he
    obtain ⟨hl, hok⟩ := ho
    match args, hl, hok with
    | [a, b], _, hok =>
      simp only [tree, trees, compile, compileStep, Constraint.output, Constraint.inputs] at hc
      rw [callFunction_equal] at hc
      simp only [Option.bind_eq_bind, Option.bind_eq_some_iff, Prod.exists, Option.pure_def, Option.some.injEq, Prod.mk.injEq] at hc
      obtain ⟨x, w1, h1, y, w2, h2, s3, g, h3, rfl, rfl⟩ := hc
      have hf2 : Fin q I w2 := hf.mono (Mono.gates (add_computed h3))
      have hf1 := hf2.mono (compile_mono H q _ _ _ _ _ _ h2)
      obtain ⟨-, n1, s1⟩ := hE _ _ _ _ _ _ _ _ _ _ hok.1 (Or.inl rfl) h h1 hf1
      have hi1 := h.after n1 s1
      obtain ⟨-, n2, s2⟩ := hE _ _ _ _ _ _ _ _ _ _ hok.2.1 (Or.inl rfl) hi1 h2 hf2
      have hi2 := hi1.after n2 s2
      refine ⟨env, rfl, n2.ok, Step.of_grow0 h.chain (n1.grow.trans n2.grow), hi2.rep, h.sep, fun top s4 hs => ?_⟩
      rw [complete_nil hs]
      exact .equal s1 s2 h3
  · rename_i hne
    split at ho
    · rename_i he
      subst he
      obtain ⟨hl, hok⟩ := ho
      match args, hl, hok with
      | [a], _, hok =>
        simp only [tree, trees, compile, compileStep, Constraint.output, Constraint.inputs] at hc
        rw [callFunction_split] at hc
        simp only [Option.bind_eq_bind, Option.bind_eq_some_iff, Prod.exists, Option.pure_def, Option.some.injEq, Prod.mk.injEq] at hc
        obtain ⟨x, w1, h1, s2, h2, rfl, rfl⟩ := hc
        have hf1 : Fin q I w1 := hf.mono (Mono.gates (split_computed h2))
        obtain ⟨-, n1, s1⟩ := hE _ _ _ _ _ _ _ _ _ _ hok.1 (Or.inl rfl) h h1 hf1
        refine ⟨env, rfl, n1.ok, Step.of_grow0 h.chain n1.grow, (h.after n1 s1).rep, h.sep, fun top s4 hs => ?_⟩
        rw [complete_nil hs]
        exact .split s1 h2
    · rename_i hne2
      obtain ⟨a1, a2, a3⟩ := ex_call hP hE hE' hD hS hX ho h hc hf
      exact ⟨env, a1, a2.ok, Step.of_grow0 h.chain a2.grow, (h.after a2 a3).rep, h.sep, fun top s2 hs => .callS hne hne2 a3 hs⟩

/-! ### loops -/

theorem step_drop {ch : List Frame} {C : Frame} {m m1 m' : Mem} (hc : Chain m ch) (hg : Grow0 m m1) (hs : Step (C :: ch) m1 m')
    (hC : ∀ i, Fr m1 [C] i → m.maps.length ≤ i) : Step ch m m' := by
  have st := Step.of_grow0 hc hg
  refine ⟨⟨le_trans hg.olen hs.grow.olen, le_trans hg.mlen hs.grow.mlen, fun a ha => ?_, fun i hi hn => ?_⟩, fun F hF k => ?_, fun F hF k hk => ?_, ?_⟩
  · rw [hs.grow.objs a (lt_of_lt_of_le ha hg.olen), hg.objs a ha]
  · rw [hs.grow.maps i (lt_of_lt_of_le hi hg.mlen), hg.maps i hi id]
    rintro ⟨E, hE, f, h1, h2⟩
    rcases List.mem_cons.mp hE with rfl | hE
    · have := hC i ⟨E, by simp, f, h1, h2⟩
      omega
    · exact hn (fr_grow hg hc ⟨E, hE, f, h1, h2⟩)
  · rw [hs.keys F (List.mem_cons_of_mem _ hF), st.keys F hF]
  · rw [hs.loops F (List.mem_cons_of_mem _ hF) k hk, st.loops F hF k hk]
  · intro F hF hv f i h1 h2
    exact (hs.still F (List.mem_cons_of_mem _ hF) hv f i (hg.obj h1) h2).trans (st.still F hF hv f i h1 h2)

theorem forName_user (i : Nat) : forName i ∉ builtins := by
  intro hb
  have hall : ∀ n ∈ builtins, isWord n = true := by decide +kernel
  have := isWord_notFor (hall _ hb) []
  rw [List.append_nil] at this
  exact this ⟨i, Or.inl rfl⟩

/-- one round of a loop -/
theorem loop_round [Fact q.Prime] {n : Nat} (hD : DeclSpec H q P (compile H q n)) (hS : StSpec H q P (compile H q n))
    {I : List Name} {env : Env} {outer vis : List Name} {F : Frame} {rest : List Frame} {l r0 step : Ex} {cmp x : Name} {body : List Stm} {i : Nat}
    {w w' : W} {r : Res} (ho : (Stm.loop l cmp r0 x step body).ok P outer vis) (hout : ∀ E ∈ F :: rest, ∀ y ∈ E.bases, y ∈ outer)
    (hvo : ∀ y ∈ vis, y ∈ outer) (hl : Loop w.m (Outside (F :: rest)) F.addr i (.loop l cmp r0 x step body)) (h : Inv q P I env vis (F :: rest) w)
    (hc : compile H q (n + 1) F.addr (node .functionCall (forName i)) w = some (r, w')) (hf : Fin q I w') :
    ∃ env1, r.ret = false ∧ Step (F :: rest) w.m w'.m ∧ Sym H q P (.stms false env body w.s env1 w'.s) ∧ Inv q P I env1 vis (F :: rest) w' := by
  obtain ⟨-, -, -, -, -, hdn, hdecl, hne, hbody⟩ := ho
  have hdo : ∀ y ∈ declared body, y ∉ outer := fun y hy => (hdecl y hy).2.1
  have hnames : ∀ y ∈ declared body, NameOK P y := fun y hy => ⟨(hdecl y hy).1, (hdecl y hy).2.2.1, (hdecl y hy).2.2.2⟩
  obtain ⟨b, l1, l2, l3, l4⟩ := hl
  simp only [compile, compileStep, node, Constraint.output, Constraint.inputs] at hc
  rw [callFunction_user (forName_user i)] at hc
  have l3' := l3
  obtain ⟨fb, ib, eb, k1, k2, k3, k4, k5, k6, -⟩ := l3
  obtain ⟨m1, r1, f', ok1, g1, cp, c1, c2, c3, c4, c5, rfl⟩ := callUser_nil h.ok hc (find_own l1) k1 k5
  have nodeC : Node m1 w.m.objs.length F.addr [] (tasksFrom 0 body) (vars body) (arrs body) := node_copy l3' cp ⟨f', c1, by rw [c2, k2]⟩
  have loopsC := loops_copy body 0 cp (le_refl w.m.objs.length) l4
  have hj : ∃ j, f'.fmap = some j ∧ w.m.maps.length ≤ j := by
    obtain ⟨d, hd⟩ : ∃ d, w.m.depth = d + 1 := ⟨_, rfl⟩
    rw [hd] at cp
    obtain ⟨-, _, _, _, f'', j, _, _, _, _, e1, e2, e3, -⟩ := cp
    rw [c1] at e1; cases e1
    exact ⟨j, e2, e3⟩
  obtain ⟨j, j1, j2⟩ := hj
  have hlt : ∀ E ∈ F :: rest, E.addr < w.m.objs.length := fun E hE => h.chain.lt hE
  have basesC : ∀ y ∈ (Frame.mk w.m.objs.length (vars body) (arrs body)).bases, y ∈ declared body := by
    intro y hy
    have := block_bases (pre := []) (a := w.m.objs.length) (fun y hy => (hnames y hy).word) (y := y) (by simpa using hy)
    simpa using this
  have st1 := Step.of_grow0 h.chain g1
  have ch1 := h.chain.step' st1
  have hi : Inv q P I env vis (⟨w.m.objs.length, vars body, arrs body⟩ :: F :: rest) { w with m := m1 } := by
    refine ⟨ok1, ⟨⟨_, _, nodeC⟩, ?_, ch1⟩, ?_, ?_, ?_, h.vis, h.wf, h.env, h.sep⟩
    · intro E hE
      refine ⟨?_, fun y hy hy' => hdo y (basesC y hy) (hout E hE y hy')⟩
      have := hlt E hE
      show w.m.objs.length ≠ E.addr
      omega
    · have gl := globals_weaken (U' := fun x => Outside (F :: rest) x ∧ x < w.m.objs.length) (fun a h1 h2 => ⟨h1, h2⟩) h.glob
      refine globals_weaken ?_ (globals_step h.ok h.chain st1 (fun a ha => ha.1) gl)
      rintro a ⟨ha1, ha⟩ - E hE
      rcases List.mem_cons.mp hE with rfl | hE
      · show w.m.objs.length ≠ a
        omega
      · exact ha1 E hE
    · intro E hE y o hy hown
      rcases List.mem_cons.mp hE with rfl | hE
      · exfalso
        obtain ⟨f2, i2, e2, n1, n2, n3, n4, n5, n6, n7, n8, n9⟩ := nodeC
        have h0 : (e2.lookup y).isSome := by
          have : m1.ownFunction w.m.objs.length y = some o := hown
          rw [own_eq n1 n3 n4] at this
          rw [this]; rfl
        rcases n8 y h0 with hv | hv
        · have : base y ∈ declared body := basesC _ (List.mem_append_left _ (List.mem_map_of_mem hv))
          exact hdo _ this (hvo _ hy)
        · have := isWord_notFor (h.vis _ hy).word (y.dropWhile (· != '['))
          rw [base, List.takeWhile_append_dropWhile] at this
          exact this hv
      · exact h.rep.grow0 h.chain g1 E hE y o hy hown
    · intro E hE y hy
      rcases List.mem_cons.mp hE with rfl | hE
      · exact hnames y (basesC y hy)
      · exact h.names E hE y hy
  have hl1 : Loops m1 (Outside (⟨w.m.objs.length, vars body, arrs body⟩ :: F :: rest)) w.m.objs.length 0 body := by
    refine loops_move ?_ (fun _ _ _ _ _ _ _ h => h) (fun _ _ _ _ _ _ _ _ _ => rfl) _ _ _ (fun _ _ => rfl) loopsC
    intro a ha _ E hE
    rcases List.mem_cons.mp hE with rfl | hE
    · show w.m.objs.length ≠ a
      omega
    · have := hlt E hE
      omega
  rw [k6, ← execGen_false (H := H), ← List.append_nil (tasksFrom 0 body)] at c5
  obtain ⟨env1, w4, vis1, b1, b2, b3, b4, b5⟩ := stms_spec (compile_mono H q n) hD hS (outer := declared body ++ outer)
    (F := ⟨w.m.objs.length, vars body, arrs body⟩) (rest := F :: rest) (by
      intro E hE y hy
      rcases List.mem_cons.mp hE with rfl | hE
      · exact List.mem_append_left _ (basesC y hy)
      · exact List.mem_append_right _ (hout E hE y hy))
    body 0 env vis _ _ _ hne hbody (fun st hst => by simpa using block_cov (pre := []) (a := w.m.objs.length) hnames hdn (by simp) hst)
    (fun y hy => List.mem_append_right _ (hvo y hy)) hl1 hi c5 hf
  simp only [execGen, Option.some.injEq, Prod.mk.injEq] at b5
  obtain ⟨rfl, rfl⟩ := b5
  have st : Step (F :: rest) w.m w4.m := step_drop h.chain g1 b4 (by
    rintro i ⟨E, hE, f, e1, e2⟩
    rw [List.mem_singleton] at hE
    subst hE
    have e1' : m1.objs[w.m.objs.length]? = some f := e1
    rw [c1] at e1'; cases e1'
    rw [j1] at e2; cases e2
    exact j2)
  refine ⟨env1, rfl, st, b1, h.after_step b3.ok st ?_ h.vis b3.wf b3.env b3.sep⟩
  intro E hE y o hy hown
  exact b3.rep E (List.mem_cons_of_mem _ hE) y o ((b2 _).mpr (Or.inr hy)) hown

theorem st_loop [Fact q.Prime] (hP : ProgOK P) (hq : 2 ^ 63 ≤ q) {n : Nat} (hE : ExSpec H q P (compile H q n))
    (hE' : ∀ k, k < n → ExSpec H q P (compile H q k) ∧ DeclSpec H q P (compile H q k) ∧ StSpec H q P (compile H q k) ∧ ExitSpec H q P (compile H q k))
    (hS : StSpec H q P (compile H q n)) {I : List Name} {env : Env} {outer vis : List Name}
    {F : Frame} {rest : List Frame} {l r0 step : Ex} {cmp x : Name} {body : List Stm} {i : Nat} {w w' : W} {r : Res}
    (ho : (Stm.loop l cmp r0 x step body).ok P outer vis) (cov : StCov P F (.loop l cmp r0 x step body)) (hout : ∀ E ∈ F :: rest, ∀ y ∈ E.bases, y ∈ outer)
    (hvo : ∀ y ∈ vis, y ∈ outer) (hl : Loop w.m (Outside (F :: rest)) F.addr i (.loop l cmp r0 x step body)) (h : Inv q P I env vis (F :: rest) w)
    (hc : compile H q (n + 1) F.addr (node .forT (forName i) [condTree l cmp r0, setTask (target x []) step]) w = some (r, w')) (hf : Fin q I w') :
    ∃ env', r.ret = false ∧ MemOK w'.m ∧ Step (F :: rest) w.m w'.m ∧ Rep w'.m (F :: rest) (fun y => base y ∈ vis) env' ∧ Apart env' ∧
      ∀ top s2, complete H top r.facs w'.s = some s2 → Sym H q P (.stm top env (.loop l cmp r0 x step body) w.s env' s2) := by
  have ho' := ho
  obtain ⟨o1, o2, o3, o4, -⟩ := ho
  simp only [compile, compileStep, node, Constraint.output, Constraint.inputs, Option.bind_eq_bind, Option.bind_eq_some_iff, Prod.exists] at hc
  obtain ⟨go, w1, h1, h2⟩ := hc
  have hm1 : Mono w1 w' := by
    split at h2
    · simp only [Option.bind_eq_some_iff, Prod.exists] at h2
      obtain ⟨r2, w2, h3, h4⟩ := h2
      have m2 := compile_mono H q n _ _ _ _ _ h3
      split at h4
      · simp only [Option.pure_def, Option.some.injEq, Prod.mk.injEq] at h4
        obtain ⟨-, rfl⟩ := h4
        exact m2
      · simp only [Option.bind_eq_some_iff, Prod.exists] at h4
        obtain ⟨r3, w3, h5, h6⟩ := h4
        exact (m2.trans (compile_mono H q n _ _ _ _ _ h5)).trans (compile_mono H q n _ _ _ _ _ h6)
    · simp only [Option.pure_def, Option.some.injEq, Prod.mk.injEq] at h2
      obtain ⟨-, rfl⟩ := h2
      exact Mono.refl _
  obtain ⟨e1, n1, a, b, sa, sb, ya, yb, hcmp⟩ := static_spec (compile_mono H q n) hE o1 o2 h h1 hf hm1
  have st1 := Step.of_grow0 h.chain n1.grow
  have hi1 : Inv q P I env vis (F :: rest) w1 := h.next n1 (by rw [e1]; exact h.wf) (by rw [e1]; exact h.env)
  have next : ∀ {m' : Mem}, Step (F :: rest) w.m m' → Loop m' (Outside (F :: rest)) F.addr i (.loop l cmp r0 x step body) := fun hs =>
    (Loops.next h.ok hs (List.mem_cons_self (a := F) (l := rest)) (sts := [.loop l cmp r0 x step body]) ⟨hl, trivial⟩).1
  cases go with
  | false =>
    simp only [Bool.false_eq_true, if_false, Option.pure_def, Option.some.injEq, Prod.mk.injEq] at h2
    obtain ⟨rfl, rfl⟩ := h2
    refine ⟨env, rfl, n1.ok, st1, hi1.rep, h.sep, fun top s2 hs => ?_⟩
    rw [complete_nil hs, e1]
    exact .stop ya yb sa sb hcmp
  | true =>
    simp only [if_true, Option.bind_eq_some_iff, Prod.exists] at h2
    obtain ⟨r2, w2, h3, h4⟩ := h2
    cases n with
    | zero => cases h3
    | succ n =>
      obtain ⟨hEn, hDn, hSn, -⟩ := hE' n (Nat.lt_succ_self n)
      have hm2 : Mono w2 w' := by
        split at h4
        · simp only [Option.pure_def, Option.some.injEq, Prod.mk.injEq] at h4
          obtain ⟨-, rfl⟩ := h4
          exact Mono.refl _
        · simp only [Option.bind_eq_some_iff, Prod.exists] at h4
          obtain ⟨r3, w3, h5, h6⟩ := h4
          exact (compile_mono H q _ _ _ _ _ _ h5).trans (compile_mono H q _ _ _ _ _ _ h6)
      obtain ⟨env1, c1, c2, c3, c4⟩ := loop_round hDn hSn ho' hout hvo (next st1) hi1 h3 (hf.mono hm2)
      rw [if_neg (by simp [c1])] at h4
      simp only [Option.bind_eq_some_iff, Prod.exists] at h4
      obtain ⟨r3, w3, h5, h6⟩ := h4
      have hf3 := hf.mono (compile_mono H q _ _ _ _ _ _ h6)
      obtain ⟨ks, g, d1, d2, d3, d4, d5, d6, d7, d8⟩ := set_spec hP hq hEn o3 (by trivial) o4 c4 h5 hf3
      cases d5
      rw [index_nil] at d4 d6
      have st3 : Step (F :: rest) w.m w3.m := (st1.trans h.chain c2).trans h.chain d3
      have rr := ExSpec.res c4 d7
      have hi3 : Inv q P I ((x, r3.facs) :: env1) vis (F :: rest) w3 := c4.after_step d2 d3 d4 c4.vis rr.wf
        ((c4.env.mono c4.wf rr.wf rr.ext).cons rr.good rr.known) (c4.sep.cons d8)
      obtain ⟨env', f1, f2, f3, f4, f6, f5⟩ := hS I _ outer vis F rest (.loop l cmp r0 x step body) i _ w3 r w' rfl rfl (by simp) ho'
        ⟨cov.bases, cov.names, cov.vars⟩ hout hvo (next st3) hi3 h6 hf
      refine ⟨env', f1, f2, st3.trans h.chain f3, f4, f6, fun top s2 hs => ?_⟩
      have c3' : Sym H q P (.stms false env body w.s env1 w2.s) := by rw [← e1]; exact c3
      exact .go ya yb sa sb hcmp c3' d7 d6 (f5 top s2 hs)

/-! ### conditional statements -/

/-- a block without variables does not change -/
theorem step_pop {ch : List Frame} {C : Frame} {m m' : Mem} (hC : C.vs = []) (hs : Step (C :: ch) m m') : Step ch m m' := by
  refine ⟨⟨hs.grow.olen, hs.grow.mlen, hs.grow.objs, fun i hi hn => ?_⟩, fun F hF => hs.keys F (List.mem_cons_of_mem _ hF),
    fun F hF => hs.loops F (List.mem_cons_of_mem _ hF), fun F hF => hs.still F (List.mem_cons_of_mem _ hF)⟩
  by_cases hc : ∃ f : FObj, m.objs[C.addr]? = some f ∧ f.fmap = some i
  · obtain ⟨f, h1, h2⟩ := hc
    exact hs.still C (List.mem_cons_self) hC f i h1 h2
  · refine hs.grow.maps i hi ?_
    rintro ⟨E, hE, f, h1, h2⟩
    rcases List.mem_cons.mp hE with rfl | hE
    · exact hc ⟨f, h1, h2⟩
    · exact hn ⟨E, hE, f, h1, h2⟩

theorem outside_push {m : Mem} {F : Frame} {rest : List Frame} {g : Nat} {ins : List Name} {tasks : List Constraint} (hn : Node m g F.addr ins tasks [] [])
    {a i : Nat} (ha : a ≠ F.addr) {sts : List Stm} (h : Loops m (Outside (F :: rest)) a i sts) : Loops m (Outside (⟨g, [], []⟩ :: F :: rest)) a i sts := by
  obtain ⟨f, _, _, h1, h2, -⟩ := hn
  refine loops_move ?_ (fun _ _ _ _ _ _ _ h => h) (fun _ _ _ _ _ _ _ _ _ => rfl) _ _ _ (fun _ _ => rfl)
    (loops_ctx h1 h2 (fun hU => hU F (by simp) rfl) sts a i ha h)
  rintro x ⟨hx, hg⟩ - E hE
  rcases List.mem_cons.mp hE with rfl | hE
  · exact Ne.symm hg
  · exact hx E hE

theorem globals_push {m : Mem} {F : Frame} {rest : List Frame} {g : Nat} {ins : List Name} {tasks : List Constraint} (hc : Chain m (F :: rest))
    (hn : Node m g F.addr ins tasks [] []) (h : Globals m (Outside (F :: rest)) P) : Globals m (Outside (⟨g, [], []⟩ :: F :: rest)) P := by
  have h0 := hc.ne_zero h F (by simp)
  obtain ⟨f, i, ents, h1, h2, h3, h4, h5, h6, h7⟩ := h
  refine ⟨f, i, ents, h1, h2, h3, h4, h5, h6, fun G hG => ?_⟩
  obtain ⟨b, b1, b2, b3, b4⟩ := h7 G hG
  have hbg : b ≠ g := by
    obtain ⟨fg, _, _, k1, k2, -⟩ := hn
    exact node_ctx k1 k2 b3 (Ne.symm h0)
  refine ⟨b, b1, ?_, b3, outside_push hn (fun he => b2 F (by simp) he.symm) b4⟩
  intro E hE
  rcases List.mem_cons.mp hE with rfl | hE
  · exact Ne.symm hbg
  · exact b2 E hE

/-- a block without variables is entered -/
theorem Inv.push {I : List Name} {env : Env} {vis : List Name} {F : Frame} {rest : List Frame} {w : W} (h : Inv q P I env vis (F :: rest) w)
    {g : Nat} {ins : List Name} {tasks : List Constraint} (hn : Node w.m g F.addr ins tasks [] []) (ho : Outside (F :: rest) g) :
    Inv q P I env vis (⟨g, [], []⟩ :: F :: rest) w := by
  refine ⟨h.ok, ⟨⟨ins, tasks, hn⟩, fun E hE => ⟨Ne.symm (ho E hE), by simp [Frame.bases]⟩, h.chain⟩, globals_push h.chain hn h.glob, ?_, ?_,
    h.vis, h.wf, h.env, h.sep⟩
  · intro E hE y o hy hown
    rcases List.mem_cons.mp hE with rfl | hE
    · exfalso
      obtain ⟨f2, i2, e2, n1, n2, n3, n4, n5, n6, n7, n8, n9⟩ := hn
      have h0 : (e2.lookup y).isSome := by
        have : w.m.ownFunction g y = some o := hown
        rw [own_eq n1 n3 n4] at this
        rw [this]; rfl
      rcases n8 y h0 with hv | hv
      · cases hv
      · have := isWord_notFor (h.vis _ hy).word (y.dropWhile (· != '['))
        rw [base, List.takeWhile_append_dropWhile] at this
        exact this hv
    · exact h.rep E hE y o hy hown
  · intro E hE y hy
    rcases List.mem_cons.mp hE with rfl | hE
    · simp [Frame.bases] at hy
    · exact h.names E hE y hy

theorem no_vars {sts : List Stm} (h : declared sts = []) : vars sts = [] ∧ arrs sts = [] := by
  simp only [declared, List.flatMap_eq_nil_iff] at h
  constructor
  · simp only [vars, List.flatMap_eq_nil_iff]
    intro st hst
    have := h st hst
    cases st <;> simp_all [stVars, Stm.declares]
  · simp only [arrs, List.flatMap_eq_nil_iff]
    intro st hst
    have := h st hst
    cases st <;> simp_all [stArrs, Stm.declares]

theorem ifFree_noExit : ∀ sts : List Stm, ifFrees sts = true → ∀ st ∈ sts, st.isExit = false
  | [], _ => by simp
  | st :: sts, h => by
    simp only [ifFrees, Bool.and_eq_true] at h
    intro x hx
    rcases List.mem_cons.mp hx with rfl | hx
    · cases x <;> simp_all [Stm.ifFree, Stm.isExit]
    · exact ifFree_noExit sts h.2 x hx

/-- the branch of a conditional statement is executed in place -/
theorem branch_spec [Fact q.Prime] {n : Nat} (hD : DeclSpec H q P (compile H q n)) (hS : StSpec H q P (compile H q n)) (hR : RetSpec H q P (compile H q n))
    {I : List Name} {env : Env} {outer vis : List Name} {F : Frame} {rest : List Frame} {body : List Stm} {fin : Option Ex} {c : Nat} {w w' : W} {r : Res}
    (hd : declared body = []) (hne : ∀ st ∈ body, st.isExit = false) (hfin : ∀ e, fin = some e → okEx P vis e)
    (hbody : okStms P outer vis body) (hout : ∀ E ∈ F :: rest, ∀ y ∈ E.bases, y ∈ outer) (hvo : ∀ y ∈ vis, y ∈ outer)
    (hn : Node w.m c F.addr [] (tasksFrom 0 body ++ retTask fin) [] []) (hc : Outside (F :: rest) c) (hl : Loops w.m (Outside (F :: rest)) c 0 body)
    (h : Inv q P I env vis (F :: rest) w) (hx : execTasks (compile H q n) c (tasksFrom 0 body ++ retTask fin) w = some (r, w')) (hf : Fin q I w') :
    ∃ env1 s1, Sym H q P (.stms false env body w.s env1 s1) ∧ MemOK w'.m ∧ Step (F :: rest) w.m w'.m ∧
      Rep w'.m (F :: rest) (fun y => base y ∈ vis) env1 ∧ Apart env1 ∧ (fin = none → r = {} ∧ s1 = w'.s) ∧
      (∀ e, fin = some e → r.ret = true ∧ Sym H q P (.ex env1 e s1 r.facs w'.s)) := by
  obtain ⟨v1, v2⟩ := no_vars hd
  have hi := h.push hn hc
  have hl1 : Loops w.m (Outside (⟨c, [], []⟩ :: F :: rest)) c 0 body := outside_push hn (Ne.symm (hc F (by simp))) hl
  rw [← execGen_false (H := H)] at hx
  obtain ⟨env1, w4, vis1, b1, b2, b3, b4, b5⟩ := stms_spec (compile_mono H q n) hD hS (outer := outer)
    (F := ⟨c, [], []⟩) (rest := F :: rest) (by
      intro E hE y hy
      rcases List.mem_cons.mp hE with rfl | hE
      · simp [Frame.bases] at hy
      · exact hout E hE y hy)
    body 0 env vis _ _ _ hne hbody (fun st hst => by
      have := block_cov (P := P) (pre := []) (a := c) (sts := body) (by simp [hd]) (by simp [hd]) (by simp) hst
      simpa [v1, v2] using this)
    hvo hl1 hi hx hf
  cases fin with
  | none =>
    simp only [retTask, execGen, Option.some.injEq, Prod.mk.injEq] at b5
    obtain ⟨rfl, rfl⟩ := b5
    refine ⟨env1, w4.s, b1, b3.ok, step_pop rfl b4, ?_, b3.sep, fun _ => ⟨rfl, rfl⟩, by simp⟩
    intro E hE y o hy hown
    exact b3.rep E (List.mem_cons_of_mem _ hE) y o ((b2 _).mpr (Or.inr hy)) hown
  | some e =>
    simp only [retTask, execGen, complete, Bool.false_eq_true, if_false, Option.bind_eq_bind, Option.bind_eq_some_iff, Prod.exists, Option.some.injEq] at b5
    obtain ⟨r5, w5, h7, _, rfl, h8⟩ := b5
    have hw : w5 = w' := by
      split at h8
      · simp only [Option.pure_def, Option.some.injEq, Prod.mk.injEq] at h8; exact h8.2
      · simp only [Option.some.injEq, Prod.mk.injEq] at h8; exact h8.2
    subst hw
    obtain ⟨c1, c2, c3⟩ := hR _ _ vis1 _ _ _ _ _ _ (okEx_mono (fun y hy => (b2 y).mpr (Or.inr hy)) _ (hfin e rfl)) b3 h7 hf
    simp only [c1, if_true, Option.pure_def, Option.some.injEq, Prod.mk.injEq, and_true] at h8
    subst h8
    have b3' := b3.after c2 c3
    refine ⟨env1, w4.s, b1, c2.ok, step_pop rfl (b4.trans hi.chain (Step.of_grow0 b3.chain c2.grow)), ?_, b3.sep, by simp, ?_⟩
    · intro E hE y o hy hown
      exact b3'.rep E (List.mem_cons_of_mem _ hE) y o ((b2 _).mpr (Or.inr hy)) hown
    · intro e' he
      cases he
      exact ⟨rfl, c3⟩

theorem cond_spec [Fact q.Prime] {n : Nat}
    (hE' : ∀ k, k < n → ExSpec H q P (compile H q k) ∧ DeclSpec H q P (compile H q k) ∧ StSpec H q P (compile H q k) ∧ ExitSpec H q P (compile H q k))
    {I : List Name} {env : Env} {outer vis : List Name}
    {F : Frame} {rest : List Frame} {l r0 : Ex} {cmp : Name} {body : List Stm} {fin : Option Ex} {i : Nat} {w w' : W} {r : Res}
    (ho : (Stm.cond l cmp r0 body fin).ok P outer vis) (hout : ∀ E ∈ F :: rest, ∀ y ∈ E.bases, y ∈ outer)
    (hvo : ∀ y ∈ vis, y ∈ outer) (hl : Loop w.m (Outside (F :: rest)) F.addr i (.cond l cmp r0 body fin)) (h : Inv q P I env vis (F :: rest) w)
    (hc : compile H q (n + 1) F.addr (node .ifFunctionCall (ifName i)) w = some (r, w')) (hf : Fin q I w') :
    ∃ a b, Sym H q P (.ex env l {} [a] {}) ∧ Sym H q P (.ex env r0 {} [b] {}) ∧ Static q a ∧ Static q b ∧
      ((compareOp cmp a.mul.toNat b.mul.toNat = .ok false ∧ r = {} ∧ w'.s = w.s ∧ Next w w') ∨
        (compareOp cmp a.mul.toNat b.mul.toNat = .ok true ∧
          ∃ env1 s1, Sym H q P (.stms false env body w.s env1 s1) ∧ MemOK w'.m ∧ Step (F :: rest) w.m w'.m ∧
            Rep w'.m (F :: rest) (fun y => base y ∈ vis) env1 ∧ Apart env1 ∧ (fin = none → r = {} ∧ s1 = w'.s) ∧
            (∀ e, fin = some e → r.ret = true ∧ Sym H q P (.ex env1 e s1 r.facs w'.s)))) := by
  obtain ⟨o1, o2, -, hd, hfree, hfin, hbody⟩ := ho
  have hne := ifFree_noExit body hfree
  obtain ⟨v1, v2⟩ := no_vars hd
  obtain ⟨b, c, l1, l2, l3, l4, l5, l6, ⟨ctx, l7, l8⟩, l9⟩ := hl
  rw [v1, v2] at l8
  simp only [compile, compileStep, node, Constraint.output] at hc
  rw [find_own l1] at hc
  have l3' := l3
  obtain ⟨fb, ib, eb, k1, k2, k3, k4, k5, k6, -⟩ := l3'
  simp only [Option.bind_eq_bind, Option.bind_some, execFunction, k1, k6, execTasks, Option.bind_eq_some_iff, Prod.exists] at hc
  obtain ⟨r1, w1, h1, h2⟩ := hc
  cases n with
  | zero => cases h1
  | succ n =>
    obtain ⟨hEn, -, -, -⟩ := hE' n (Nat.lt_succ_self n)
    simp only [compile, compileStep, node, Constraint.output, Constraint.inputs, Option.bind_eq_bind, Option.bind_eq_some_iff, Prod.exists] at h1
    obtain ⟨go, w2, h3, h4⟩ := h1
    have hiB := h.push l3 l2
    -- the end of the state
    have hw : w1 = w' := by
      split at h2
      · simp only [Option.pure_def, Option.some.injEq, Prod.mk.injEq] at h2; exact h2.2
      · simp only [Option.some.injEq, Prod.mk.injEq] at h2; exact h2.2
    subst hw
    have hm2 : Mono w2 w1 := by
      split at h4
      · exact compile_mono H q n _ _ _ _ _ h4
      · simp only [Option.pure_def, Option.some.injEq, Prod.mk.injEq] at h4
        obtain ⟨-, rfl⟩ := h4
        exact Mono.refl _
    obtain ⟨e1, n1, a, b', sa, sb, ya, yb, hcmp⟩ := static_spec (compile_mono H q n) hEn o1 o2 hiB h3 hf hm2
    have st1 := Step.of_grow0 h.chain n1.grow
    have hi1 : Inv q P I env vis (F :: rest) w2 := h.next n1 (by rw [e1]; exact h.wf) (by rw [e1]; exact h.env)
    cases go with
    | false =>
      simp only [Bool.false_eq_true, if_false, Option.pure_def, Option.some.injEq, Prod.mk.injEq] at h4
      obtain ⟨rfl, rfl⟩ := h4
      simp only [Bool.false_eq_true, if_false, Option.some.injEq, Prod.mk.injEq, and_true] at h2
      subst h2
      exact ⟨a, b', ya, yb, sa, sb, Or.inl ⟨hcmp, rfl, e1, n1⟩⟩
    | true =>
      simp only [if_true] at h4
      cases n with
      | zero => cases h4
      | succ n =>
        obtain ⟨-, hDn, hSn, -⟩ := hE' n (by omega)
        have hRn : RetSpec H q P (compile H q n) := ret_spec fun k hk => (hE' k (by omega)).1
        have grow : ∀ {x ctx ins tasks vs as}, Node w.m x ctx ins tasks vs as → Node w2.m x ctx ins tasks vs as := fun hx =>
          node_grow n1.grow (fun _ _ _ _ => id) hx
        have own : ∀ {x ctx ins tasks vs as}, Node w.m x ctx ins tasks vs as → ∀ k, w2.m.ownFunction x k = w.m.ownFunction x k := fun hx k => by
          obtain ⟨f, i, ents, h1, h2, h3, h4⟩ := hx.obj
          exact own_grow n1.grow h1 h3 h4 (by simp) k
        have lb : Node w2.m b F.addr [] _ [] [] := grow l3
        have lc : Node w2.m c ctx [] (tasksFrom 0 body ++ retTask fin) [] [] := grow l8
        have ll : Loops w2.m (Outside (F :: rest)) c 0 body := loops_move (fun _ h _ => h) (fun _ _ _ _ _ _ _ h => grow h)
          (fun _ _ _ _ _ _ _ h k => own h k) body c 0 (fun k _ => own l8 k) l9
        simp only [compile, compileStep, Constraint.output] at h4
        rw [find_own (by rw [own l3]; exact l4)] at h4
        have lc' := lc
        obtain ⟨fc, ic, ec, c1, -, -, -, -, c6, -⟩ := lc'
        simp only [Option.bind_eq_bind, Option.bind_some, execFunction, c1, c6] at h4
        have main : ∃ env1 s1, Sym H q P (.stms false env body w2.s env1 s1) ∧ MemOK w1.m ∧ Step (F :: rest) w2.m w1.m ∧
            Rep w1.m (F :: rest) (fun y => base y ∈ vis) env1 ∧ Apart env1 ∧ (fin = none → r1 = {} ∧ s1 = w1.s) ∧
            (∀ e, fin = some e → r1.ret = true ∧ Sym H q P (.ex env1 e s1 r1.facs w1.s)) := by
          rcases l7 with rfl | rfl
          · exact branch_spec hDn hSn hRn hd hne hfin hbody hout hvo lc l5 ll hi1 h4 hf
          · have hc' : Outside (⟨ctx, [], []⟩ :: F :: rest) c := by
              intro E hE
              rcases List.mem_cons.mp hE with rfl | hE
              · exact l6
              · exact l5 E hE
            obtain ⟨env1, s1, d2, d3, d4, d5, d6⟩ := branch_spec (F := ⟨ctx, [], []⟩) (rest := F :: rest) hDn hSn hRn hd hne hfin hbody (by
              intro E hE y hy
              rcases List.mem_cons.mp hE with rfl | hE
              · simp [Frame.bases] at hy
              · exact hout E hE y hy) hvo lc hc' (outside_push lb (Ne.symm (l5 F (by simp))) ll) (hi1.push lb l2) h4 hf
            exact ⟨env1, s1, d2, d3, step_pop rfl d4, fun E hE => d5 E (List.mem_cons_of_mem _ hE), d6⟩
        obtain ⟨env1, s1, d2, d3, d4, d5, d6, d7, d8⟩ := main
        rw [e1] at d2
        refine ⟨a, b', ya, yb, sa, sb, Or.inr ⟨hcmp, env1, s1, d2, d3, st1.trans h.chain d4, d5, d6, ?_, ?_⟩⟩
        · intro hn
          obtain ⟨rfl, rfl⟩ := d7 hn
          simp only [Bool.false_eq_true, if_false, Option.some.injEq, Prod.mk.injEq, and_true] at h2
          exact ⟨h2.symm, rfl⟩
        · intro e he
          obtain ⟨k1, k2⟩ := d8 e he
          simp only [k1, if_true, Option.pure_def, Option.some.injEq, Prod.mk.injEq, and_true] at h2
          subst h2
          exact ⟨rfl, k2⟩

theorem st_cond [Fact q.Prime] {n : Nat}
    (hE' : ∀ k, k < n → ExSpec H q P (compile H q k) ∧ DeclSpec H q P (compile H q k) ∧ StSpec H q P (compile H q k) ∧ ExitSpec H q P (compile H q k))
    {I : List Name} {env : Env} {outer vis : List Name}
    {F : Frame} {rest : List Frame} {l r0 : Ex} {cmp : Name} {body : List Stm} {i : Nat} {w w' : W} {r : Res}
    (ho : (Stm.cond l cmp r0 body none).ok P outer vis) (hout : ∀ E ∈ F :: rest, ∀ y ∈ E.bases, y ∈ outer)
    (hvo : ∀ y ∈ vis, y ∈ outer) (hl : Loop w.m (Outside (F :: rest)) F.addr i (.cond l cmp r0 body none)) (h : Inv q P I env vis (F :: rest) w)
    (hc : compile H q (n + 1) F.addr (node .ifFunctionCall (ifName i)) w = some (r, w')) (hf : Fin q I w') :
    ∃ env', r.ret = false ∧ MemOK w'.m ∧ Step (F :: rest) w.m w'.m ∧ Rep w'.m (F :: rest) (fun y => base y ∈ vis) env' ∧ Apart env' ∧
      ∀ top s2, complete H top r.facs w'.s = some s2 → Sym H q P (.stm top env (.cond l cmp r0 body none) w.s env' s2) := by
  obtain ⟨a, b, ya, yb, sa, sb, ⟨hcmp, rfl, e1, n1⟩ | ⟨hcmp, env1, s1, d2, d3, d4, d5, d6, d7, -⟩⟩ := cond_spec hE' ho hout hvo hl h hc hf
  · have hi1 : Inv q P I env vis (F :: rest) w' := h.next n1 (by rw [e1]; exact h.wf) (by rw [e1]; exact h.env)
    refine ⟨env, rfl, n1.ok, Step.of_grow0 h.chain n1.grow, hi1.rep, h.sep, fun top s2 hs => ?_⟩
    rw [complete_nil hs, e1]
    exact .skip ya yb sa sb hcmp
  · obtain ⟨rfl, rfl⟩ := d7 rfl
    refine ⟨env1, rfl, d3, d4, d5, d6, fun top s2 hs => ?_⟩
    rw [complete_nil hs]
    exact .take ya yb sa sb hcmp d2

theorem exit_spec [Fact q.Prime] {n : Nat}
    (hE' : ∀ k, k < n → ExSpec H q P (compile H q k) ∧ DeclSpec H q P (compile H q k) ∧ StSpec H q P (compile H q k) ∧ ExitSpec H q P (compile H q k)) :
    ExitSpec H q P (compile H q (n + 1)) := by
  intro I env outer vis F rest l cmp r0 body e i w r w' ho hout hvo hl h hc hf
  obtain ⟨a, b, ya, yb, sa, sb, h1 | ⟨hcmp, env1, s1, d2, d3, d4, d5, d6, -, d8⟩⟩ := cond_spec hE' ho hout hvo hl h hc hf
  · exact ⟨a, b, ya, yb, sa, sb, Or.inl h1⟩
  · obtain ⟨k1, k2⟩ := d8 e rfl
    exact ⟨a, b, ya, yb, sa, sb, Or.inr ⟨hcmp, k1, d3, d4, env1, s1, d2, k2⟩⟩

/-! ### everything -/

theorem ex_step [Fact q.Prime] (hP : ProgOK P) (hq : 2 ^ 63 ≤ q) {n : Nat} (hE : ExSpec H q P (compile H q n))
    (hE' : ∀ k, k < n → ExSpec H q P (compile H q k)) (hD : DeclSpec H q P (compile H q n)) (hS : StSpec H q P (compile H q n))
    (hX : ExitSpec H q P (compile H q n)) {I : List Name} {env : Env} {vis : List Name} {F : Frame} {rest : List Frame} {w w' : W} {r : Res}
    (h : Inv q P I env vis (F :: rest) w) (hf : Fin q I w') : ∀ (e : Ex), okEx P vis e → compile H q (n + 1) F.addr (tree e) w = some (r, w') →
    r.ret = false ∧ Next w w' ∧ Sym H q P (.ex env e w.s r.facs w'.s)
  | .num t, ho, hc => by
    simp only [tree, compile, compileStep, Constraint.output, Option.map_eq_some_iff, Prod.mk.injEq] at hc
    obtain ⟨f, h1, rfl, rfl⟩ := hc
    exact ⟨rfl, Next.refl h.ok, .num ho h1⟩
  | .var x, ho, hc => ex_var hP ho h hc hf
  | .paren e, ho, hc => by
    obtain ⟨a, b, c⟩ := ex_step hP hq hE hE' hD hS hX h hf e ho (by rw [tree] at hc; exact hc)
    exact ⟨a, b, .paren c⟩
  | .bin op l r, ho, hc => ex_bin hE ho h hc hf
  | .arr a is, ho, hc => ex_arr hP hq hE ho h hc hf
  | .call f args, ho, hc => ex_call hP hE hE' hD hS hX ho h hc hf

/-- every step of the compiler on the heap is a step of the symbolic compilation -/
theorem sim [Fact q.Prime] (hP : ProgOK P) (hq : 2 ^ 63 ≤ q) (n : Nat) :
    ExSpec H q P (compile H q n) ∧ DeclSpec H q P (compile H q n) ∧ StSpec H q P (compile H q n) ∧
      ExitSpec H q P (compile H q n) := by
  induction n using Nat.strong_induction_on with
  | _ n ih =>
    cases n with
    | zero =>
      refine ⟨?_, ?_, ?_, ?_⟩
      · intro I env vis F rest e k w r w' _ _ _ hc; cases hc
      · intro I env vis F rest V y ks e w r w' _ _ _ _ hc; cases hc
      · intro I env outer vis F rest st i t w r w' _ _ _ _ _ _ _ _ _ hc; cases hc
      · intro I env outer vis F rest l cmp r0 body e i w r w' _ _ _ _ _ hc; cases hc
    | succ n =>
      obtain ⟨hE, hD, hS, hX⟩ := ih n (Nat.lt_succ_self n)
      have hE' : ∀ k, k < n → ExSpec H q P (compile H q k) := fun k hk => (ih k (by omega)).1
      refine ⟨?_, ?_, ?_, exit_spec fun k hk => ih k (by omega)⟩
      · intro I env vis F rest e k w r w' ho hk h hc hf
        by_cases he : k = tree e
        · subst he
          exact ex_step hP hq hE hE' hD hS hX h hf e ho hc
        · rw [ex_wrap hk he] at hc
          exact hE I env vis F rest e _ w r w' ho (Or.inl rfl) h hc hf
      · intro I env vis F rest V y ks e w r w' hy ho h hrep hc hf
        exact decl_spec hP hE hy ho h hrep hc hf
      · intro I env outer vis F rest st i t w r w' hst ht hnd ho cov hout hvo hl h hc hf
        cases st with
        | decl x e =>
          simp only [stTasks, List.cons.injEq, and_true] at ht
          subst ht
          exact st_decl hP hE ho cov h hc hf
        | declArr a es => exact (hnd a es rfl).elim
        | assign x idx e =>
          simp only [stTasks, List.cons.injEq, and_true] at ht
          subst ht
          exact st_assign hP hq hE ho h hc hf
        | call f args =>
          simp only [stTasks, List.cons.injEq, and_true] at ht
          subst ht
          exact st_call hP hE hE' hD hS hX ho h hc hf
        | loop l cmp r0 x step body =>
          simp only [stTasks, List.cons.injEq, and_true] at ht
          subst ht
          exact st_loop hP hq hE (fun k hk => ih k (by omega)) hS ho cov hout hvo hl h hc hf
        | cond l cmp r0 body fin =>
          cases fin with
          | some e => cases hst
          | none =>
          simp only [stTasks, List.cons.injEq, and_true] at ht
          subst ht
          exact st_cond (fun k hk => ih k (by omega)) ho hout hvo hl h hc hf

end APS.Prog
