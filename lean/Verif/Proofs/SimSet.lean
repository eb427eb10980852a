import Verif.Proofs.Sim

/-! The compiler on the heap: operators, assignments, static conditions, arguments of calls. -/
namespace APS.Prog
open APS.Lex (Token TokenType)
open APS.Parse (Constraint)
open APS.Circuit
open APS.LangSpec (builtins Stm Fun isWord okEx okExs okStms find kwBase kwEqual kwSplit compareOp)
open APS.ParseSpec (Ex indexText tree trees)
open APS.Sym (Sym Static sym_wf arithGate complete)

variable {H : Name → Nat} {q : Nat} {P : List Fun}

/-! ### operators -/

theorem operate_eq {comp : Comp} {cur : Nat} {b : Bool} {op : Token} {l r : Constraint} {w w' : W} {res : Res} (ht : op.type = .arithmetic)
    (h : operate H q comp cur b [.mk op [], l, r] w = some (res, w')) :
    ∃ (x : Res) (w1 : W) (y : Res) (w2 : W) (f : Factors) (s : St), comp cur l w = some (x, w1) ∧ comp cur r w1 = some (y, w2) ∧
      arithGate H q op.text x.facs y.facs w2.s = some (f, s) ∧ res = { facs := f, ret := b } ∧ w' = { w2 with s := s } := by
  simp only [operate] at h
  rw [if_pos (show (Constraint.mk op []).output.type = .arithmetic from ht)] at h
  unfold arithGate
  split at h
  · rename_i ho
    replace ho : op.text = ['*'] := ho
    simp only [Option.bind_eq_bind, Option.bind_eq_some_iff, Prod.exists, Option.pure_def, Option.some.injEq, Prod.mk.injEq] at h
    obtain ⟨x, w1, h1, y, w2, h2, f, s, h3, rfl, rfl⟩ := h
    exact ⟨x, w1, y, w2, f, s, h1, h2, by rw [if_pos ho]; exact h3, rfl, rfl⟩
  · rename_i ho
    replace ho : ¬ op.text = ['*'] := ho
    split at h
    · rename_i ho1
      replace ho1 : op.text = ['/'] := ho1
      simp only [Option.bind_eq_bind, Option.bind_eq_some_iff, Prod.exists, Option.pure_def, Option.some.injEq, Prod.mk.injEq] at h
      obtain ⟨x, w1, h1, y, w2, h2, f, s, h3, rfl, rfl⟩ := h
      exact ⟨x, w1, y, w2, f, s, h1, h2, by rw [if_neg ho, if_pos ho1]; exact h3, rfl, rfl⟩
    · rename_i ho1
      replace ho1 : ¬ op.text = ['/'] := ho1
      split at h
      · rename_i ho2
        replace ho2 : op.text = ['+'] := ho2
        simp only [Option.bind_eq_bind, Option.bind_eq_some_iff, Prod.exists, Option.pure_def, Option.some.injEq, Prod.mk.injEq] at h
        obtain ⟨x, w1, h1, y, w2, h2, rfl, rfl⟩ := h
        exact ⟨x, w1, y, w2, _, w2.s, h1, h2, by rw [if_neg ho, if_neg ho1, if_pos ho2], rfl, rfl⟩
      · rename_i ho2
        replace ho2 : ¬ op.text = ['+'] := ho2
        split at h
        · rename_i ho3
          replace ho3 : op.text = ['-'] := ho3
          simp only [Option.bind_eq_bind, Option.bind_eq_some_iff, Prod.exists, Option.pure_def, Option.some.injEq, Prod.mk.injEq] at h
          obtain ⟨x, w1, h1, y, w2, h2, rfl, rfl⟩ := h
          exact ⟨x, w1, y, w2, _, w2.s, h1, h2, by rw [if_neg ho, if_neg ho1, if_neg ho2, if_pos ho3], rfl, rfl⟩
        · cases h

theorem wrap_left (l r : Ex) : Wrap l (if !l.single && r.single then .mk ⟨.unassigned, APS.ParseSpec.spell (APS.ParseSpec.write l.core)⟩ [tree l] else tree l) := by
  split
  · exact Or.inr ⟨_, rfl⟩
  · exact Or.inl rfl

theorem wrap_right (l r : Ex) : Wrap r (if l.single && !r.single then .mk ⟨.unassigned, APS.ParseSpec.spell (APS.ParseSpec.write r.core)⟩ [tree r] else tree r) := by
  split
  · exact Or.inr ⟨_, rfl⟩
  · exact Or.inl rfl

theorem arith_computed {op : Name} {l r f : Factors} {s s' : St} (h : arithGate H q op l r s = some (f, s')) :
    Grows s s' := by
  unfold arithGate at h
  split at h
  · exact mul_computed h
  · split at h
    · exact div_computed h
    · split at h
      · simp at h; obtain ⟨-, rfl⟩ := h; exact Grows.refl _
      · split at h
        · simp at h; obtain ⟨-, rfl⟩ := h; exact Grows.refl _
        · cases h

theorem ex_bin [Fact q.Prime] {n : Nat} (hE : ExSpec H q P (compile H q n)) {I : List Name} {env : Env} {vis : List Name}
    {F : Frame} {rest : List Frame} {w w' : W} {op : Token} {l r : Ex} {res : Res} (ho : okEx P vis (.bin op l r))
    (h : Inv q P I env vis (F :: rest) w) (hc : compile H q (n + 1) F.addr (tree (.bin op l r)) w = some (res, w')) (hf : Fin q I w') :
    res.ret = false ∧ Next w w' ∧ Sym H q P (.ex env (.bin op l r) w.s res.facs w'.s) := by
  obtain ⟨ht, -, hl, hr⟩ := ho
  simp only [tree, compile, compileStep, Constraint.output, Constraint.inputs] at hc
  obtain ⟨x, w1, y, w2, f, s, h1, h2, h3, rfl, rfl⟩ := operate_eq ht hc
  have hf2 : Fin q I w2 := hf.mono (Mono.gates (arith_computed h3))
  have hf1 := hf2.mono (compile_mono H q _ _ _ _ _ _ h2)
  obtain ⟨-, n1, s1⟩ := hE _ _ _ _ _ _ _ _ _ _ hl (wrap_left l r) h h1 hf1
  have hi1 := h.after n1 s1
  obtain ⟨-, n2, s2⟩ := hE _ _ _ _ _ _ _ _ _ _ hr (wrap_right l r) hi1 h2 hf2
  exact ⟨rfl, ⟨n1.grow.trans n2.grow, n2.ok⟩, .bin s1 s2 h3⟩

theorem ex_wrap {n : Nat} {cur : Nat} {e : Ex} {k : Constraint} {w : W} (hk : Wrap e k) (h : k ≠ tree e) :
    compile H q (n + 1) cur k w = compile H q n cur (tree e) w := by
  rcases hk with rfl | ⟨t, rfl⟩
  · exact (h rfl).elim
  · simp only [compile, compileStep, Constraint.output, Constraint.inputs]

/-! ### assignments -/

theorem assign_core {I : List Name} {env : Env} {vis : List Name} {F : Frame} {rest : List Frame} {w w' : W} {V : Name → Prop}
    {nm : Name} {r r' : Res} (h : Inv q P I env vis (F :: rest) w) (hrep : Rep w.m (F :: rest) V env) (hsep : Sep r.facs) (hne : r.facs ≠ [])
    (hfor : ¬ IsFor nm) (hglob : ¬ (nm = "main".toList ∨ nm ∈ P.map Fun.name)) (ha : assignTo q F.addr nm r w = some (r', w')) :
    r' = { facs := r.facs } ∧ w'.s = w.s ∧ w'.thrown = w.thrown ∧ MemOK w'.m ∧ Step (F :: rest) w.m w'.m ∧
      Rep w'.m (F :: rest) (fun y => V y ∨ y = nm) ((nm, r.facs) :: env) ∧ ∃ E ∈ F :: rest, (w.m.ownFunction E.addr nm).isSome := by
  simp only [assignTo, Option.bind_eq_bind, Option.bind_eq_some_iff, if_neg hne, Prod.exists] at ha
  obtain ⟨owner, h1, a, m1, h2, m2, h3, h4⟩ := ha
  simp only [Option.pure_def, Option.some.injEq, Prod.mk.injEq] at h4
  obtain ⟨rfl, rfl⟩ := h4
  obtain ⟨-, ok1, g1, v1, -⟩ := store_spec q _ h.ok hne hsep h2
  rcases owner_chain h.chain rfl h1 with ⟨E, hE, rfl, ho⟩ | ⟨n', hg⟩
  · have st1 := Step.of_grow0 h.chain g1
    have c1 := h.chain.step' st1
    have ho1 : (m1.ownFunction E.addr nm).isSome := by rw [st1.keys E hE]; exact ho
    obtain ⟨ok2, st2, rp⟩ := set_var ok1 c1 hE ho1 hfor (hrep.grow0 h.chain g1) v1 h3
    exact ⟨rfl, rfl, rfl, ok2, st1.trans h.chain st2, rp, E, hE, ho⟩
  · exact (hglob (h.glob.owner hg)).elim

theorem assign_kept {cur : Nat} {nm : Name} {r r' : Res} {w w' : W} (hne : r.facs ≠ []) (ha : assignTo q cur nm r w = some (r', w')) :
    r.facs ∈ w'.kept := by
  simp only [assignTo, Option.bind_eq_bind, Option.bind_eq_some_iff, if_neg hne, Prod.exists] at ha
  obtain ⟨owner, h1, a, m1, h2, m2, h3, h4⟩ := ha
  simp only [Option.pure_def, Option.some.injEq, Prod.mk.injEq] at h4
  obtain ⟨-, rfl⟩ := h4
  simp

/-- what a task does to the variables -/
structure After (q : Nat) (P : List Fun) (ch : List Frame) (w w' : W) (V : Name → Prop) (env' : Env) : Prop where
  ok : MemOK w'.m
  step : Step ch w.m w'.m
  rep : Rep w'.m ch V env'

/-- the next state after a statement -/
theorem Inv.after_step {I : List Name} {env env' : Env} {vis vis' : List Name} {ch : List Frame} {w w' : W}
    (h : Inv q P I env vis ch w) (ok : MemOK w'.m) (st : Step ch w.m w'.m) (rp : Rep w'.m ch (fun x => base x ∈ vis') env')
    (hv : ∀ y ∈ vis', NameOK P y) (wf : WF I w'.s) (ev : EnvOK I q env' w'.s) (ap : Apart env') : Inv q P I env' vis' ch w' :=
  ⟨ok, h.chain.step' st, globals_step h.ok h.chain st (fun a ha F hF => ha F hF) h.glob, rp, h.names, hv, wf, ev, ap⟩

theorem form_sep [Fact q.Prime] {I : List Name} {env : Env} {vis : List Name} {ch : List Frame} {w w' : W} {e : Ex} {f : Factors}
    (h : Inv q P I env vis ch w) (hs : Sym H q P (.ex env e w.s f w'.s)) (hf : ∀ n ∈ I ++ w'.s.c.computed, Plain n)
    (hd : (f.map (·.tok.ident)).Nodup) : Sep f ∧ Callable f ∧ f ≠ [] := by
  have r := ExSpec.res h hs
  obtain ⟨a, b⟩ := good_sep r.good r.known hf hd
  exact ⟨a, b, r.good.ne⟩

/-- the declaration of a variable or of an element -/
theorem decl_spec [Fact q.Prime] (hP : ProgOK P) {n : Nat} (hE : ExSpec H q P (compile H q n)) {I : List Name} {env : Env} {vis : List Name}
    {F : Frame} {rest : List Frame} {w w' : W} {V : Name → Prop} {y : Name} {ks : List Nat} {e : Ex} {r : Res} (hy : NameOK P y)
    (ho : okEx P vis e) (h : Inv q P I env vis (F :: rest) w) (hrep : Rep w.m (F :: rest) V env)
    (hc : compile H q (n + 1) F.addr (setTask (.mk ⟨.varDeclare, y ++ indexText ks⟩ []) e) w = some (r, w')) (hf : Fin q I w') :
    r.ret = false ∧ MemOK w'.m ∧ Step (F :: rest) w.m w'.m ∧
      Rep w'.m (F :: rest) (fun x => V x ∨ x = y ++ indexText ks) ((y ++ indexText ks, r.facs) :: env) ∧
      Sym H q P (.ex env e w.s r.facs w'.s) ∧ (r.facs.map (·.tok.ident)).Nodup := by
  simp only [setTask, node, compile, compileStep, Constraint.output, Constraint.inputs, targetName, reduceCtorEq, if_false,
    Option.bind_eq_bind, Option.bind_eq_some_iff, Prod.exists, Option.some.injEq, Prod.mk.injEq] at hc
  obtain ⟨nm, w0, ⟨rfl, rfl⟩, r1, w1, h1, h2⟩ := hc
  have hm : Mono w1 w' := by
    simp only [assignTo, Option.bind_eq_bind, Option.bind_eq_some_iff] at h2
    obtain ⟨o, -, h2⟩ := h2
    split at h2
    · simp only [Option.bind_eq_some_iff, Option.pure_def, Option.some.injEq, Prod.mk.injEq] at h2
      obtain ⟨m2, -, -, rfl⟩ := h2
      exact Mono.heap _ _
    · simp only [Option.bind_eq_some_iff, Prod.exists, Option.pure_def, Option.some.injEq, Prod.mk.injEq] at h2
      obtain ⟨_, _, -, m2, -, -, rfl⟩ := h2
      exact Mono.keep _ _ _
  have hf1 := hf.mono hm
  obtain ⟨-, n1, s1⟩ := hE _ _ _ _ _ _ _ _ _ _ ho (Or.inl rfl) h h1 hf1
  have hd := hf.kept _ (assign_kept (ExSpec.res h s1).good.ne h2)
  obtain ⟨a1, -, a3⟩ := form_sep h s1 hf1.plain hd
  have h' := h.after n1 s1
  obtain ⟨rfl, b1, -, b3, b4, b5, -⟩ := assign_core h' (hrep.grow0 h.chain n1.grow) a1 a3 (isWord_notFor hy.word _)
    (not_global hP hy) h2
  refine ⟨rfl, b3, (Step.of_grow0 h.chain n1.grow).trans h.chain b4, b5, ?_, hd⟩
  rw [b1]; exact s1

/-- an assignment -/
theorem set_spec [Fact q.Prime] (hP : ProgOK P) (hq : 2 ^ 63 ≤ q) {n : Nat} (hE : ExSpec H q P (compile H q n)) {I : List Name} {env : Env} {vis : List Name}
    {F : Frame} {rest : List Frame} {w w' : W} {x : Name} {idx : List Ex} {e : Ex} {r : Res} (hx : x ∈ vis) (hidx : okExs P vis idx)
    (ho : okEx P vis e) (h : Inv q P I env vis (F :: rest) w)
    (hc : compile H q (n + 1) F.addr (setTask (target x idx) e) w = some (r, w')) (hf : Fin q I w') :
    ∃ ks g, r.ret = false ∧ MemOK w'.m ∧ Step (F :: rest) w.m w'.m ∧
      Rep w'.m (F :: rest) (fun x => base x ∈ vis) ((x ++ indexText ks, r.facs) :: env) ∧ Sym H q P (.idx env idx ks) ∧
      env.lookup (x ++ indexText ks) = some g ∧ Sym H q P (.ex env e w.s r.facs w'.s) ∧ (r.facs.map (·.tok.ident)).Nodup := by
  simp only [setTask, node, compile, compileStep, Constraint.output, Constraint.inputs,
    Option.bind_eq_bind, Option.bind_eq_some_iff, Prod.exists] at hc
  obtain ⟨nm, w0, h0, r1, w1, h1, h2⟩ := hc
  have hm : Mono w1 w' := by
    simp only [assignTo, Option.bind_eq_bind, Option.bind_eq_some_iff] at h2
    obtain ⟨o, -, h2⟩ := h2
    split at h2
    · simp only [Option.bind_eq_some_iff, Option.pure_def, Option.some.injEq, Prod.mk.injEq] at h2
      obtain ⟨m2, -, -, rfl⟩ := h2
      exact Mono.heap _ _
    · simp only [Option.bind_eq_some_iff, Prod.exists, Option.pure_def, Option.some.injEq, Prod.mk.injEq] at h2
      obtain ⟨_, _, -, m2, -, -, rfl⟩ := h2
      exact Mono.keep _ _ _
  have hf1 := hf.mono hm
  have hf0 := hf1.mono (compile_mono H q _ _ _ _ _ _ h1)
  have htarget : w0.s = w.s ∧ Next w w0 ∧ ∃ ks, Sym H q P (.idx env idx ks) ∧ nm = x ++ indexText ks := by
    cases idx with
    | nil =>
      simp only [target, targetName, Constraint.output, reduceCtorEq, if_false, Option.some.injEq, Prod.mk.injEq] at h0
      obtain ⟨rfl, rfl⟩ := h0
      exact ⟨rfl, Next.refl h.ok, [], .idxNil, by simp [indexText]⟩
    | cons i is =>
      simp only [target, targetName, Constraint.output, Constraint.inputs, if_true] at h0
      exact idx_spec hq (compile_mono H q n) hE _ _ _ _ _ hidx h h0 hf0
  obtain ⟨e1, n0, ks, s0, rfl⟩ := htarget
  have hi0 : Inv q P I env vis (F :: rest) w0 := h.next n0 (by rw [e1]; exact h.wf) (by rw [e1]; exact h.env)
  obtain ⟨-, n1, s1⟩ := hE _ _ _ _ _ _ _ _ _ _ ho (Or.inl rfl) hi0 h1 hf1
  have hd := hf.kept _ (assign_kept (ExSpec.res hi0 s1).good.ne h2)
  obtain ⟨a1, -, a3⟩ := form_sep hi0 s1 hf1.plain hd
  have h' := hi0.after n1 s1
  have hy := h.vis x hx
  obtain ⟨rfl, b1, -, b3, b4, b5, E, hE', b6⟩ := assign_core h' h'.rep a1 a3 (isWord_notFor hy.word _) (not_global hP hy) h2
  obtain ⟨o, hown⟩ := Option.isSome_iff_exists.mp b6
  obtain ⟨g, hg, -⟩ := h'.rep E hE' _ o (by show base _ ∈ vis; rw [base_word hy.word]; exact hx) hown
  refine ⟨ks, g, rfl, b3, ((Step.of_grow0 h.chain n0.grow).trans h.chain (Step.of_grow0 hi0.chain n1.grow)).trans h.chain b4,
    b5.mono (fun _ _ _ _ hb => Or.inl hb), s0, hg, ?_, hd⟩
  rw [b1, ← e1]; exact s1

/-! ### static conditions -/

theorem cond_tree (l : Ex) (cmp : Name) (r : Ex) : ∃ t wl wr, condTree l cmp r = .mk t [.mk ⟨.comparator, cmp⟩ [], wl, wr] ∧ Wrap l wl ∧ Wrap r wr :=
  ⟨_, _, _, by rw [condTree, tree], wrap_left l r, wrap_right l r⟩

theorem static_spec {comp : Comp} (hm : MonoC comp) (hE : ExSpec H q P comp) {I : List Name} {env : Env} {vis : List Name} {F : Frame}
    {rest : List Frame} {w w' : W} {l r : Ex} {cmp : Name} {go : Bool} (hl : okEx P vis l) (hr : okEx P vis r) (h : Inv q P I env vis (F :: rest) w)
    (hc : checkStatic comp F.addr (condTree l cmp r) w = some (go, w')) {wf : W} (hf : Fin q I wf) (hmf : Mono w' wf) :
    w'.s = w.s ∧ Next w w' ∧ ∃ a b, Static q a ∧ Static q b ∧ Sym H q P (.ex env l {} [a] {}) ∧ Sym H q P (.ex env r {} [b] {}) ∧
      compareOp cmp a.mul.toNat b.mul.toNat = .ok go := by
  obtain ⟨t, wl, wr, he, wl1, wr1⟩ := cond_tree l cmp r
  rw [he] at hc
  simp only [checkStatic, Constraint.inputs, Option.bind_eq_bind, Option.bind_eq_some_iff, Prod.exists] at hc
  obtain ⟨x, w1, h1, y, w2, h2, h3⟩ := hc
  have hw' : w' = { w2 with s := w.s, thrown := w2.thrown ++ [(x.facs, w1.s), (y.facs, w2.s)] } := by
    split at h3
    · split at h3
      · repeat' split at h3
        all_goals first | (cases h3; rfl) | cases h3
      · cases h3
    · cases h3
  have th2 : w2.thrown ++ [(x.facs, w1.s), (y.facs, w2.s)] ⊆ wf.thrown := by rw [hw'] at hmf; exact hmf.thrown
  have cmp0 : w.s.c.computed ⊆ wf.s.c.computed := by rw [hw'] at hmf; exact hmf.computed
  have th12 : w1.thrown ⊆ w2.thrown := (hm _ _ _ _ _ h2).thrown
  have ke2 : w2.kept ⊆ wf.kept := by rw [hw'] at hmf; exact hmf.kept
  have ke1 : w1.kept ⊆ wf.kept := fun _ h => ke2 ((hm _ _ _ _ _ h2).kept h)
  obtain ⟨e1, n1, a, ha, sa, ya⟩ := static_operand hm hE hl wl1 h h1 hf (th2 (by simp)) (fun t ht => th2 (by simp [th12 ht])) ke1 cmp0
  have hi1 : Inv q P I env vis (F :: rest) { w1 with s := w.s } := h.next ⟨n1.grow, n1.ok⟩ h.wf h.env
  obtain ⟨e2, n2, b, hb, sb, yb⟩ := static_operand hm hE hr wr1 hi1 h2 hf (th2 (by simp)) (fun t ht => th2 (by simp [ht])) ke2 cmp0
  have nn : Next w w' := by rw [hw']; exact ⟨n1.grow.trans n2.grow, n2.ok⟩
  refine ⟨by rw [hw'], nn, a, b, sa, sb, ya, yb, ?_⟩
  rw [ha, hb] at h3
  simp only [sa.num, sb.num, Bool.and_self, if_true, Constraint.output] at h3
  have pa := sa.pos
  have pb := sb.pos
  unfold compareOp
  simp only [show "==".toList = ['=', '='] from rfl, show "!=".toList = ['!', '='] from rfl, show ">".toList = ['>'] from rfl,
    show ">=".toList = ['>', '='] from rfl, show "<".toList = ['<'] from rfl, show "<=".toList = ['<', '='] from rfl] at h3
  have key : ∀ (p p' : Prop) [Decidable p] [Decidable p'], (p ↔ p') → decide p = go → (Except.ok (decide p') : Except APS.LangSpec.Err Bool) = .ok go := by
    intro p p' _ _ hp hd
    rw [← hd]
    congr 1
    exact decide_eq_decide.mpr hp.symm
  repeat' split at h3
  all_goals first | (simp only [Option.pure_def, Option.some.injEq, Prod.mk.injEq] at h3) | cases h3
  all_goals rename_i hc1
  · rw [if_pos hc1]; exact key _ _ (by omega) h3.1
  · rename_i hc2; rw [if_neg hc2, if_pos hc1]; exact key _ _ (by omega) h3.1
  · rename_i hc2 hc3; rw [if_neg hc3, if_neg hc2, if_pos hc1]; exact key _ _ (by omega) h3.1
  · rename_i hc2 hc3 hc4; rw [if_neg hc4, if_neg hc3, if_neg hc2, if_pos hc1]; exact key _ _ (by omega) h3.1
  · rename_i hc2 hc3 hc4 hc5; rw [if_neg hc5, if_neg hc4, if_neg hc3, if_neg hc2, if_pos hc1]; exact key _ _ (by omega) h3.1
  · rename_i hc2 hc3 hc4 hc5 hc6; rw [if_neg hc6, if_neg hc5, if_neg hc4, if_neg hc3, if_neg hc2, if_pos hc1]; exact key _ _ (by omega) h3.1

/-! ### arguments -/

theorem args_spec [Fact q.Prime] {comp : Comp} (hm : MonoC comp) (hE : ExSpec H q P comp) {I : List Name} {env : Env} {vis : List Name} {F : Frame}
    {rest : List Frame} : ∀ (es : List Ex) (w w' : W) (as : List Nat), okExs P vis es → Inv q P I env vis (F :: rest) w →
    callArgs q comp F.addr (trees es) w = some (as, w') → Fin q I w' →
    Next w w' ∧ ∃ fs, Sym H q P (.exs env es w.s fs w'.s) ∧ List.Forall₂ (Val w'.m) fs as ∧ ∀ f ∈ fs, (f.map (·.tok.ident)).Nodup := by
  intro es
  induction es with
  | nil =>
    intro w w' as _ h hc _
    simp only [trees, callArgs, Option.some.injEq, Prod.mk.injEq] at hc
    obtain ⟨rfl, rfl⟩ := hc
    exact ⟨Next.refl h.ok, [], .exsNil, .nil, by simp⟩
  | cons e es ih =>
    intro w w' as hok h hc hf
    simp only [trees, callArgs, Option.bind_eq_bind, Option.bind_eq_some_iff, Prod.exists] at hc
    obtain ⟨r, w1, h1, h2⟩ := hc
    have hmono : Mono w1 w' := by
      split at h2
      · simp only [Option.bind_eq_some_iff, Prod.exists, Option.pure_def, Option.some.injEq, Prod.mk.injEq] at h2
        obtain ⟨as', w2, h3, -, rfl⟩ := h2
        exact (Mono.heap _ _).trans (args_mono hm h3)
      · simp only [Option.bind_eq_some_iff, Prod.exists, Option.pure_def, Option.some.injEq, Prod.mk.injEq] at h2
        obtain ⟨_, _, -, as', w2, h3, -, rfl⟩ := h2
        exact (Mono.keep _ _ _).trans (args_mono hm h3)
    have hf1 := hf.mono hmono
    obtain ⟨-, n1, s1⟩ := hE _ _ _ _ _ _ _ _ _ _ hok.1 (Or.inl rfl) h h1 hf1
    have a3 := (ExSpec.res h s1).good.ne
    have h' := h.after n1 s1
    rw [if_neg a3] at h2
    simp only [Option.bind_eq_some_iff, Prod.exists, Option.pure_def, Option.some.injEq, Prod.mk.injEq] at h2
    obtain ⟨a, m2, h3, as', w2, h4, rfl, rfl⟩ := h2
    have hd : (r.facs.map (·.tok.ident)).Nodup := hf.kept _ ((args_mono hm h4).kept (by simp))
    obtain ⟨a1, -, -⟩ := form_sep h s1 hf1.plain hd
    obtain ⟨-, ok2, g2, v2, -⟩ := store_spec q _ h'.ok a3 a1 h3
    have h2' : Inv q P I env vis (F :: rest) { w1 with m := m2, kept := w1.kept ++ [r.facs] } := h'.next ⟨g2, ok2⟩ h'.wf h'.env
    obtain ⟨n3, fs, s3, f3, d3⟩ := ih _ _ _ hok.2 h2' h4 hf
    exact ⟨⟨(n1.grow.trans g2).trans n3.grow, n3.ok⟩, r.facs :: fs, .exsCons s1 s3, .cons (v2.grow0 n3.grow) f3, List.forall_mem_cons.mpr ⟨hd, d3⟩⟩

end APS.Prog
