import Verif.Proofs.HeapSim

/-! A clean run of the heap model is a run of the value model: `compile` and `Execute`. -/
namespace APS.Alias
open APS.Circuit APS.Prog
open APS.Parse (Constraint)
open APS.Lex (TokenType)

variable {H : Name → Nat} {q : Nat} {hc : HComp} {vc : Comp}

theorem breakArgs_sim (F : Faith hc vc) {cur : Nat} (vs : List Constraint) : ∀ {w w' : HW},
    hBreakArgs hc cur vs w = some w' → Step w w' (breakArgs vc cur vs w.rd = some w'.rd) := by
  induction vs with
  | nil =>
    intro w w' h
    cases h
    exact Step.refl fun _ => rfl
  | cons v vs ih =>
    intro w w' h
    simp only [hBreakArgs, Option.bind_eq_bind, Option.bind_eq_some_iff, Prod.exists] at h
    obtain ⟨r, w1, h1, h2⟩ := h
    refine ((F _ _ _ _ _ h1).trans (ih h2)).imp fun _ _ _ ⟨_, _, _, ⟨_, k1⟩, k2⟩ => ?_
    simp only [breakArgs, k1, k2, Option.bind_eq_bind, Option.bind_some]

theorem callFunction_sim (F : Faith hc vc) {cur : Nat} {name : Name} {is : List Constraint} {r : Res} {w w' : HW}
    (h : hCallFunction H q hc cur name is w = some (r, w')) :
    Step w w' (okRes w'.cells r ∧ callFunction H q vc cur name is w.rd = some (rdRes w'.cells r, w'.rd)) := by
  unfold hCallFunction at h
  unfold callFunction
  by_cases e1 : name = "BREAK".toList
  · rw [if_pos e1] at h ⊢
    simp only [Option.bind_eq_bind, Option.bind_eq_some_iff] at h
    obtain ⟨w1, h1, h2⟩ := h
    cases h2
    refine (breakArgs_sim F _ h1).imp fun _ _ _ k => ⟨okRes_nil, ?_⟩
    simp only [k, Option.bind_eq_bind, Option.bind_some, rdRes_nil]
    rfl
  rw [if_neg e1] at h ⊢
  by_cases e2 : name = "SPLIT".toList
  · rw [if_pos e2] at h ⊢
    rcases is with _ | ⟨a, _ | ⟨b, is⟩⟩
    · cases h
    · simp only [Option.bind_eq_bind, Option.bind_eq_some_iff, Prod.exists] at h
      obtain ⟨x, w1, h1, s, cs, h2, h3⟩ := h
      cases h3
      have s1 := F _ _ _ _ _ h1
      refine ⟨s1.1, fun c g => ?_⟩
      obtain ⟨a1, a2, k1, k2⟩ := s1.2 c g
      obtain ⟨j1, j2, j3⟩ := hSplitGate_spec a1.one a1.st h2
      refine ⟨⟨a1.mem.mono j1, j2, a1.one.trans j1⟩, a2.trans j1, okRes_nil, ?_⟩
      have j3' : splitGate H q (rdRes w1.cells x).facs w1.rd.s = some (rdSt cs s) := j3
      simp only [k2, j3', Option.bind_eq_bind, Option.bind_some, rdRes_nil]
      simp only [HW.rd, rdMem_mono j1 a1.mem]
      rfl
    · cases h
  rw [if_neg e2] at h ⊢
  by_cases e3 : name = "AND".toList ∨ name = "NAND".toList ∨ name = "OR".toList ∨ name = "NOT".toList
  · rw [if_pos e3] at h
    cases h
  rw [if_neg e3] at h ⊢
  by_cases e4 : name = "addGateConstraint".toList
  · rw [if_pos e4] at h ⊢
    rcases is with _ | ⟨a, _ | ⟨b, _ | ⟨c, is⟩⟩⟩
    · cases h
    · cases h
    · simp only [Option.bind_eq_bind, Option.bind_eq_some_iff, Prod.exists] at h
      obtain ⟨x, w1, h1, y, w2, h2, f, s, cs, h3, h4⟩ := h
      cases h4
      have s1 := two_sim F h1 h2
      refine ⟨s1.1, fun c g => ?_⟩
      obtain ⟨a1, a2, k1, k2, k3, k4⟩ := s1.2 c g
      obtain ⟨j1, j2, j3, j4⟩ := hAddGateConstraint_spec a1.one a1.st h3
      refine ⟨⟨a1.mem.mono j1, j3, a1.one.trans j1⟩, a2.trans j1, okRes_facs j2, ?_⟩
      have j4' : addGateConstraint H q (rdRes w2.cells x).facs (rdRes w2.cells y).facs w2.rd.s = some (rdFs cs f, rdSt cs s) := j4
      simp only [k3, k4, j4', Option.bind_eq_bind, Option.bind_some, rdRes_facs]
      simp only [HW.rd, rdMem_mono j1 a1.mem]
      rfl
    · cases h
  rw [if_neg e4] at h ⊢
  by_cases e5 : name = "scalarBaseMultiply".toList
  · rw [if_pos e5] at h ⊢
    rcases is with _ | ⟨a, _ | ⟨b, is⟩⟩
    · cases h
    · simp only [Option.bind_eq_bind, Option.bind_eq_some_iff, Prod.exists] at h
      obtain ⟨x, w1, h1, f, s, h2, h3⟩ := h
      cases h3
      have s1 := F _ _ _ _ _ h1
      refine ⟨s1.1, fun c g => ?_⟩
      obtain ⟨a1, a2, k1, k2⟩ := s1.2 c g
      obtain ⟨j1, j2, j3⟩ := hBaseGate_spec a1.one k1.1 a1.st h2
      refine ⟨⟨a1.mem, j2, a1.one⟩, a2, okRes_facs j1, ?_⟩
      have j3' : baseGate H (rdRes w1.cells x).facs w1.rd.s = some (rdFs w1.cells f, rdSt w1.cells s) := j3
      simp only [k2, j3', Option.bind_eq_bind, Option.bind_some, rdRes_facs]
      rfl
    · cases h
  rw [if_neg e5] at h ⊢
  by_cases e6 : name = "equal".toList
  · rw [if_pos e6] at h ⊢
    rcases is with _ | ⟨a, _ | ⟨b, _ | ⟨c, is⟩⟩⟩
    · cases h
    · cases h
    · simp only [Option.bind_eq_bind, Option.bind_eq_some_iff, Prod.exists] at h
      obtain ⟨x, w1, h1, y, w2, h2, s, g', h3, h4⟩ := h
      cases h4
      have s1 := two_sim F h1 h2
      refine ⟨s1.1, fun c g => ?_⟩
      obtain ⟨a1, a2, k1, k2, k3, k4⟩ := s1.2 c g
      obtain ⟨j1, j2, j3⟩ := hAdd_spec (post := id) (post' := id) a1.st ⟨k1.1, k2.1, okFs_nil, okFs_nil⟩ (fun g hg => hg) (fun g => rfl) h3
      refine ⟨⟨a1.mem, j1, a1.one⟩, a2, okRes_nil, ?_⟩
      have j3' : St.add H w2.rd.s { typ := .equality, left := (rdRes w2.cells x).facs, right := (rdRes w2.cells y).facs, noNew := true } =
        some (rdSt w2.cells s, rdGate w2.cells g') := j3
      simp only [k3, k4, j3', Option.bind_eq_bind, Option.bind_some, rdRes_nil]
      rfl
    · cases h
  rw [if_neg e6] at h ⊢
  exact callUser_sim F h

theorem targetName_sim (F : Faith hc vc) {cur : Nat} {x : Constraint} {n : Name} {w w' : HW}
    (h : hTargetName hc cur x w = some (n, w')) : Step w w' (targetName vc cur x w.rd = some (n, w'.rd)) := by
  unfold hTargetName at h
  unfold targetName
  split at h
  · rename_i e
    rw [if_pos e]
    exact resolveArray_sim F _ h
  · rename_i e
    rw [if_neg e]
    cases h
    exact Step.refl fun _ => rfl

theorem assignTo_sim {cur : Nat} {name : Name} {r r' : Res} {w w' : HW} (h : hAssignTo q cur name r w = some (r', w'))
    (hr : okRes w.cells r) :
    Step w w' (okRes w'.cells r' ∧ assignTo q cur name (rdRes w.cells r) w.rd = some (rdRes w'.cells r', w'.rd)) := by
  simp only [hAssignTo, Option.bind_eq_bind, Option.bind_eq_some_iff] at h
  obtain ⟨o, h1, h2⟩ := h
  have e1 : w.rd.m.findOwner w.rd.m.depth (some cur) name = some o := by
    have : w.rd.m = rdMem w.cells w.m := rfl
    rw [this, findOwner_rd, rdMem_depth, h1]
  split at h2
  · rename_i e
    simp only [Option.bind_eq_some_iff] at h2
    obtain ⟨m, h3, h4⟩ := h2
    cases h4
    refine Step.more rfl fun g => ⟨List.prefix_rfl, setFunction_ok h3 (alloc_ok hr.2 g.mem), g.st, okRes_nil, ?_⟩
    have e2 : w.rd.m.alloc (rdRes w.cells r).fkt = ((w.m.alloc r.fkt).1, rdMem w.cells (w.m.alloc r.fkt).2) := alloc_rd _
    have e3 : (rdMem w.cells (w.m.alloc r.fkt).2).setFunction o name (w.m.alloc r.fkt).1 = some (rdMem w.cells m) := by
      rw [setFunction_rd, h3]
      rfl
    simp only [assignTo, e1, Option.bind_eq_bind, Option.bind_some]
    rw [if_pos (show (rdRes w.cells r).facs = [] by simp [rdRes, e])]
    simp only [e2, e3, Option.bind_some, rdRes_nil]
    rfl
  · rename_i e
    simp only [Option.bind_eq_some_iff, Prod.exists] at h2
    obtain ⟨a, m, cs, h3, m', h4, h5⟩ := h2
    cases h5
    refine Step.more rfl fun g => ?_
    obtain ⟨b1, b2, b3⟩ := hStore_spec r.facs g.one hr.1 g.mem h3
    refine ⟨b1, setFunction_ok h4 b2, g.st.mono b1, okRes_facs (hr.1.mono b1), ?_⟩
    have e2 : store q (rdRes w.cells r).facs w.rd.m = some (a, rdMem cs m) := b3
    have e3 : (rdMem cs m).setFunction o name a = some (rdMem cs m') := by
      rw [setFunction_rd, h4]
      rfl
    simp only [assignTo, e1, Option.bind_eq_bind, Option.bind_some]
    rw [if_neg (show ¬ (rdRes w.cells r).facs = [] by simp [rdRes, e])]
    simp only [e2, e3, Option.bind_some, rdRes_facs, rdFs_mono b1 hr.1]
    simp only [HW.rd, rdSt_mono b1 g.st]
    rfl

theorem assignTo_clean {cur : Nat} {name : Name} {r r' : Res} {w w' : HW} (h : hAssignTo q cur name r w = some (r', w')) :
    w'.clean = w.clean := by
  simp only [hAssignTo, Option.bind_eq_bind, Option.bind_eq_some_iff] at h
  obtain ⟨o, _, h4⟩ := h
  split at h4
  · simp only [Option.bind_eq_some_iff] at h4
    obtain ⟨m, _, h5⟩ := h4
    cases h5
    rfl
  · simp only [Option.bind_eq_some_iff, Prod.exists] at h4
    obtain ⟨_, _, _, _, _, _, h5⟩ := h4
    cases h5
    rfl

theorem findFunction_HW {w : HW} (cur : Option Nat) (k : Name) :
    w.rd.m.findFunction w.rd.m.depth cur k = w.m.findFunction w.m.depth cur k := by
  have : w.rd.m = rdMem w.cells w.m := rfl
  rw [this, findFunction_rd, rdMem_depth]

theorem findConstraint_HW {w : HW} (cur : Option Nat) (k : Name) :
    w.rd.m.findConstraint w.rd.m.depth cur k = w.m.findConstraint w.m.depth cur k := by
  have : w.rd.m = rdMem w.cells w.m := rfl
  rw [this, findConstraint_rd, rdMem_depth]

theorem step_sim (F : Faith hc vc) (S : Shares hc) : Faith (hCompileStep H q hc) (compileStep H q vc) := by
  intro cur k w r w' h
  have op : ∀ b, hOperate H q hc cur b k.inputs w = some (r, w') →
      Step w w' (okRes w'.cells r ∧ operate H q vc cur b k.inputs w.rd = some (rdRes w'.cells r, w'.rd)) :=
    fun b h => operate_sim F S h
  unfold hCompileStep at h
  unfold compileStep
  split at h
  · -- number
    rename_i e
    simp only [e]
    obtain ⟨⟨f, cs⟩, h1, h2⟩ := Option.map_eq_some_iff.mp h
    cases h2
    obtain ⟨f', h3, h4⟩ := Option.map_eq_some_iff.mp h1
    refine Step.more rfl fun g => ?_
    obtain ⟨a1, a2, a3⟩ := newForm_spec f' w.cells
    rw [h4] at a1 a2 a3
    refine ⟨a1, g.mem.mono a1, g.st.mono a1, okRes_facs a2, ?_⟩
    simp only [h3, Option.map_some, rdRes_facs, a3]
    simp only [HW.rd, rdMem_mono a1 g.mem, rdSt_mono a1 g.st]
  · -- identifier
    rename_i e
    simp only [e]
    simp only [Option.bind_eq_bind, Option.bind_eq_some_iff] at h
    obtain ⟨a, h1, f, h2, h3⟩ := h
    simp only [findFunction_HW, h1, rd_objs, h2, Option.map_some, Option.bind_eq_bind, Option.bind_some, rdObj_isNumber,
      rdObj_inputs, rdObj_name]
    split at h3
    · rename_i e1
      cases h3
      rw [if_pos e1]
      refine Step.refl fun g => ⟨okRes_facs (okFs_cons.mpr ⟨g.mem f (List.mem_of_getElem? h2) e1, okFs_nil⟩), ?_⟩
      rw [rdRes_facs, rdObj_value e1]
      rfl
    · rename_i e1
      rw [if_neg e1]
      split at h3
      · rename_i e2
        rw [if_pos e2]
        simp only [Option.bind_eq_some_iff] at h3
        obtain ⟨con, h4, h5⟩ := h3
        simp only [findConstraint_HW, h4, Option.bind_some]
        exact F _ _ _ _ _ h5
      · rename_i e2
        rw [if_neg e2]
        cases h3
        exact Step.refl fun g => ⟨⟨okFs_nil, g.mem f (List.mem_of_getElem? h2)⟩, rfl⟩
  · -- for
    rename_i e
    simp only [e]
    split at h
    · rename_i c step tl hi
      simp only [hi]
      simp only [Option.bind_eq_bind, Option.bind_eq_some_iff, Prod.exists] at h
      obtain ⟨go, w1, h1, h2⟩ := h
      have s1 := checkStatic_sim F h1
      split at h2
      · rename_i e1
        simp only [Option.bind_eq_some_iff, Prod.exists] at h2
        obtain ⟨r1, w2, h3, h4⟩ := h2
        have s2 := s1.trans (F _ _ _ _ _ h3)
        split at h4
        · rename_i e2
          cases h4
          refine s2.imp fun _ _ _ ⟨_, _, _, k1, k2, k3⟩ => ⟨k2, ?_⟩
          simp only [k1, Option.bind_eq_bind, Option.bind_some]
          rw [if_pos e1]
          simp only [k3, Option.bind_some]
          rw [if_pos (show (rdRes w'.cells r1).ret = true from e2)]
          rfl
        · rename_i e2
          simp only [Option.bind_eq_some_iff, Prod.exists] at h4
          obtain ⟨r2, w3, h5, h6⟩ := h4
          refine ((s2.trans (F _ _ _ _ _ h5)).trans (F _ _ _ _ _ h6)).imp
            fun _ _ _ ⟨_, _, _, ⟨_, _, _, ⟨_, _, _, k1, k2, k3⟩, k4, k5⟩, k6, k7⟩ => ⟨k6, ?_⟩
          simp only [k1, Option.bind_eq_bind, Option.bind_some]
          rw [if_pos e1]
          simp only [k3, Option.bind_some]
          rw [if_neg (show ¬ (rdRes w2.cells r1).ret = true from e2)]
          simp only [k5, Option.bind_some, k7]
      · rename_i e1
        cases h2
        refine s1.imp fun _ _ _ k => ⟨okRes_nil, ?_⟩
        simp only [k, Option.bind_eq_bind, Option.bind_some, rdRes_nil]
        rw [if_neg e1]
        rfl
    · cases h
  · -- unassigned
    rename_i e
    simp only [e]
    split at h
    · rename_i hi
      simp only [hi]
      simp only [Option.bind_eq_bind, Option.bind_eq_some_iff] at h
      obtain ⟨f, h1, con, h2, h3⟩ := h
      simp only [rd_objs, h1, Option.map_some, Option.bind_eq_bind, Option.bind_some, rdObj_cmap, h2]
      exact F _ _ _ _ _ h3
    · rename_i c hi
      simp only [hi]
      exact F _ _ _ _ _ h
    · rename_i n1 n2
      split
      · rename_i hi
        exact absurd hi n1
      · rename_i c hi
        exact absurd hi (n2 c)
      · exact op _ h
  · -- return
    rename_i e
    simp only [e]
    split at h
    · rename_i hi
      simp only [hi]
      cases h
      refine Step.more rfl fun g => ⟨prefix_snoc _ _, g.mem.mono (prefix_snoc _ _), g.st.mono (prefix_snoc _ _),
        okRes_facs (okFs_cons.mpr ⟨ok_new _ _, okFs_nil⟩), ?_⟩
      simp only [rdRes_facs, HW.rd]
      rw [rdMem_mono (prefix_snoc _ _) g.mem, rdSt_mono (prefix_snoc _ _) g.st]
      simp only [rdFs_cons, rdFs_nil, rdF, val_new]
    · rename_i c hi
      simp only [hi]
      simp only [Option.bind_eq_bind, Option.bind_eq_some_iff, Prod.exists] at h
      obtain ⟨r1, w1, h1, h2⟩ := h
      cases h2
      refine (F _ _ _ _ _ h1).imp fun _ _ _ ⟨k1, k2⟩ => ⟨k1, ?_⟩
      simp only [k2, Option.bind_eq_bind, Option.bind_some]
      rfl
    · rename_i n1 n2
      split
      · rename_i hi
        exact absurd hi n1
      · rename_i c hi
        exact absurd hi (n2 c)
      · exact op _ h
  · -- argument
    rename_i e
    simp only [e]
    cases h
    refine Step.more rfl fun g => ⟨prefix_snoc _ _, g.mem.mono (prefix_snoc _ _), g.st.mono (prefix_snoc _ _),
      okRes_facs (okFs_arg (ok_new _ _)), ?_⟩
    simp only [rdRes_facs, HW.rd]
    rw [rdMem_mono (prefix_snoc _ _) g.mem, rdSt_mono (prefix_snoc _ _) g.st]
    simp only [rdFs_arg, val_new]
  · -- overload
    rename_i e
    simp only [e]
    split at h
    · rename_i x ex hi
      simp only [hi]
      simp only [Option.bind_eq_bind, Option.bind_eq_some_iff, Prod.exists] at h
      obtain ⟨n, w1, h1, r1, w2, h2, h3⟩ := h
      have s1 := (targetName_sim F h1).trans (F _ _ _ _ _ h2)
      have hcl := assignTo_clean h3
      refine ⟨fun c => s1.1 (hcl ▸ c), fun c g => ?_⟩
      obtain ⟨a1, a2, _, _, _, k1, k2, k3⟩ := s1.2 (hcl ▸ c) g
      obtain ⟨b1, b2, b3, b4⟩ := (assignTo_sim h3 k2).2 c a1
      refine ⟨b1, a2.trans b2, b3, ?_⟩
      simp only [k1, k3, b4, Option.bind_eq_bind, Option.bind_some]
    · cases h
  · -- array element
    rename_i e
    simp only [e]
    simp only [Option.bind_eq_bind, Option.bind_eq_some_iff, Prod.exists] at h
    obtain ⟨n, w1, h1, con, h2, r1, w2, h3, h4⟩ := h
    cases h4
    refine ((resolveArray_sim F _ h1).trans (F _ _ _ _ _ h3)).imp fun _ _ _ ⟨_, _, _, k1, k2, k3⟩ => ⟨k2, ?_⟩
    simp only [k1, findConstraint_HW, h2, k3, Option.bind_eq_bind, Option.bind_some]
    rfl
  · -- if
    rename_i e
    simp only [e]
    split at h
    · rename_i hi
      simp only [hi]
      exact F _ _ _ _ _ h
    · rename_i c tl hi
      simp only [hi]
      simp only [Option.bind_eq_bind, Option.bind_eq_some_iff, Prod.exists] at h
      obtain ⟨go, w1, h1, h2⟩ := h
      have s1 := checkStatic_sim F h1
      split at h2
      · rename_i e1
        refine (s1.trans (F _ _ _ _ _ h2)).imp fun _ _ _ ⟨_, _, _, k1, k2, k3⟩ => ⟨k2, ?_⟩
        simp only [k1, Option.bind_eq_bind, Option.bind_some]
        rw [if_pos e1, k3]
      · rename_i e1
        cases h2
        refine s1.imp fun _ _ _ k => ⟨okRes_nil, ?_⟩
        simp only [k, Option.bind_eq_bind, Option.bind_some, rdRes_nil]
        rw [if_neg e1]
        rfl
  · -- if function
    rename_i e
    simp only [e]
    simp only [Option.bind_eq_bind, Option.bind_eq_some_iff] at h
    obtain ⟨a, h1, h2⟩ := h
    simp only [findFunction_HW, h1, Option.bind_eq_bind, Option.bind_some]
    exact execFunction_sim F h2
  · -- call
    rename_i e
    simp only [e]
    exact callFunction_sim F h
  · -- the rest
    split
    all_goals first
      | (rename_i e; exfalso; simp_all; done)
      | exact op _ h

theorem compile_sim (n : Nat) : Faith (hCompile H q n) (Prog.compile H q n) := by
  induction n with
  | zero => intro cur k w r w' h; cases h
  | succ n ih => exact fun cur k w r w' h => step_sim ih (compile_own n) cur k w r w' h

theorem executeTasks_sim {n main : Nat} (ts : List Constraint) : ∀ {f : Factors} {w w' : HW},
    hExecuteTasks H q n main ts w = some (f, w') →
    Step w w' (okFs w'.cells f ∧ executeTasks H q n main ts w.rd = some (rdFs w'.cells f, w'.rd)) := by
  induction ts with
  | nil =>
    intro f w w' h
    cases h
    exact Step.refl fun _ => ⟨okFs_nil, rfl⟩
  | cons t ts ih =>
    intro f w w' h
    simp only [hExecuteTasks, Option.bind_eq_bind, Option.bind_eq_some_iff, Prod.exists] at h
    obtain ⟨r, w1, h1, s, h2, h3⟩ := h
    have s1 := compile_sim n _ _ _ _ _ h1
    have s2 : Step w { w1 with s := s } ((okRes w1.cells r ∧ Prog.compile H q n main t w.rd = some (rdRes w1.cells r, w1.rd)) ∧
        completeFunction H (rdRes w1.cells r).facs w1.rd.s = some (rdSt w1.cells s)) := ⟨s1.1, fun c g => by
      obtain ⟨a1, a2, k1, k2⟩ := s1.2 c g
      obtain ⟨j1, j2⟩ := hComplete_spec a1.one k1.1 a1.st h2
      exact ⟨⟨a1.mem, j1, a1.one⟩, a2, ⟨k1, k2⟩, j2⟩⟩
    split at h3
    · rename_i e
      cases h3
      refine s2.imp fun _ _ _ ⟨⟨k1, k2⟩, k3⟩ => ⟨k1.1, ?_⟩
      simp only [executeTasks, k2, k3, Option.bind_eq_bind, Option.bind_some]
      rw [if_pos (show (rdRes w1.cells r).ret = true from e)]
      rfl
    · rename_i e
      refine (s2.trans (ih h3)).imp fun _ _ _ ⟨_, _, _, ⟨⟨k1, k2⟩, k3⟩, k4, k5⟩ => ⟨k4, ?_⟩
      simp only [executeTasks, k2, k3, Option.bind_eq_bind, Option.bind_some]
      rw [if_neg (show ¬ (rdRes w1.cells r).ret = true from e)]
      exact k5

/-- no function object of a parsed program holds a number -/
def NoNumbers (m : Mem) : Prop := ∀ f ∈ m.objs, f.isNumber = false

theorem execute_sim {n : Nat} {m : Mem} {cs : Cells} {f : Factors} {w : HW} (hm : NoNumbers m) (h0 : cells0 <+: cs)
    (h : hExecute H q n m cs = some (f, w)) (hc : w.clean = true) :
    Prog.execute H q n m = some (rdFs w.cells f, w.rd) ∧ cs <+: w.cells := by
  simp only [hExecute, Option.bind_eq_bind, Option.bind_eq_some_iff] at h
  obtain ⟨main, h1, o, h2, h3⟩ := h
  have g : Good { m := m, cells := cs } := ⟨fun f hf e => absurd (e.symm.trans (hm f hf)) (by decide), okSt_nil, h0⟩
  obtain ⟨_, p, _, k⟩ := (executeTasks_sim _ h3).2 hc g
  refine ⟨?_, p⟩
  have hrd : rdMem cs m = m := by
    have : m.objs.map (rdObj cs) = m.objs := (List.map_congr_left (g := id) fun f hf => rdObj_plain (hm f hf)).trans (List.map_id _)
    unfold rdMem
    rw [this]
  have : ({ m := m, cells := cs } : HW).rd = { m := m } := by
    simp only [HW.rd, hrd]
    rfl
  rw [this] at k
  simp only [Prog.execute, h1, h2, Option.bind_eq_bind, Option.bind_some, k]

end APS.Alias
