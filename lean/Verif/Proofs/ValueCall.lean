import Verif.Proofs.Value
import Verif.Proofs.Mono

/-! Calling a stored value. -/
namespace APS.Prog
open APS.Lex (Token TokenType)
open APS.Parse (Constraint)
open APS.Circuit
open APS.LangSpec (builtins)

theorem update_same {m : Mem} {a : Nat} {f : FObj} (g : FObj → FObj) (h : m.objs[a]? = some f) (hg : g f = f) : m.update a g = m := by
  unfold Mem.update
  have : m.objs.modify a g = m.objs := by
    apply List.ext_getElem?
    intro b
    rw [List.getElem?_modify]
    split
    · rename_i e; subst e; rw [h]; simp [hg]
    · simp
  rw [this]

theorem find_own {m : Mem} {a o : Nat} {k : Name} (h : m.ownFunction a k = some o) : m.findFunction m.depth (some a) k = some o := by
  simp [Mem.depth, Mem.findFunction, h]

/-- The call of a function without arguments: a copy is executed. -/
theorem callUser_nil {q : Nat} {comp : Comp} {cur : Nat} {name : Name} {w w' : W} {r : Res} {o : Nat} {f : FObj} (hok : MemOK w.m)
    (h : callUser q comp cur name [] w = some (r, w')) (hf : w.m.findFunction w.m.depth (some cur) name = some o)
    (ho : w.m.objs[o]? = some f) (hi : f.inputs = []) :
    ∃ (m1 : Mem) (r1 : Res) (f' : FObj), MemOK m1 ∧ Grow0 w.m m1 ∧ CopyOf w.m.depth w.m.objs.length w.m.maps.length w.m o m1 w.m.objs.length ∧
      m1.objs[w.m.objs.length]? = some f' ∧ f'.context = f.context ∧ f'.tasks = f.tasks ∧ f'.inputs = [] ∧
      execTasks comp w.m.objs.length f.tasks { w with m := m1 } = some (r1, w') ∧ r = { r1 with ret := false } := by
  simp only [callUser, Option.bind_eq_bind, Option.bind_eq_some_iff, Prod.exists] at h
  obtain ⟨o', h1, nxt, m1, h2, as, w2, h3, b, m2, h4, h5⟩ := h
  rw [hf] at h1; cases h1
  obtain ⟨rfl, ok1, g1, c1, f0, f', e1, e2, e3⟩ := flatCopy_spec _ hok h2
  rw [ho] at e1; cases e1
  simp only [callArgs, Option.some.injEq, Prod.mk.injEq] at h3
  obtain ⟨rfl, rfl⟩ := h3
  have hc : f'.inputs = f.inputs ∧ f'.tasks = f.tasks := by
    have hd : w.m.depth = w.m.objs.length + 1 := rfl
    rw [hd] at c1
    obtain ⟨_, f0, i0, ents0, f1, j, ents', k1, k2, k3, k4, k5, _, k6, k7, _, k8, _⟩ := c1
    rw [ho] at k1; cases k1
    rw [e2] at k4; cases k4
    exact ⟨k7, k8⟩
  simp only [loadArgs, Option.bind_eq_bind, e2, Option.bind_some, hc.1, hi] at h4
  simp only [List.length_nil, lt_self_iff_false, if_false, List.zip_nil_left, List.foldlM_nil, Option.pure_def, Option.bind_some,
    List.drop_nil, Option.some.injEq, Prod.mk.injEq, decide_true] at h4
  obtain ⟨rfl, rfl⟩ := h4
  rw [update_same _ e2 (by rw [← hi, ← hc.1])] at h5
  simp only [if_true, Option.bind_eq_some_iff, Prod.exists, execFunction, Option.bind_eq_bind] at h5
  obtain ⟨r1, w1, ⟨f2, e4, e5⟩, e6⟩ := h5
  rw [e2] at e4; cases e4
  simp only [Option.pure_def, Option.some.injEq, Prod.mk.injEq] at e6
  obtain ⟨rfl, rfl⟩ := e6
  exact ⟨m1, r1, f', ok1, g1, c1, e2, e3, hc.2, hc.1.trans hi, by rw [← hc.2]; exact e5, rfl⟩

theorem callFunction_user {H : Name → Nat} {q : Nat} {comp : Comp} {cur : Nat} {name : Name} {is : List Constraint} {w : W}
    (hn : name ∉ builtins) : callFunction H q comp cur name is w = callUser q comp cur name is w := by
  simp only [builtins, List.map_cons, List.map_nil, List.mem_cons, not_or, List.not_mem_nil, not_false_eq_true, and_true] at hn
  obtain ⟨h1, h2, h3, h4, h5, h6, h7, h8, h9, -⟩ := hn
  unfold callFunction
  rw [if_neg h1, if_neg h2, if_neg (by rintro (h | h | h | h) <;> contradiction), if_neg h7, if_neg h8, if_neg h9]

theorem tok_eval {H : Name → Nat} {q n cur : Nat} {t : Tok} {w w' : W} {r : Res}
    (h : compile H q n cur (.mk (tokOf t) []) w = some (r, w')) :
    w' = w ∧ r.ret = false ∧ if t.isNum then compileNum q t.ident = some r.facs else r.facs = [argF t.ident 1] := by
  cases n with
  | zero => cases h
  | succ n =>
    by_cases hn : t.isNum = true
    · simp only [compile, compileStep, tokOf, hn, if_true, Constraint.output, Option.map_eq_some_iff, Prod.mk.injEq] at h
      obtain ⟨f, h1, rfl, rfl⟩ := h
      exact ⟨rfl, rfl, by rw [if_pos hn]; exact h1⟩
    · simp only [compile, compileStep, tokOf, hn, if_false, Bool.false_eq_true, Constraint.output, Option.some.injEq, Prod.mk.injEq] at h
      obtain ⟨rfl, rfl⟩ := h
      exact ⟨rfl, rfl, by rw [if_neg hn]⟩

/-- reading one stored factor -/
theorem one_eval {H : Name → Nat} {q n cur : Nat} {x : Factor} {w w' : W} {r : Res}
    (h : compile H q n cur (oneTask x) w = some (r, w')) : w' = w ∧ r.ret = true ∧ rereadOne q x = some r.facs := by
  cases n with
  | zero => cases h
  | succ n =>
    unfold oneTask at h
    split at h
    · rename_i hx
      simp only [compile, compileStep, node, Constraint.output, Constraint.inputs, Option.bind_eq_bind, Option.bind_eq_some_iff, Prod.exists] at h
      obtain ⟨r1, w1, h1, h2⟩ := h
      simp only [Option.pure_def, Option.some.injEq, Prod.mk.injEq] at h2
      obtain ⟨rfl, rfl⟩ := h2
      obtain ⟨rfl, -, h3⟩ := tok_eval h1
      refine ⟨rfl, rfl, ?_⟩
      unfold rereadOne
      split at h3
      · rename_i hn; rw [if_pos hn]; exact h3
      · rename_i hn
        rw [if_neg hn, if_pos (hx.resolve_left hn), h3]
    · rename_i hx
      push Not at hx
      simp only [compile, compileStep, node, Constraint.output, Constraint.inputs, operate, if_true, Option.bind_eq_bind,
        Option.bind_eq_some_iff, Prod.exists] at h
      obtain ⟨r1, w1, h1, r2, w2, h2, f, s, h3, h4⟩ := h
      simp only [Option.pure_def, Option.some.injEq, Prod.mk.injEq] at h4
      obtain ⟨rfl, rfl⟩ := h4
      obtain ⟨rfl, -, h5⟩ := tok_eval h2
      obtain ⟨rfl, -, h6⟩ := tok_eval (t := ⟨true, intStr x.mul⟩) h1
      rw [if_neg hx.1] at h5
      rw [if_pos rfl] at h6
      have hs : isSingleNumber r1.facs = true := by
        simp only [compileNum, Option.map_eq_some_iff] at h6
        obtain ⟨v, _, hv⟩ := h6
        rw [← hv]; rfl
      unfold mulGate at h3
      rw [hs] at h3
      simp only [Bool.true_or, if_true, Option.bind_eq_bind, Option.bind_eq_some_iff, Option.pure_def, Option.some.injEq, Prod.mk.injEq] at h3
      obtain ⟨f', h7, rfl, rfl⟩ := h3
      refine ⟨rfl, rfl, ?_⟩
      unfold rereadOne
      rw [if_neg hx.1, if_neg hx.2, h6]
      simp only
      rw [← h5]; exact h7

/-- the stored form can be called by its names -/
def Callable (g : Factors) : Prop := ∀ x ∈ g, x.tok.ident ∉ builtins

theorem sumName_callable {g : Factors} (h : Callable g) : sumName g ∉ builtins := by
  match g with
  | [] => decide +kernel
  | [x] => exact h x (by simp)
  | x :: y :: g => exact show ([] : Name) ∉ builtins by decide +kernel

/-- what a call of a stored value does -/
theorem body_call {H : Name → Nat} {q : Nat} : ∀ (n : Nat) {cur : Nat} {name : Name} {w w' : W} {r : Res} {o : Nat} {U : FObj → Prop} {g : Factors},
    MemOK w.m → Sep g → Callable g → name ∉ builtins → Body U w.m g o →
    w.m.findFunction w.m.depth (some cur) name = some o → compile H q n cur (node .functionCall name) w = some (r, w') →
    rereadSum q g = some r.facs ∧ r.ret = false ∧ w'.s = w.s ∧ w'.thrown = w.thrown ∧ Grow0 w.m w'.m ∧ MemOK w'.m := by
  intro n
  induction n using Nat.strong_induction_on with
  | _ n ih =>
  intro cur name w w' r o U g hok hsep hcall hn hb hf h
  cases n with
  | zero => cases h
  | succ n =>
    have h' : callUser q (compile H q n) cur name [] w = some (r, w') := by
      rw [← callFunction_user (H := H) hn]
      simpa only [compile, compileStep, node, Constraint.output, Constraint.inputs] using h
    obtain ⟨f, ho, -, hi⟩ := hb.inputs
    obtain ⟨m1, r1, f', ok1, g1, c1, e1, -, e2, -, h1, rfl⟩ := callUser_nil hok h' hf ho hi
    have hb1 := body_copy g _ _ _ _ _ hb c1
    match g, hsep, hcall, hb, hb1 with
    | [x], hsep, hcall, hb, hb1 =>
      obtain ⟨f0, i, ents, k1, -, k2, k3, k4, k5⟩ := hb
      rw [ho] at k1; cases k1
      rw [k5.1] at h1
      simp only [execTasks, Option.bind_eq_bind, Option.bind_eq_some_iff, Prod.exists] at h1
      obtain ⟨r2, w2, h2, h3⟩ := h1
      obtain ⟨rfl, hr, h4⟩ := one_eval h2
      rw [if_pos hr] at h3
      simp only [Option.pure_def, Option.some.injEq, Prod.mk.injEq] at h3
      obtain ⟨rfl, rfl⟩ := h3
      exact ⟨by simpa [rereadSum] using h4, rfl, rfl, rfl, g1, ok1⟩
    | x :: y :: rest, hsep, hcall, hb, hb1 =>
      obtain ⟨f0, i, ents, k1, -, k2, k3, k4, k5, -⟩ := hb
      rw [ho] at k1; cases k1
      obtain ⟨f1, i1, ents1, l1, -, l2, l3, l4, l5, a, b, l6, l7, l8, l9⟩ := hb1
      rw [k5] at h1
      simp only [execTasks, Option.bind_eq_bind, Option.bind_eq_some_iff, Prod.exists] at h1
      obtain ⟨r2, w2, h2, h3⟩ := h1
      cases n with
      | zero => cases h2
      | succ n =>
        simp only [compile, compileStep, node, Constraint.output, Constraint.inputs, operate, if_true] at h2
        rw [if_neg (by decide), if_neg (by decide)] at h2
        simp only [if_true, Option.bind_eq_bind, Option.bind_eq_some_iff, Prod.exists] at h2
        obtain ⟨ra, wa, ha, rb, wb, hbb, he⟩ := h2
        simp only [Option.pure_def, Option.some.injEq, Prod.mk.injEq] at he
        obtain ⟨rfl, rfl⟩ := he
        simp only [if_true, Option.pure_def, Option.some.injEq, Prod.mk.injEq] at h3
        obtain ⟨rfl, rfl⟩ := h3
        have hsx : Sep [x] := ⟨by simp, fun z hz => hsep.ne z (by simp at hz; simp [hz]), by simp⟩
        have hcx : Callable [x] := fun z hz => hcall z (by simp at hz; simp [hz])
        have fa : ({ w with m := m1 } : W).m.findFunction m1.depth (some w.m.objs.length) x.tok.ident = some a :=
          find_own (by rw [own_eq l1 l2 l3]; exact l6)
        obtain ⟨a1, -, a3, a4, a5, a6⟩ := ih n (by omega) (w := { w with m := m1 }) (g := [x]) ok1 hsx hcx (hcall x (by simp)) l8 fa ha
        have l1' := a5.obj l1
        have l3' := a5.map l3 (by simp)
        have hcr : Callable (y :: rest) := fun z hz => hcall z (List.mem_cons_of_mem _ hz)
        have fb : wa.m.findFunction wa.m.depth (some w.m.objs.length) (sumName (y :: rest)) = some b :=
          find_own (by rw [own_eq l1' l2 l3']; exact l7)
        obtain ⟨b1, -, b3, b4, b5, b6⟩ := ih n (by omega) (w := wa) (g := y :: rest) a6 hsep.tail hcr (sumName_callable hcr)
          (body_grow0 a5 l9) fb hbb
        refine ⟨?_, rfl, b3.trans a3, b4.trans a4, (g1.trans a5).trans b5, b6⟩
        simp only [rereadSum] at a1
        match rest with
        | [] =>
          have hxy := (List.pairwise_cons.mp hsep.one).1 y List.mem_cons_self
          have hf : (x.tok.isNum && y.tok.isNum) = false := by
            by_contra hh; simp at hh; exact hxy hh
          simp only [rereadSum] at b1
          simp [rereadSum, hf, a1, b1]
        | z :: rest => simp [rereadSum, a1, b1]

end APS.Prog
