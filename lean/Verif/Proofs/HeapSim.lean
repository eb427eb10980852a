import Verif.Proofs.HeapShareRun

/-! A clean run of the heap model (Model/Heap.lean) is a run of the value model (Model/Program.lean). -/
namespace APS.Alias
open APS.Circuit APS.Prog
open APS.Parse (Constraint)
open APS.Lex (TokenType)

/-- every pointer points to a cell and the package variables have their values -/
structure Good (w : HW) : Prop where
  mem : okMem w.cells w.m
  st : okSt w.cells w.s
  one : cells0 <+: w.cells

/-- the pointers of a result -/
def okRes (cs : Cells) (r : Res) : Prop := okFs cs r.facs ∧ okObj cs r.fkt

/-- a part of the execution: if it is clean at the end, it was clean at the beginning, no cell that was there has changed,
and `P` -/
def Step (w w' : HW) (P : Prop) : Prop :=
  (w'.clean = true → w.clean = true) ∧ (w'.clean = true → Good w → Good w' ∧ w.cells <+: w'.cells ∧ P)

/-- the recursive calls agree -/
def Faith (hc : HComp) (vc : Comp) : Prop :=
  ∀ cur k w r w', hc cur k w = some (r, w') →
    Step w w' (okRes w'.cells r ∧ vc cur k w.rd = some (rdRes w'.cells r, w'.rd))

theorem Step.trans {w w1 w2 : HW} {P Q : Prop} (h1 : Step w w1 P) (h2 : Step w1 w2 Q) :
    Step w w2 (Good w1 ∧ w.cells <+: w1.cells ∧ w1.cells <+: w2.cells ∧ P ∧ Q) :=
  ⟨fun h => h1.1 (h2.1 h), fun h g => by
    obtain ⟨a1, a2, a3⟩ := h1.2 (h2.1 h) g
    obtain ⟨b1, b2, b3⟩ := h2.2 h a1
    exact ⟨b1, a2.trans b2, a1, a2, b2, a3, b3⟩⟩

theorem Step.imp {w w' : HW} {P Q : Prop} (h : Step w w' P)
    (hi : Good w → Good w' → w.cells <+: w'.cells → P → Q) : Step w w' Q :=
  ⟨h.1, fun c g => by
    obtain ⟨a1, a2, a3⟩ := h.2 c g
    exact ⟨a1, a2, hi g a1 a2 a3⟩⟩

theorem Step.refl {w : HW} {P : Prop} (h : Good w → P) : Step w w P :=
  ⟨id, fun _ g => ⟨g, List.prefix_rfl, h g⟩⟩

/-- a part that only adds cells -/
theorem Step.more {w w' : HW} {P : Prop} (hc : w'.clean = w.clean)
    (h : Good w → w.cells <+: w'.cells ∧ okMem w'.cells w'.m ∧ okSt w'.cells w'.s ∧ P) : Step w w' P :=
  ⟨fun c => by rw [← hc]; exact c, fun _ g => by
    obtain ⟨h1, h2, h3, h4⟩ := h g
    exact ⟨⟨h2, h3, g.one.trans h1⟩, h1, h4⟩⟩

theorem okSt_nil {cs : Cells} : okSt cs {} := fun _ hg => by cases hg

/-- compile with an empty container, put the old container back -/
theorem Step.aside {w w1 : HW} {P : Prop} (t : List (Factors × St)) (h : Step { w with s := {} } w1 P) :
    Step w { w1 with s := w.s, thrown := t } P :=
  ⟨fun c => h.1 c, fun c g => by
    obtain ⟨a1, a2, a3⟩ := h.2 c ⟨g.mem, okSt_nil, g.one⟩
    exact ⟨⟨a1.mem, g.st.mono a2, a1.one⟩, a2, a3⟩⟩

theorem okRes_nil {cs : Cells} : okRes cs {} := ⟨okFs_nil, fun e => by cases e⟩
theorem rdRes_nil {cs : Cells} : rdRes cs {} = {} := by
  unfold rdRes rdObj
  rfl
theorem okRes.mono {cs cs' : Cells} {r : Res} (h : cs <+: cs') (hr : okRes cs r) : okRes cs' r := ⟨hr.1.mono h, hr.2.mono h⟩
theorem rdRes_mono {cs cs' : Cells} {r : Res} (h : cs <+: cs') (hr : okRes cs r) : rdRes cs' r = rdRes cs r := by
  unfold rdRes
  rw [rdFs_mono h hr.1, rdObj_mono h hr.2]
theorem okRes_facs {cs : Cells} {f : Factors} {b : Bool} (h : okFs cs f) : okRes cs { facs := f, ret := b } :=
  ⟨h, fun e => by cases e⟩
theorem rdRes_facs {cs : Cells} {f : Factors} {b : Bool} : rdRes cs { facs := f, ret := b } = { facs := rdFs cs f, ret := b } := by
  unfold rdRes rdObj
  rfl

variable {H : Name → Nat} {q : Nat} {hc : HComp} {vc : Comp}

theorem execTasks_sim (F : Faith hc vc) {cur : Nat} (ts : List Constraint) : ∀ {w w' : HW} {r : Res},
    hExecTasks hc cur ts w = some (r, w') →
    Step w w' (okRes w'.cells r ∧ execTasks vc cur ts w.rd = some (rdRes w'.cells r, w'.rd)) := by
  induction ts with
  | nil =>
    intro w w' r h
    cases h
    exact Step.refl fun _ => ⟨okRes_nil, by rw [rdRes_nil]; rfl⟩
  | cons t ts ih =>
    intro w w' r h
    simp only [hExecTasks, Option.bind_eq_bind, Option.bind_eq_some_iff, Prod.exists] at h
    obtain ⟨r1, w1, h1, h2⟩ := h
    have s1 := F _ _ _ _ _ h1
    split at h2
    · rename_i e
      cases h2
      refine s1.imp fun _ _ _ ⟨k1, k2⟩ => ⟨k1, ?_⟩
      simp only [execTasks, k2, Option.bind_eq_bind, Option.bind_some]
      rw [if_pos (show (rdRes w'.cells r1).ret = true from e)]
      rfl
    · rename_i e
      refine (s1.trans (ih h2)).imp fun _ _ _ ⟨_, _, _, ⟨k1, k2⟩, k3, k4⟩ => ⟨k3, ?_⟩
      simp only [execTasks, k2, Option.bind_eq_bind, Option.bind_some]
      rw [if_neg (show ¬ (rdRes w1.cells r1).ret = true from e)]
      exact k4

theorem rd_objs {w : HW} (a : Nat) : w.rd.m.objs[a]? = (w.m.objs[a]?).map (rdObj w.cells) := rdMem_objs a

theorem execFunction_sim (F : Faith hc vc) {a : Nat} {w w' : HW} {r : Res} (h : hExecFunction hc a w = some (r, w')) :
    Step w w' (okRes w'.cells r ∧ execFunction vc a w.rd = some (rdRes w'.cells r, w'.rd)) := by
  simp only [hExecFunction, Option.bind_eq_bind, Option.bind_eq_some_iff] at h
  obtain ⟨f, h1, h2⟩ := h
  refine (execTasks_sim F _ h2).imp fun _ _ _ ⟨k1, k2⟩ => ⟨k1, ?_⟩
  simp only [execFunction, rd_objs, h1, Option.map_some, Option.bind_eq_bind, Option.bind_some, rdObj_tasks]
  exact k2

theorem checkStatic_sim (F : Faith hc vc) {cur : Nat} {c : Constraint} {w w' : HW} {b : Bool}
    (h : hCheckStatic hc cur c w = some (b, w')) : Step w w' (checkStatic vc cur c w.rd = some (b, w'.rd)) := by
  unfold hCheckStatic at h
  split at h
  · rename_i op l r tl hi
    simp only [Option.bind_eq_bind, Option.bind_eq_some_iff, Prod.exists] at h
    obtain ⟨a, w1, h1, y, w2, h2, h3⟩ := h
    have s1 := F _ _ _ _ _ h1
    have s2 := F _ _ _ _ _ h2
    set t := w2.thrown ++ [(rdFs w2.cells a.facs, rdSt w2.cells w1.s), (rdFs w2.cells y.facs, rdSt w2.cells w2.s)] with ht
    have hw' : w' = { w2 with s := w.s, thrown := t } := by
      split at h3
      · split at h3
        · split_ifs at h3 <;> cases h3 <;> rfl
        · cases h3
      · cases h3
    refine ⟨fun c => s1.1 (s2.1 (by rw [hw'] at c; exact c)), fun c g => ?_⟩
    have c2 : w2.clean = true := by rw [hw'] at c; exact c
    obtain ⟨a1, a2, a3, a4⟩ := s1.2 (s2.1 c2) ⟨g.mem, okSt_nil, g.one⟩
    obtain ⟨b1, b2, b3, b4⟩ := s2.2 c2 ⟨a1.mem, okSt_nil, a1.one⟩
    have hp : w.cells <+: w2.cells := a2.trans b2
    have hst : ({ w2.rd with s := w.rd.s, thrown := w2.rd.thrown ++
        [((rdRes w1.cells a).facs, w1.rd.s), ((rdRes w2.cells y).facs, w2.rd.s)] } : W) = w'.rd := by
      rw [hw']
      simp only [HW.rd, rdRes, ht]
      rw [rdFs_mono b2 a3.1, rdSt_mono b2 a1.st, rdSt_mono hp g.st]
    refine ⟨by rw [hw']; exact ⟨b1.mem, g.st.mono hp, b1.one⟩, by rw [hw']; exact hp, ?_⟩
    unfold checkStatic
    rw [hi]
    have v1 : vc cur l { w.rd with s := {} } = some (rdRes w1.cells a, w1.rd) := a4
    have v2 : vc cur r { w1.rd with s := {} } = some (rdRes w2.cells y, w2.rd) := b4
    simp only [v1, v2, Option.bind_eq_bind, Option.bind_some, hst]
    simp only [rdRes]
    rw [← rdFs_mono b2 a3.1]
    rw [← hw'] at h3
    generalize rdFs w2.cells a.facs = fa at h3
    generalize rdFs w2.cells y.facs = fb at h3
    rcases fa with _ | ⟨x, _ | ⟨x', fa⟩⟩
    · cases h3
    · rcases fb with _ | ⟨z, _ | ⟨z', fb⟩⟩
      · cases h3
      · simp only at h3 ⊢
        split_ifs at h3 ⊢ <;> cases h3 <;> rfl
      · cases h3
    · cases h3
  · cases h

theorem resolveArray_sim (F : Faith hc vc) {cur : Nat} (is : List Constraint) : ∀ {n n' : Name} {w w' : HW},
    hResolveArray hc cur is n w = some (n', w') → Step w w' (resolveArray vc cur is n w.rd = some (n', w'.rd)) := by
  induction is with
  | nil =>
    intro n n' w w' h
    cases h
    exact Step.refl fun _ => rfl
  | cons i is ih =>
    intro n n' w w' h
    simp only [hResolveArray, Option.bind_eq_bind, Option.bind_eq_some_iff, Prod.exists] at h
    obtain ⟨r, w1, h1, h2⟩ := h
    have s1 := (F _ _ _ _ _ h1).aside (w1.thrown ++ [(rdFs w1.cells r.facs, rdSt w1.cells w1.s)])
    rcases hf : r.facs with _ | ⟨x, _ | ⟨x', fs⟩⟩
    · rw [hf] at h2
      cases h2
    · rw [hf] at h2 s1
      simp only at h2
      split at h2
      · rename_i k e1 e2
        split at h2
        · rename_i e3
          refine (s1.trans (ih h2)).imp fun g _ _ ⟨_, p1, _, ⟨k1, k2⟩, k3⟩ => ?_
          have v1 : vc cur i { w.rd with s := {} } = some (rdRes w1.cells r, w1.rd) := k2
          simp only [resolveArray, v1, Option.bind_eq_bind, Option.bind_some]
          have e4 : (rdRes w1.cells r).facs = [rdF w1.cells x] := by simp only [rdRes, hf, rdFs_cons, rdFs_nil]
          simp only [e4]
          rw [rdF_tok, e1, e2]
          simp only
          rw [if_pos e3]
          rw [← k3]
          congr 1
          simp only [HW.rd]
          rw [rdSt_mono p1 g.st]
          rfl
        · cases h2
      · cases h2
    · rw [hf] at h2
      cases h2

theorem callArgs_sim (F : Faith hc vc) {cur : Nat} (vs : List Constraint) : ∀ {as : List Nat} {w w' : HW},
    hCallArgs q hc cur vs w = some (as, w') → Step w w' (callArgs q vc cur vs w.rd = some (as, w'.rd)) := by
  induction vs with
  | nil =>
    intro as w w' h
    cases h
    exact Step.refl fun _ => rfl
  | cons v vs ih =>
    intro as w w' h
    simp only [hCallArgs, Option.bind_eq_bind, Option.bind_eq_some_iff, Prod.exists] at h
    obtain ⟨r, w1, h1, h2⟩ := h
    have s1 := F _ _ _ _ _ h1
    split at h2
    · rename_i e
      simp only [Option.bind_eq_some_iff, Prod.exists] at h2
      obtain ⟨as', w2, h3, h4⟩ := h2
      cases h4
      have s2 : Step w { w1 with m := (w1.m.alloc r.fkt).2 } (okRes w1.cells r ∧ vc cur v w.rd = some (rdRes w1.cells r, w1.rd)) :=
        ⟨s1.1, fun c g => by
          obtain ⟨a1, a2, a3⟩ := s1.2 c g
          exact ⟨⟨alloc_ok a3.1.2 a1.mem, a1.st, a1.one⟩, a2, a3⟩⟩
      refine (s2.trans (ih h3)).imp fun g _ _ ⟨_, _, _, ⟨k1, k2⟩, k3⟩ => ?_
      simp only [callArgs, k2, Option.bind_eq_bind, Option.bind_some]
      rw [if_pos (show (rdRes w1.cells r).facs = [] by simp [rdRes, e])]
      have e2 := alloc_rd (cs := w1.cells) (m := w1.m) r.fkt
      have e3 : w1.rd.m.alloc (rdRes w1.cells r).fkt = ((w1.m.alloc r.fkt).1, rdMem w1.cells (w1.m.alloc r.fkt).2) := e2
      rw [e3]
      have e4 : callArgs q vc cur vs { w1.rd with m := rdMem w1.cells (w1.m.alloc r.fkt).2 } = some (as', w'.rd) := k3
      simp only [e4, Option.bind_some]
      rfl
    · rename_i e
      simp only [Option.bind_eq_some_iff, Prod.exists] at h2
      obtain ⟨a, m, cs, h5, as', w2, h3, h4⟩ := h2
      cases h4
      have s2 : Step w { w1 with m := m, cells := cs, kept := w1.kept ++ [rdFs w1.cells r.facs] }
          ((okRes w1.cells r ∧ vc cur v w.rd = some (rdRes w1.cells r, w1.rd)) ∧ w1.cells <+: cs ∧ okSt w1.cells w1.s ∧
            store q (rdFs w1.cells r.facs) (rdMem w1.cells w1.m) = some (a, rdMem cs m)) :=
        ⟨s1.1, fun c g => by
          obtain ⟨a1, a2, a3⟩ := s1.2 c g
          obtain ⟨b1, b2, b3⟩ := hStore_spec r.facs a1.one a3.1.1 a1.mem h5
          exact ⟨⟨b2, a1.st.mono b1, a1.one.trans b1⟩, a2.trans b1, a3, b1, a1.st, b3⟩⟩
      refine (s2.trans (ih h3)).imp fun g _ _ ⟨_, _, _, ⟨⟨k1, k2⟩, k3, k4, k5⟩, k6⟩ => ?_
      simp only [callArgs, k2, Option.bind_eq_bind, Option.bind_some]
      rw [if_neg (show ¬ (rdRes w1.cells r).facs = [] by simp [rdRes, e])]
      have e3 : store q (rdRes w1.cells r).facs w1.rd.m = some (a, rdMem cs m) := k5
      rw [e3]
      simp only [Option.bind_some]
      have e4 : callArgs q vc cur vs { w1.rd with m := rdMem cs m, kept := w1.rd.kept ++ [(rdRes w1.cells r).facs] } = some (as', w'.rd) := by
        rw [← k6]
        congr 1
        simp only [HW.rd, rdRes]
        rw [rdSt_mono k3 k4]
      rw [e4]
      rfl

theorem callUser_sim (F : Faith hc vc) {cur : Nat} {name : Name} {args : List Constraint} {r : Res} {w w' : HW}
    (h : hCallUser q hc cur name args w = some (r, w')) :
    Step w w' (okRes w'.cells r ∧ callUser q vc cur name args w.rd = some (rdRes w'.cells r, w'.rd)) := by
  simp only [hCallUser, Option.bind_eq_bind, Option.bind_eq_some_iff, Prod.exists] at h
  obtain ⟨f, h1, nxt, m, h2, as, w1, h3, ready, m1, h4, h5⟩ := h
  have s1 : Step w { w with m := m } (callUser q vc cur name args w.rd = (do
      let (as, w) ← callArgs q vc cur args { w.rd with m := rdMem w.cells m }
      let (ready, m) ← loadArgs w.m nxt as
      let w : W := { w with m := m }
      if ready then
        let (r, w) ← execFunction vc nxt w
        pure ({ r with ret := false }, w)
      else
        let o ← w.m.objs[nxt]?
        pure ({ fkt := o }, w))) := Step.more rfl fun g => by
    obtain ⟨k1, k2⟩ := flatCopy_rd w.m.depth w.m f g.mem
    refine ⟨List.prefix_rfl, k2 _ h2, g.st, ?_⟩
    unfold callUser
    have e1 : w.rd.m.findFunction w.rd.m.depth (some cur) name = some f := by
      have : w.rd.m = rdMem w.cells w.m := rfl
      rw [this, findFunction_rd, rdMem_depth, h1]
    have e2 : flatCopy w.rd.m.depth w.rd.m f = some (nxt, rdMem w.cells m) := by
      have : w.rd.m = rdMem w.cells w.m := rfl
      rw [this, rdMem_depth, k1, h2]
      rfl
    simp only [e1, e2, Option.bind_eq_bind, Option.bind_some]
  have s2 := s1.trans (callArgs_sim (q := q) F _ h3)
  have s3 : Step w1 { w1 with m := m1 } (loadArgs w1.rd.m nxt as = some (ready, rdMem w1.cells m1)) := Step.more rfl fun g => by
    obtain ⟨k1, k2⟩ := loadArgs_rd (cs := w1.cells) nxt as g.mem
    refine ⟨List.prefix_rfl, k2 _ h4, g.st, ?_⟩
    have : w1.rd.m = rdMem w1.cells w1.m := rfl
    rw [this, k1, h4]
    rfl
  have s4 := s2.trans s3
  split at h5
  · rename_i e
    simp only [Option.bind_eq_some_iff, Prod.exists] at h5
    obtain ⟨r1, w2, h6, h7⟩ := h5
    cases h7
    refine (s4.trans (execFunction_sim F h6)).imp fun g _ _ ⟨_, _, _, ⟨_, _, _, ⟨_, _, _, k1, k2⟩, k3⟩, k4, k5⟩ => ⟨⟨k4.1, k4.2⟩, ?_⟩
    rw [k1]
    have k2' : callArgs q vc cur args { w.rd with m := rdMem w.cells m } = some (as, w1.rd) := k2
    have k5' : execFunction vc nxt { w1.rd with m := rdMem w1.cells m1 } = some (rdRes w'.cells r1, w'.rd) := k5
    simp only [k2', k3, k5', Option.bind_eq_bind, Option.bind_some]
    rw [if_pos e]
    rfl
  · rename_i e
    simp only [Option.bind_eq_some_iff] at h5
    obtain ⟨o, h6, h7⟩ := h5
    cases h7
    refine s4.imp fun g g' _ ⟨_, _, _, ⟨_, _, _, k1, k2⟩, k3⟩ => ⟨⟨okFs_nil, g'.mem o (List.mem_of_getElem? h6)⟩, ?_⟩
    rw [k1]
    have k2' : callArgs q vc cur args { w.rd with m := rdMem w.cells m } = some (as, w1.rd) := k2
    simp only [k2', k3, Option.bind_eq_bind, Option.bind_some]
    rw [if_neg e]
    have h6' : (rdMem w1.cells m1).objs[nxt]? = some (rdObj w1.cells o) := by rw [rdMem_objs]; exact congrArg _ h6
    simp only [h6', Option.bind_some]
    rfl

/-- the operands of an operator, one after the other -/
theorem two_sim (F : Faith hc vc) {cur : Nat} {l r : Constraint} {a b : Res} {w w1 w2 : HW}
    (h1 : hc cur l w = some (a, w1)) (h2 : hc cur r w1 = some (b, w2)) :
    Step w w2 (okRes w2.cells a ∧ okRes w2.cells b ∧ vc cur l w.rd = some (rdRes w2.cells a, w1.rd) ∧
      vc cur r w1.rd = some (rdRes w2.cells b, w2.rd)) := by
  refine ((F _ _ _ _ _ h1).trans (F _ _ _ _ _ h2)).imp fun _ _ _ ⟨_, _, p, ⟨k1, k2⟩, k3, k4⟩ => ⟨k1.mono p, k3, ?_, k4⟩
  rw [k2, rdRes_mono p k1]

theorem prefix_of_val {cs cs' : Cells} (hl : cs.length ≤ cs'.length) (h : ∀ a, ok cs a → val cs' a = val cs a) : cs <+: cs' := by
  rw [List.prefix_iff_eq_take]
  apply List.ext_getElem
  · rw [List.length_take]; omega
  · intro i h1 h2
    have := h i ⟨by omega, by exact_mod_cast h1⟩
    simp only [val, Int.toNat_natCast] at this
    rw [List.getD_eq_getElem?_getD, List.getD_eq_getElem?_getD, List.getElem?_eq_getElem h1, List.getElem?_eq_getElem (by omega)] at this
    simp only [Option.getD_some] at this
    rw [List.getElem_take, this]

/-- does a gate hold this cell? -/
def gateHolds (a : Int) (g : Gate) : Bool :=
  (g.left ++ g.right ++ g.expo ++ g.out).any fun f => f.mul = a

/-- does a function object or a gate hold this cell? -/
def holds (w : HW) (a : Int) : Bool :=
  w.m.objs.any (fun f => f.isNumber && decide (f.value = a)) || w.s.c.gates.any (gateHolds a)

/-- The cells of `l` that are not zero belong to `l` alone.  Cells below `n` were there before `l` was computed, so
an operand that is still waiting may hold them. -/
def owned (n : Nat) (w : HW) : Factors → Bool
  | [] => true
  | f :: fs => (val w.cells f.mul = 0 ||
      (decide ((n : Int) ≤ f.mul) && !holds w f.mul && fs.all fun g => g.mul ≠ f.mul)) && owned n w fs

theorem Good.lt {w : HW} (g : Good w) : Lt w := by
  refine ⟨by simpa [cells0] using g.one.length_le, fun a ha => ?_⟩
  rcases ha with ⟨f, hf, e, rfl⟩ | ⟨x, hx, f, hf, rfl⟩
  · exact (g.mem f hf e).2
  · obtain ⟨h1, h2, h3, h4⟩ := g.st x hx
    simp only [List.mem_append] at hf
    rcases hf with ((hf | hf) | hf) | hf
    · exact (h1 f hf).2
    · exact (h2 f hf).2
    · exact (h3 f hf).2
    · exact (h4 f hf).2

theorem held_of_holds {w : HW} {a : Int} (h : holds w a = true) : Held w a := by
  simp only [holds, Bool.or_eq_true, List.any_eq_true, Bool.and_eq_true, decide_eq_true_eq, gateHolds] at h
  rcases h with ⟨f, h1, h2, h3⟩ | ⟨x, h1, f, h2, h3⟩
  · exact Or.inl ⟨f, h1, h2, h3⟩
  · exact Or.inr ⟨x, h1, f, h2, h3⟩

/-- the cells of a result that are no package variables and no numbers of constant variables belong to the result alone -/
theorem owned_of {n : Nat} {w : HW} (g : Good w) (hn : 2 ≤ n) : ∀ (l : Factors), Out n w l → harmless w l = true → owned n w l = true
  | [], _, _ => rfl
  | f :: fs, o, h => by
    simp only [harmless, List.all_cons, Bool.and_eq_true] at h
    obtain ⟨h1, h2⟩ := h
    have o' : Out n w fs := ⟨fun f hf => o.each f (List.mem_cons_of_mem _ hf), fun f hf => o.lt f (List.mem_cons_of_mem _ hf), (List.pairwise_cons.mp o.apart).2⟩
    simp only [owned, Bool.and_eq_true, owned_of g hn fs o' h2, and_true]
    by_cases hz : val w.cells f.mul = 0
    · simp [hz]
    have hb : f.mul ≠ bigZero := fun e => hz (by rw [e, val_bigZero g.one])
    have h1' : f.mul ≠ bigOne ∧ ¬ (f.tok.isNum = true ∧ constant w f.mul = true) := by
      have h1 : f.mul ≠ bigOne ∧ (f.tok.isNum = false ∨ constant w f.mul = false) := by simpa [hz, hb] using h1
      refine ⟨h1.1, fun ⟨a, b⟩ => ?_⟩
      rcases h1.2 with e | e
      · rw [a] at e
        cases e
      · rw [b] at e
        cases e
    rcases o.each f (List.mem_cons_self ..) with ⟨a, b, c⟩ | a | a | ⟨a, b⟩
    · have hh : holds w f.mul = false := by
        by_contra hh
        exact c (held_of_holds (by simpa using hh))
      have ha : ∀ g ∈ fs, g.mul ≠ f.mul := by
        intro g hg e
        rcases (List.pairwise_cons.mp o.apart).1 g hg e.symm with e | e | e
        · exact h1'.1 e
        · simp only [bigZero] at e
          omega
        · exact c (Or.inl e)
      simp only [hz, decide_false, Bool.false_or, a, decide_true, hh, Bool.not_false, Bool.true_and, List.all_eq_true, decide_eq_true_eq]
      exact fun g hg => by simpa using ha g hg
    · exact absurd a h1'.1
    · exact absurd a hb
    · refine absurd ⟨a, ?_⟩ h1'.2
      obtain ⟨x, hx, e1, e2⟩ := b
      simp only [constant, List.any_eq_true, Bool.and_eq_true, decide_eq_true_eq]
      exact ⟨x, hx, e1, e2⟩

theorem owned_spec {n : Nat} {w : HW} (l : Factors) (h : owned n w l = true) :
    Sep w.cells l ∧ ∀ f ∈ l, val w.cells f.mul ≠ 0 → (n : Int) ≤ f.mul ∧ holds w f.mul = false := by
  induction l with
  | nil => exact ⟨trivial, fun f hf => by cases hf⟩
  | cons f fs ih =>
    simp only [owned, Bool.and_eq_true, Bool.or_eq_true, decide_eq_true_eq, Bool.not_eq_true', List.all_eq_true] at h
    obtain ⟨h1, h2⟩ := h
    obtain ⟨i1, i2⟩ := ih h2
    refine ⟨⟨fun hz g hg => ?_, i1⟩, ?_⟩
    · rcases h1 with h1 | ⟨_, h1⟩
      · exact absurd h1 hz
      · exact h1 g hg
    · intro g hg hz
      rcases List.mem_cons.mp hg with rfl | hg
      · rcases h1 with h1 | ⟨⟨h1, h3⟩, _⟩
        · exact absurd h1 hz
        · exact ⟨h1, h3⟩
      · exact i2 g hg hz

/-- negating cells that nothing else holds -/
theorem negate_spec {n : Nat} {w : HW} {l : Factors} (g : Good w) (hl : okFs w.cells l) (ho : owned n w l = true)
    (hn : 2 ≤ n) (hn' : n ≤ w.cells.length) :
    Good { w with cells := (hNegate l w.cells).2 } ∧ ({ w with cells := (hNegate l w.cells).2 } : HW).rd = w.rd ∧
    w.cells.take n <+: (hNegate l w.cells).2 ∧ okFs (hNegate l w.cells).2 (hNegate l w.cells).1 ∧
    rdFs (hNegate l w.cells).2 (hNegate l w.cells).1 = negateFactors (rdFs w.cells l) := by
  obtain ⟨hs, ho⟩ := owned_spec l ho
  obtain ⟨h1, h2, h3, h4⟩ := hNegate_spec l w.cells hl hs
  set cs' := (hNegate l w.cells).2 with hcs
  have hok : ∀ a, ok w.cells a → ok cs' a := fun a ha => ⟨ha.1, by rw [h1]; exact ha.2⟩
  have hold : ∀ a, 0 ≤ a → holds w a = true → val cs' a = val w.cells a := by
    intro a ha hh
    refine h4 a ha fun f hf hz e => ?_
    have := (ho f hf hz).2
    rw [e, hh] at this
    cases this
  have htake : ∀ a, ok (w.cells.take n) a → val cs' a = val (w.cells.take n) a := by
    intro a ha
    rw [← val_mono (List.take_prefix n w.cells) ha]
    refine h4 a ha.1 fun f hf hz e => ?_
    have h5 := (ho f hf hz).1
    have h6 := ha.2
    rw [List.length_take] at h6
    omega
  have hpre : w.cells.take n <+: cs' := prefix_of_val (by rw [h1, List.length_take]; omega) htake
  have hgate : ∀ x ∈ w.s.c.gates, ∀ f ∈ x.left ++ x.right ++ x.expo ++ x.out, ok w.cells f.mul → val cs' f.mul = val w.cells f.mul := by
    intro x hx f hf hk
    refine hold _ hk.1 ?_
    simp only [holds, Bool.or_eq_true, List.any_eq_true]
    refine Or.inr ⟨x, hx, ?_⟩
    simp only [gateHolds, List.any_eq_true]
    exact ⟨f, hf, by simp⟩
  refine ⟨⟨fun f hf e => hok _ (g.mem f hf e), fun x hx => ?_, ?_⟩, ?_, hpre, h3, h2⟩
  · obtain ⟨g1, g2, g3, g4⟩ := g.st x hx
    exact ⟨fun f hf => hok _ (g1 f hf), fun f hf => hok _ (g2 f hf), fun f hf => hok _ (g3 f hf), fun f hf => hok _ (g4 f hf)⟩
  · refine List.IsPrefix.trans ?_ hpre
    rw [List.prefix_take_iff]
    exact ⟨g.one, by simpa [cells0] using hn⟩
  · have em : rdMem cs' w.m = rdMem w.cells w.m := by
      simp only [rdMem]
      congr 1
      refine List.map_congr_left fun f hf => ?_
      unfold rdObj
      split
      · rename_i e
        rw [hold _ (g.mem f hf e).1]
        simp only [holds, Bool.or_eq_true, List.any_eq_true]
        exact Or.inl ⟨f, hf, by simp [e]⟩
      · rfl
    have es : rdSt cs' w.s = rdSt w.cells w.s := by
      simp only [rdSt]
      congr 2
      refine List.map_congr_left fun x hx => ?_
      obtain ⟨g1, g2, g3, g4⟩ := g.st x hx
      have k := hgate x hx
      simp only [List.mem_append] at k
      unfold rdGate
      rw [rdFs_congr fun f hf => k f (by tauto) (g1 f hf), rdFs_congr fun f hf => k f (by tauto) (g2 f hf),
        rdFs_congr fun f hf => k f (by tauto) (g3 f hf), rdFs_congr fun f hf => k f (by tauto) (g4 f hf)]
    simp only [HW.rd, em, es]

theorem operate_sim (F : Faith hc vc) (S : Shares hc) {cur : Nat} {isRet : Bool} {is : List Constraint} {r : Res} {w w' : HW}
    (h : hOperate H q hc cur isRet is w = some (r, w')) :
    Step w w' (okRes w'.cells r ∧ operate H q vc cur isRet is w.rd = some (rdRes w'.cells r, w'.rd)) := by
  rcases is with _ | ⟨op, _ | ⟨x, _ | ⟨y, _ | ⟨z, is⟩⟩⟩⟩
  · cases h
  · cases h
  · cases h
  · simp only [hOperate] at h
    simp only [operate]
    split at h
    swap
    · cases h
    rename_i e0
    rw [if_pos e0]
    split at h
    · rename_i e1
      rw [if_pos e1]
      simp only [Option.bind_eq_bind, Option.bind_eq_some_iff, Prod.exists] at h
      obtain ⟨a, w1, h1, b, w2, h2, f, s, cs, h3, h4⟩ := h
      cases h4
      have s1 := two_sim F h1 h2
      refine ⟨s1.1, fun c g => ?_⟩
      obtain ⟨a1, a2, k1, k2, k3, k4⟩ := s1.2 c g
      obtain ⟨j1, j2, j3, j4⟩ := hMulGate_spec a1.one k1.1 k2.1 a1.st h3
      refine ⟨⟨a1.mem.mono j1, j3, a1.one.trans j1⟩, a2.trans j1, okRes_facs j2, ?_⟩
      have j4' : mulGate H q (rdRes w2.cells a).facs (rdRes w2.cells b).facs w2.rd.s = some (rdFs cs f, rdSt cs s) := j4
      simp only [k3, k4, j4', Option.bind_eq_bind, Option.bind_some, rdRes_facs]
      simp only [HW.rd, rdMem_mono j1 a1.mem]
      rfl
    · rename_i e1
      rw [if_neg e1]
      split at h
      · rename_i e2
        rw [if_pos e2]
        simp only [Option.bind_eq_bind, Option.bind_eq_some_iff, Prod.exists] at h
        obtain ⟨a, w1, h1, b, w2, h2, f, s, cs, h3, h4⟩ := h
        cases h4
        have s1 := two_sim F h1 h2
        refine ⟨s1.1, fun c g => ?_⟩
        obtain ⟨a1, a2, k1, k2, k3, k4⟩ := s1.2 c g
        obtain ⟨j1, j2, j3, j4⟩ := hDivGate_spec a1.one k1.1 a1.st h3
        refine ⟨⟨a1.mem.mono j1, j3, a1.one.trans j1⟩, a2.trans j1, okRes_facs j2, ?_⟩
        have j4' : divGate H q (rdRes w2.cells a).facs (rdRes w2.cells b).facs w2.rd.s = some (rdFs cs f, rdSt cs s) := j4
        simp only [k3, k4, j4', Option.bind_eq_bind, Option.bind_some, rdRes_facs]
        simp only [HW.rd, rdMem_mono j1 a1.mem]
        rfl
      · rename_i e2
        rw [if_neg e2]
        split at h
        · rename_i e3
          rw [if_pos e3]
          simp only [Option.bind_eq_bind, Option.bind_eq_some_iff, Prod.exists] at h
          obtain ⟨a, w1, h1, b, w2, h2, h4⟩ := h
          cases h4
          have s1 := two_sim F h1 h2
          refine ⟨s1.1, fun c g => ?_⟩
          obtain ⟨a1, a2, k1, k2, k3, k4⟩ := s1.2 c g
          obtain ⟨j1, j2, j3⟩ := hAddFactors_spec (q := q) a1.one k1.1 k2.1
          refine ⟨⟨a1.mem.mono j1, a1.st.mono j1, a1.one.trans j1⟩, a2.trans j1, okRes_facs j2, ?_⟩
          have j3' : addFactors q (rdRes w2.cells a).facs (rdRes w2.cells b).facs = _ := j3
          simp only [k3, k4, j3', Option.bind_eq_bind, Option.bind_some, rdRes_facs]
          simp only [HW.rd, rdMem_mono j1 a1.mem, rdSt_mono j1 a1.st]
          rfl
        · rename_i e3
          rw [if_neg e3]
          split at h
          · rename_i e4
            rw [if_pos e4]
            simp only [Option.bind_eq_bind, Option.bind_eq_some_iff, Prod.exists] at h
            obtain ⟨a, w1, h1, b, w2, h2, h4⟩ := h
            cases h4
            have s1 := F _ _ _ _ _ h1
            have s2 := F _ _ _ _ _ h2
            refine ⟨fun c => s1.1 (s2.1 (Bool.and_eq_true _ _ ▸ c).1), fun c g => ?_⟩
            have c' : w2.clean = true ∧ harmless w2 b.facs = true := by
              simpa only [Bool.and_eq_true] using c
            obtain ⟨a1, a2, k1, k2⟩ := s1.2 (s2.1 c'.1) g
            obtain ⟨b1, b2, k3, k4⟩ := s2.2 c'.1 a1
            have hn : 2 ≤ w1.cells.length := by simpa [cells0] using a1.one.length_le
            obtain ⟨n1, n2, n3, n4, n5⟩ := negate_spec b1 k3.1 (owned_of b1 hn _ (S _ _ _ _ _ a1.lt h2).2.out c'.2) hn b2.length_le
            have ht : w2.cells.take w1.cells.length = w1.cells := (List.prefix_iff_eq_take.mp b2).symm
            rw [ht] at n3
            set cs := (hNegate b.facs w2.cells).2 with hcs
            obtain ⟨j1, j2, j3⟩ := hAddFactors_spec (q := q) (cs := cs) n1.one (k1.1.mono n3) n4
            refine ⟨⟨n1.mem.mono j1, n1.st.mono j1, n1.one.trans j1⟩, (a2.trans n3).trans j1, okRes_facs j2, ?_⟩
            rw [n5, rdFs_mono n3 k1.1] at j3
            have j3' : addFactors q (rdRes w1.cells a).facs (negateFactors (rdRes w2.cells b).facs) = _ := j3
            simp only [k2, k4, j3', Option.bind_eq_bind, Option.bind_some, rdRes_facs, ← n2]
            simp only [HW.rd]
            rw [rdMem_mono j1 n1.mem, rdSt_mono j1 n1.st]
            rfl
          · cases h
  · cases h

end APS.Alias
