import Verif.Proofs.HeapSafeRun

/-! Programs whose subtractions have right operands that are computed on the spot run clean: `compile` and `Execute`. -/
namespace APS.Alias
open APS.Circuit APS.Prog
open APS.Parse (Constraint)
open APS.Lex (TokenType)

variable {H : Name → Nat} {q : Nat} {hc : HComp}

/-- a part of the execution of a safe program -/
structure Td (w w' : HW) : Prop where
  go : Go w w'
  mem : SafeMem w'.m
  clean : w'.full = true → w.clean = true → w'.clean = true

/-- the recursive calls -/
def Tidy (hc : HComp) : Prop :=
  ∀ cur k w r w', Lt w → SafeMem w.m → safe k = true → hc cur k w = some (r, w') → Td w w' ∧ SafeObj r.fkt

theorem Td.refl {w : HW} (g : Lt w) (m : SafeMem w.m) : Td w w := ⟨Go.refl g, m, fun _ => id⟩
theorem Td.trans {w w1 w2 : HW} (h : Td w w1) (h' : Td w1 w2) : Td w w2 :=
  ⟨h.go.trans h'.go, h'.mem, fun f c => h'.clean f (h.clean (h'.go.move.full f) c)⟩

theorem Td.lt {w w' : HW} (h : Td w w') : Lt w' := h.go.lt

theorem SafeObj.zero : SafeObj {} := SafeObj.nil

theorem execTasks_tidy (T : Tidy hc) {cur : Nat} (ts : List Constraint) : ∀ {w w' : HW} {r : Res}, Lt w → SafeMem w.m → (∀ c ∈ ts, safe c = true) →
    hExecTasks hc cur ts w = some (r, w') → Td w w' ∧ SafeObj r.fkt := by
  induction ts with
  | nil =>
    intro w w' r g m _ h
    cases h
    exact ⟨Td.refl g m, SafeObj.zero⟩
  | cons t ts ih =>
    intro w w' r g m hs h
    simp only [hExecTasks, Option.bind_eq_bind, Option.bind_eq_some_iff, Prod.exists] at h
    obtain ⟨r1, w1, h1, h2⟩ := h
    obtain ⟨a1, a2⟩ := T _ _ _ _ _ g m (hs t (List.mem_cons_self ..)) h1
    split at h2
    · cases h2
      exact ⟨a1, a2⟩
    · obtain ⟨b1, b2⟩ := ih a1.lt a1.mem (fun c hc => hs c (List.mem_cons_of_mem _ hc)) h2
      exact ⟨a1.trans b1, b2⟩

theorem execFunction_tidy (T : Tidy hc) {a : Nat} {w w' : HW} {r : Res} (g : Lt w) (m : SafeMem w.m) (h : hExecFunction hc a w = some (r, w')) :
    Td w w' ∧ SafeObj r.fkt := by
  simp only [hExecFunction, Option.bind_eq_bind, Option.bind_eq_some_iff] at h
  obtain ⟨f, hf, h⟩ := h
  exact execTasks_tidy T _ g m (m f (List.mem_of_getElem? hf)).tasks h

theorem Td.aside {w w1 : HW} (g : Lt w) (t : List (Factors × St)) (h : Td { w with s := {} } w1) : Td w { w1 with s := w.s, thrown := t } :=
  ⟨Go.aside g t h.go, h.mem, h.clean⟩

theorem checkStatic_tidy (T : Tidy hc) {cur : Nat} {c : Constraint} {w w' : HW} {b : Bool} (g : Lt w) (m : SafeMem w.m) (hs : safe c = true)
    (h : hCheckStatic hc cur c w = some (b, w')) : Td w w' := by
  have hi := (safe_iff.mp hs).2
  unfold hCheckStatic at h
  split at h
  · rename_i op l r _ e
    rw [e] at hi
    simp only [Option.bind_eq_bind, Option.bind_eq_some_iff, Prod.exists] at h
    obtain ⟨x, w1, h1, y, w2, h2, h3⟩ := h
    obtain ⟨a1, _⟩ := T _ _ _ _ _ g.aside m (hi l (by simp)) h1
    obtain ⟨b1, _⟩ := T _ _ _ _ _ a1.lt.aside a1.mem (hi r (by simp)) h2
    have k1 := Td.aside g w1.thrown a1
    have k2 : Td w { w2 with s := w.s, thrown := w2.thrown ++ [(rdFs w2.cells x.facs, rdSt w2.cells w1.s), (rdFs w2.cells y.facs, rdSt w2.cells w2.s)] } := by
      refine k1.trans ?_
      exact Td.aside (w := { w1 with s := w.s, thrown := w1.thrown }) k1.lt _ b1
    have : w' = { w2 with s := w.s, thrown := w2.thrown ++ [(rdFs w2.cells x.facs, rdSt w2.cells w1.s), (rdFs w2.cells y.facs, rdSt w2.cells w2.s)] } := by
      split at h3
      · split at h3
        · repeat' split at h3
          all_goals first | (cases h3; rfl) | cases h3
        · cases h3
      · cases h3
    rw [this]
    exact k2
  · cases h

theorem resolveArray_tidy (T : Tidy hc) {cur : Nat} (is : List Constraint) : ∀ {n n' : Name} {w w' : HW}, Lt w → SafeMem w.m → (∀ c ∈ is, safe c = true) →
    hResolveArray hc cur is n w = some (n', w') → Td w w' := by
  induction is with
  | nil =>
    intro n n' w w' g m _ h
    cases h
    exact Td.refl g m
  | cons i is ih =>
    intro n n' w w' g m hs h
    simp only [hResolveArray, Option.bind_eq_bind, Option.bind_eq_some_iff, Prod.exists] at h
    obtain ⟨r, w1, h1, h2⟩ := h
    obtain ⟨a1, _⟩ := T _ _ _ _ _ g.aside m (hs i (List.mem_cons_self ..)) h1
    have k := Td.aside g (w1.thrown ++ [(rdFs w1.cells r.facs, rdSt w1.cells w1.s)]) a1
    split at h2
    · split at h2
      · split at h2
        · exact k.trans (ih k.lt k.mem (fun c hc => hs c (List.mem_cons_of_mem _ hc)) h2)
        · cases h2
      · cases h2
    · cases h2

theorem callArgs_tidy (T : Tidy hc) (F : Shares hc) {cur : Nat} (vs : List Constraint) : ∀ {as : List Nat} {w w' : HW}, Lt w → SafeMem w.m → (∀ c ∈ vs, safe c = true) →
    hCallArgs q hc cur vs w = some (as, w') → Td w w' := by
  induction vs with
  | nil =>
    intro as w w' g m _ h
    cases h
    exact Td.refl g m
  | cons v vs ih =>
    intro as w w' g m hs h
    have hs' : ∀ c ∈ vs, safe c = true := fun c hc => hs c (List.mem_cons_of_mem _ hc)
    simp only [hCallArgs, Option.bind_eq_bind, Option.bind_eq_some_iff, Prod.exists] at h
    obtain ⟨r, w1, h1, h2⟩ := h
    obtain ⟨a1, a2⟩ := T _ _ _ _ _ g m (hs v (List.mem_cons_self ..)) h1
    obtain ⟨b1, b2⟩ := F _ _ _ _ _ g h1
    split at h2
    · simp only [Option.bind_eq_some_iff, Prod.exists, Option.pure_def, Option.some.injEq, Prod.mk.injEq] at h2
      obtain ⟨as', w2, h3, _, rfl⟩ := h2
      have k : Td w { w1 with m := (w1.m.alloc r.fkt).2 } :=
        ⟨b1.trans (alloc_own b1.lt b2.fkt fun _ => Iff.rfl), smem_alloc a1.mem a2, a1.clean⟩
      exact k.trans (ih k.lt k.mem hs' h3)
    · simp only [Option.bind_eq_some_iff, Prod.exists, Option.pure_def, Option.some.injEq, Prod.mk.injEq] at h2
      obtain ⟨x, m1, cs, h3, as', w2, h4, _, rfl⟩ := h2
      have k : Td w { w1 with m := m1, cells := cs, kept := w1.kept ++ [rdFs w1.cells r.facs] } :=
        ⟨(store_own g b1 b2.out h3 (fun _ => Iff.rfl)).1, smem_store _ a1.mem h3, a1.clean⟩
      exact k.trans (ih k.lt k.mem hs' h4)

theorem callUser_tidy (T : Tidy hc) (F : Shares hc) {cur : Nat} {name : Name} {args : List Constraint} {r : Res} {w w' : HW} (g : Lt w) (m : SafeMem w.m)
    (hs : ∀ c ∈ args, safe c = true) (h : hCallUser q hc cur name args w = some (r, w')) : Td w w' ∧ SafeObj r.fkt := by
  simp only [hCallUser, Option.bind_eq_bind, Option.bind_eq_some_iff, Prod.exists] at h
  obtain ⟨f, _, nxt, m1, h2, as, w1, h3, ready, m2, h4, h5⟩ := h
  have k1 : Td w { w with m := m1 } := ⟨Go.mem g (fun a => num_flat _ h2) rfl rfl, smem_flat _ m h2, fun _ => id⟩
  have k2 := k1.trans (callArgs_tidy T F _ k1.lt k1.mem hs h3)
  have k3 : Td w { w1 with m := m2 } := k2.trans ⟨Go.mem k2.lt (fun a => num_load h4) rfl rfl, smem_load k2.mem h4, fun _ => id⟩
  split at h5
  · simp only [Option.bind_eq_some_iff, Prod.exists, Option.pure_def, Option.some.injEq, Prod.mk.injEq] at h5
    obtain ⟨r1, w2, h6, rfl, rfl⟩ := h5
    obtain ⟨b1, b2⟩ := execFunction_tidy T k3.lt k3.mem h6
    exact ⟨k3.trans b1, b2⟩
  · simp only [Option.bind_eq_some_iff, Option.pure_def, Option.some.injEq, Prod.mk.injEq] at h5
    obtain ⟨o, ho, rfl, rfl⟩ := h5
    exact ⟨k3, k3.mem o (List.mem_of_getElem? ho)⟩

/-- two operands, one after the other -/
theorem two_tidy (T : Tidy hc) {cur : Nat} {l r : Constraint} {a b : Res} {w w1 w2 : HW} (g : Lt w) (m : SafeMem w.m) (hl : safe l = true) (hr : safe r = true)
    (h1 : hc cur l w = some (a, w1)) (h2 : hc cur r w1 = some (b, w2)) : Td w w2 := by
  obtain ⟨a1, _⟩ := T _ _ _ _ _ g m hl h1
  obtain ⟨b1, _⟩ := T _ _ _ _ _ a1.lt a1.mem hr h2
  exact a1.trans b1

/-- new cells are harmless -/
theorem harmless_of_fresh {n : Nat} {w : HW} {l : Factors} (hn : 2 ≤ n) (h : Fresh n w l) : harmless w l = true := by
  simp only [harmless, List.all_eq_true]
  intro f hf
  rcases h f hf with ⟨a, b, c⟩ | e
  · have h1 : f.mul ≠ bigOne := by
      simp only [bigOne]
      omega
    have h2 : constant w f.mul = false := by
      by_contra hh
      have hh : constant w f.mul = true := by simpa using hh
      simp only [constant, List.any_eq_true, Bool.and_eq_true, decide_eq_true_eq] at hh
      obtain ⟨x, hx, e1, e2⟩ := hh
      exact c (Or.inl ⟨x, hx, e1, e2⟩)
    simp [h1, h2]
  · simp [e]

theorem operate_tidy (T : Tidy hc) (F : Shares hc) (G : Fresh.Comp hc) {cur : Nat} {isRet : Bool} {is : List Constraint} {r : Res} {w w' : HW} (g : Lt w)
    (m : SafeMem w.m) (hs : SafeIs is) (h : hOperate H q hc cur isRet is w = some (r, w')) : Td w w' ∧ SafeObj r.fkt := by
  have hgo := (operate_own F g h).1
  unfold hOperate at h
  split at h
  · rename_i w op l r'
    have hl := hs.2 l (by simp)
    have hr := hs.2 r' (by simp)
    split at h
    · rename_i hop
      split at h
      · simp only [Option.bind_eq_bind, Option.bind_eq_some_iff, Prod.exists, Option.pure_def, Option.some.injEq, Prod.mk.injEq] at h
        obtain ⟨a, w1, h1, b, w2, h2, f, s, cs, h3, rfl, rfl⟩ := h
        have k := two_tidy T g m hl hr h1 h2
        exact ⟨⟨hgo, k.mem, fun f c => k.clean (by simp only [Bool.and_eq_true] at f; exact f.1.1) c⟩, SafeObj.zero⟩
      · split at h
        · simp only [Option.bind_eq_bind, Option.bind_eq_some_iff, Prod.exists, Option.pure_def, Option.some.injEq, Prod.mk.injEq] at h
          obtain ⟨a, w1, h1, b, w2, h2, f, s, cs, h3, rfl, rfl⟩ := h
          have k := two_tidy T g m hl hr h1 h2
          exact ⟨⟨hgo, k.mem, fun f c => k.clean (by simp only [Bool.and_eq_true] at f; exact f.1.1) c⟩, SafeObj.zero⟩
        · split at h
          · simp only [Option.bind_eq_bind, Option.bind_eq_some_iff, Prod.exists, Option.pure_def, Option.some.injEq, Prod.mk.injEq] at h
            obtain ⟨a, w1, h1, b, w2, h2, rfl, rfl⟩ := h
            have k := two_tidy T g m hl hr h1 h2
            exact ⟨⟨hgo, k.mem, k.clean⟩, SafeObj.zero⟩
          · split at h
            · rename_i hm
              simp only [Option.bind_eq_bind, Option.bind_eq_some_iff, Prod.exists, Option.pure_def, Option.some.injEq, Prod.mk.injEq] at h
              obtain ⟨a, w1, h1, b, w2, h2, rfl, rfl⟩ := h
              have k := two_tidy T g m hl hr h1 h2
              have a1 := (F _ _ _ _ _ g h1).1
              have hsim : simple r' = true := by
                have := hs.1
                simpa [minusOK, hop, hm] using this
              refine ⟨⟨hgo, k.mem, fun f c => ?_⟩, SafeObj.zero⟩
              simp only [Bool.and_eq_true]
              exact ⟨k.clean f c, harmless_of_fresh a1.lt.1 (G _ _ _ _ _ hsim a1.lt h2 f)⟩
            · cases h
    · cases h
  · cases h

theorem breakArgs_tidy (T : Tidy hc) {cur : Nat} (vs : List Constraint) : ∀ {w w' : HW}, Lt w → SafeMem w.m → (∀ c ∈ vs, safe c = true) →
    hBreakArgs hc cur vs w = some w' → Td w w' := by
  induction vs with
  | nil =>
    intro w w' g m _ h
    cases h
    exact Td.refl g m
  | cons v vs ih =>
    intro w w' g m hs h
    simp only [hBreakArgs, Option.bind_eq_bind, Option.bind_eq_some_iff, Prod.exists] at h
    obtain ⟨r, w1, h1, h2⟩ := h
    have k := (T _ _ _ _ _ g m (hs v (List.mem_cons_self ..)) h1).1
    exact k.trans (ih k.lt k.mem (fun c hc => hs c (List.mem_cons_of_mem _ hc)) h2)

theorem callFunction_tidy (T : Tidy hc) (F : Shares hc) {cur : Nat} {name : Name} {is : List Constraint} {r : Res} {w w' : HW} (g : Lt w)
    (m : SafeMem w.m) (hs : SafeIs is) (h : hCallFunction H q hc cur name is w = some (r, w')) : Td w w' ∧ SafeObj r.fkt := by
  have hgo := (callFunction_own F g h).1
  unfold hCallFunction at h
  split at h
  · simp only [Option.bind_eq_bind, Option.bind_eq_some_iff, Option.pure_def, Option.some.injEq, Prod.mk.injEq] at h
    obtain ⟨w1, h1, rfl, rfl⟩ := h
    exact ⟨breakArgs_tidy T _ g m hs.2 h1, SafeObj.zero⟩
  split at h
  · split at h
    · simp only [Option.bind_eq_bind, Option.bind_eq_some_iff, Prod.exists, Option.pure_def, Option.some.injEq, Prod.mk.injEq] at h
      obtain ⟨x, w1, h1, s, cs, h2, rfl, rfl⟩ := h
      obtain ⟨a1, a2⟩ := T _ _ _ _ _ g m (hs.2 _ (by simp)) h1
      exact ⟨⟨hgo, a1.mem, a1.clean⟩, SafeObj.zero⟩
    · cases h
  split at h
  · cases h
  split at h
  · split at h
    · simp only [Option.bind_eq_bind, Option.bind_eq_some_iff, Prod.exists, Option.pure_def, Option.some.injEq, Prod.mk.injEq] at h
      obtain ⟨x, w1, h1, y, w2, h2, f, s, cs, h3, rfl, rfl⟩ := h
      have k := two_tidy T g m (hs.2 _ (by simp)) (hs.2 _ (by simp)) h1 h2
      exact ⟨⟨hgo, k.mem, k.clean⟩, SafeObj.zero⟩
    · cases h
  split at h
  · split at h
    · simp only [Option.bind_eq_bind, Option.bind_eq_some_iff, Prod.exists, Option.pure_def, Option.some.injEq, Prod.mk.injEq] at h
      obtain ⟨x, w1, h1, f, s, h2, rfl, rfl⟩ := h
      obtain ⟨a1, a2⟩ := T _ _ _ _ _ g m (hs.2 _ (by simp)) h1
      exact ⟨⟨hgo, a1.mem, a1.clean⟩, SafeObj.zero⟩
    · cases h
  split at h
  · split at h
    · simp only [Option.bind_eq_bind, Option.bind_eq_some_iff, Prod.exists, Option.pure_def, Option.some.injEq, Prod.mk.injEq] at h
      obtain ⟨x, w1, h1, y, w2, h2, s, _, h3, rfl, rfl⟩ := h
      have k := two_tidy T g m (hs.2 _ (by simp)) (hs.2 _ (by simp)) h1 h2
      exact ⟨⟨hgo, k.mem, k.clean⟩, SafeObj.zero⟩
    · cases h
  · exact callUser_tidy T F g m hs.2 h

theorem targetName_tidy (T : Tidy hc) {cur : Nat} {x : Constraint} {n : Name} {w w' : HW} (g : Lt w) (m : SafeMem w.m) (hs : safe x = true)
    (h : hTargetName hc cur x w = some (n, w')) : Td w w' := by
  unfold hTargetName at h
  split at h
  · exact resolveArray_tidy T _ g m (safe_iff.mp hs).2 h
  · cases h
    exact Td.refl g m

theorem assignTo_tidy {cur : Nat} {name : Name} {r r' : Res} {w w' : HW} (m : SafeMem w.m) (hr : SafeObj r.fkt)
    (h : hAssignTo q cur name r w = some (r', w')) : SafeMem w'.m ∧ w'.clean = w.clean ∧ w'.full = w.full ∧ SafeObj r'.fkt := by
  simp only [hAssignTo, Option.bind_eq_bind, Option.bind_eq_some_iff] at h
  obtain ⟨o, _, h⟩ := h
  split at h
  · simp only [Option.bind_eq_some_iff, Option.pure_def, Option.some.injEq, Prod.mk.injEq] at h
    obtain ⟨m1, h1, rfl, rfl⟩ := h
    exact ⟨smem_set (smem_alloc m hr) h1, rfl, rfl, SafeObj.zero⟩
  · simp only [Option.bind_eq_some_iff, Prod.exists, Option.pure_def, Option.some.injEq, Prod.mk.injEq] at h
    obtain ⟨x, m1, cs, h1, m', h2, rfl, rfl⟩ := h
    exact ⟨smem_set (smem_store _ m h1) h2, rfl, rfl, SafeObj.zero⟩

theorem step_tidy (T : Tidy hc) (F : Shares hc) (G : Fresh.Comp hc) : Tidy (hCompileStep H q hc) := by
  intro cur k w r w' g m hs h
  have hgo := (step_own F g h).1
  have hi := safe_iff.mp hs
  unfold hCompileStep at h
  split at h
  · simp only [Option.map_eq_some_iff, Prod.exists, Prod.mk.injEq, hCompileNum] at h
    obtain ⟨f, cs, ⟨f', _, h1⟩, rfl, rfl⟩ := h
    exact ⟨⟨hgo, m, fun _ => id⟩, SafeObj.zero⟩
  · simp only [Option.bind_eq_bind, Option.bind_eq_some_iff] at h
    obtain ⟨x, _, f, hf, h⟩ := h
    split at h
    · simp only [Option.pure_def, Option.some.injEq, Prod.mk.injEq] at h
      obtain ⟨rfl, rfl⟩ := h
      exact ⟨Td.refl g m, SafeObj.zero⟩
    · split at h
      · simp only [Option.bind_eq_some_iff] at h
        obtain ⟨con, hcon, h⟩ := h
        exact T _ _ _ _ _ g m (safe_find m _ hcon) h
      · simp only [Option.pure_def, Option.some.injEq, Prod.mk.injEq] at h
        obtain ⟨rfl, rfl⟩ := h
        exact ⟨Td.refl g m, m f (List.mem_of_getElem? hf)⟩
  · split at h
    · rename_i c step _ e
      rw [e] at hi
      simp only [Option.bind_eq_bind, Option.bind_eq_some_iff, Prod.exists] at h
      obtain ⟨go, w1, h1, h⟩ := h
      have k1 := checkStatic_tidy T g m (hi.2 c (by simp)) h1
      split at h
      · simp only [Option.bind_eq_some_iff, Prod.exists] at h
        obtain ⟨r1, w2, h2, h⟩ := h
        obtain ⟨k2, k3⟩ := T _ _ _ _ _ k1.lt k1.mem (safe_node.mpr SafeIs.nil) h2
        split at h
        · simp only [Option.pure_def, Option.some.injEq, Prod.mk.injEq] at h
          obtain ⟨rfl, rfl⟩ := h
          exact ⟨k1.trans k2, k3⟩
        · simp only [Option.bind_eq_some_iff, Prod.exists] at h
          obtain ⟨r2, w3, h3, h⟩ := h
          have k4 := k1.trans (k2.trans (T _ _ _ _ _ k2.lt k2.mem (hi.2 step (by simp)) h3).1)
          obtain ⟨k5, k6⟩ := T _ _ _ _ _ k4.lt k4.mem hs h
          exact ⟨k4.trans k5, k6⟩
      · simp only [Option.pure_def, Option.some.injEq, Prod.mk.injEq] at h
        obtain ⟨rfl, rfl⟩ := h
        exact ⟨k1, SafeObj.zero⟩
    · cases h
  · split at h
    · simp only [Option.bind_eq_bind, Option.bind_eq_some_iff] at h
      obtain ⟨f, hf, con, hcon, h⟩ := h
      refine T _ _ _ _ _ g m ((m f (List.mem_of_getElem? hf)).cmap (k.output.text, con) ?_) h
      exact mem_of_lookup hcon
    · rename_i c e
      rw [e] at hi
      exact T _ _ _ _ _ g m (hi.2 c (by simp)) h
    · exact operate_tidy T F G g m hi h
  · split at h
    · simp only [newCell, Option.some.injEq, Prod.mk.injEq] at h
      obtain ⟨rfl, rfl⟩ := h
      exact ⟨⟨hgo, m, fun _ => id⟩, SafeObj.zero⟩
    · rename_i c e
      rw [e] at hi
      simp only [Option.bind_eq_bind, Option.bind_eq_some_iff, Prod.exists, Option.pure_def, Option.some.injEq, Prod.mk.injEq] at h
      obtain ⟨r1, w1, h1, rfl, rfl⟩ := h
      obtain ⟨a1, a2⟩ := T _ _ _ _ _ g m (hi.2 c (by simp)) h1
      exact ⟨a1, a2⟩
    · exact operate_tidy T F G g m hi h
  · simp only [newCell, Option.some.injEq, Prod.mk.injEq] at h
    obtain ⟨rfl, rfl⟩ := h
    exact ⟨⟨hgo, m, fun _ => id⟩, SafeObj.zero⟩
  · split at h
    · rename_i x e' e
      rw [e] at hi
      simp only [Option.bind_eq_bind, Option.bind_eq_some_iff, Prod.exists] at h
      obtain ⟨n, w1, h1, r1, w2, h2, h3⟩ := h
      have k1 := targetName_tidy T g m (hi.2 x (by simp)) h1
      obtain ⟨k2, k3⟩ := T _ _ _ _ _ k1.lt k1.mem (hi.2 e' (by simp)) h2
      obtain ⟨a1, a2, a3, a4⟩ := assignTo_tidy k2.mem k3 h3
      exact ⟨⟨hgo, a1, fun f c => by rw [a2]; exact (k1.trans k2).clean (a3 ▸ f) c⟩, a4⟩
    · cases h
  · simp only [Option.bind_eq_bind, Option.bind_eq_some_iff, Prod.exists, Option.pure_def, Option.some.injEq, Prod.mk.injEq] at h
    obtain ⟨n, w1, h1, con, hcon, r1, w2, h2, rfl, rfl⟩ := h
    have k1 := resolveArray_tidy T _ g m hi.2 h1
    obtain ⟨k2, k3⟩ := T _ _ _ _ _ k1.lt k1.mem (safe_find k1.mem _ hcon) h2
    exact ⟨k1.trans k2, k3⟩
  · split at h
    · exact T _ _ _ _ _ g m (safe_node.mpr SafeIs.nil) h
    · rename_i c _ e
      rw [e] at hi
      simp only [Option.bind_eq_bind, Option.bind_eq_some_iff, Prod.exists] at h
      obtain ⟨go, w1, h1, h⟩ := h
      have k1 := checkStatic_tidy T g m (hi.2 c (by simp)) h1
      split at h
      · obtain ⟨k2, k3⟩ := T _ _ _ _ _ k1.lt k1.mem (safe_node.mpr SafeIs.nil) h
        exact ⟨k1.trans k2, k3⟩
      · simp only [Option.pure_def, Option.some.injEq, Prod.mk.injEq] at h
        obtain ⟨rfl, rfl⟩ := h
        exact ⟨k1, SafeObj.zero⟩
  · simp only [Option.bind_eq_bind, Option.bind_eq_some_iff] at h
    obtain ⟨x, _, h⟩ := h
    exact execFunction_tidy T g m h
  · exact callFunction_tidy T F g m hi h
  · exact operate_tidy T F G g m hi h

theorem compile_tidy (n : Nat) : Tidy (hCompile H q n) := by
  induction n with
  | zero => intro cur k w r w' _ _ _ h; cases h
  | succ n ih => exact step_tidy ih (compile_own n) (compile_fresh n)

/-- the gate of `completeFunction` keeps the result -/
theorem complete_own {f : Factors} {s s' : St} {cs : Cells} (h : hComplete H f s cs = some s') :
    ∀ a, GHolds s' a → GHolds s a ∨ (∃ x ∈ f, x.mul = a) ∨ a = bigOne := by
  have key : hComplete.completeAdd H f s cs = some s' → ∀ a, GHolds s' a → GHolds s a ∨ (∃ x ∈ f, x.mul = a) ∨ a = bigOne := by
    intro h
    simp only [hComplete.completeAdd, Option.bind_eq_bind, Option.bind_eq_some_iff, Prod.exists, Option.pure_def, Option.some.injEq] at h
    obtain ⟨sig, _, s1, _, h1, rfl⟩ := h
    refine add_own (P := fun a => (∃ x ∈ f, x.mul = a) ∨ a = bigOne) (fun z hz => ?_) (fun _ h => h) h1
    simp only [List.append_nil, List.mem_append, List.mem_singleton] at hz
    rcases hz with hz | rfl
    · exact Or.inl ⟨z, hz, rfl⟩
    · exact Or.inr rfl
  unfold hComplete at h
  split at h
  · cases h
    exact fun a ha => Or.inl ha
  · split at h
    · split at h
      · cases h
        exact fun a ha => Or.inl ha
      · exact key h
    · exact key h

theorem executeTasks_tidy {n main : Nat} (ts : List Constraint) : ∀ {f : Factors} {w w' : HW}, Lt w → SafeMem w.m → (∀ c ∈ ts, safe c = true) →
    hExecuteTasks H q n main ts w = some (f, w') → Td w w' := by
  induction ts with
  | nil =>
    intro f w w' g m _ h
    cases h
    exact Td.refl g m
  | cons t ts ih =>
    intro f w w' g m hs h
    simp only [hExecuteTasks, Option.bind_eq_bind, Option.bind_eq_some_iff, Prod.exists] at h
    obtain ⟨r, w1, h1, s, h2, h3⟩ := h
    obtain ⟨a1, a2⟩ := compile_tidy n _ _ _ _ _ g m (hs t (List.mem_cons_self ..)) h1
    obtain ⟨b1, b2⟩ := compile_own n _ _ _ _ _ g h1
    have k : Td w { w1 with s := s } := by
      refine ⟨hold_go b1 b2.out (le_refl _) fun a ha => ?_, a1.mem, a1.clean⟩
      rcases complete_own h2 a ha with h | h | h
      · exact Or.inl h
      · exact Or.inr (Or.inr (Or.inr (Or.inl h)))
      · exact Or.inr (Or.inl h)
    split at h3
    · cases h3
      exact k
    · exact k.trans (ih k.lt k.mem (fun c hc => hs c (List.mem_cons_of_mem _ hc)) h3)

/-- if every subtraction has a simple right operand and no operand is missing, the execution is clean -/
theorem execute_tidy {n : Nat} {m : Mem} {cs : Cells} {f : Factors} {w : HW} (hm : NoNumbers m) (hs : SafeMem m) (h0 : cells0 <+: cs)
    (h : hExecute H q n m cs = some (f, w)) (hf : w.full = true) : w.clean = true := by
  simp only [hExecute, Option.bind_eq_bind, Option.bind_eq_some_iff] at h
  obtain ⟨main, h1, o, h2, h3⟩ := h
  have g : Good { m := m, cells := cs } := ⟨fun f hf e => absurd (e.symm.trans (hm f hf)) (by decide), okSt_nil, h0⟩
  exact (executeTasks_tidy _ g.lt hs (hs o (List.mem_of_getElem? h2)).tasks h3).clean hf rfl

end APS.Alias
