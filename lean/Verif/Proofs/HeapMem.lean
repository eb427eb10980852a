import Verif.Proofs.HeapForms

/-! Function objects in the heap model (Model/Heap.lean): lookups and copies do not depend on the cells. -/
namespace APS.Alias
open APS.Circuit APS.Prog
open APS.Parse (Constraint)

variable {cs cs' : Cells} {m : Mem}

@[simp] theorem rdMem_maps : (rdMem cs m).maps = m.maps := rfl
@[simp] theorem rdMem_length : (rdMem cs m).objs.length = m.objs.length := List.length_map _
theorem rdMem_objs (a : Nat) : (rdMem cs m).objs[a]? = (m.objs[a]?).map (rdObj cs) := List.getElem?_map
@[simp] theorem rdMem_depth : (rdMem cs m).depth = m.depth := by simp [Mem.depth]

@[simp] theorem rdObj_name {f : FObj} : (rdObj cs f).name = f.name := by unfold rdObj; split <;> rfl
@[simp] theorem rdObj_isNumber {f : FObj} : (rdObj cs f).isNumber = f.isNumber := by unfold rdObj; split <;> rfl
@[simp] theorem rdObj_inputs {f : FObj} : (rdObj cs f).inputs = f.inputs := by unfold rdObj; split <;> rfl
@[simp] theorem rdObj_context {f : FObj} : (rdObj cs f).context = f.context := by unfold rdObj; split <;> rfl
@[simp] theorem rdObj_fmap {f : FObj} : (rdObj cs f).fmap = f.fmap := by unfold rdObj; split <;> rfl
@[simp] theorem rdObj_tasks {f : FObj} : (rdObj cs f).tasks = f.tasks := by unfold rdObj; split <;> rfl
@[simp] theorem rdObj_cmap {f : FObj} : (rdObj cs f).cmap = f.cmap := by unfold rdObj; split <;> rfl
theorem rdObj_value {f : FObj} (h : f.isNumber = true) : (rdObj cs f).value = val cs f.value := by unfold rdObj; rw [if_pos h]
theorem rdObj_plain {f : FObj} (h : f.isNumber = false) : rdObj cs f = f := by unfold rdObj; rw [if_neg (by simp [h])]

theorem ownFunction_rd (a : Nat) (k : Name) : (rdMem cs m).ownFunction a k = m.ownFunction a k := by
  unfold Mem.ownFunction
  rw [rdMem_objs]
  rcases m.objs[a]? with _ | f
  · rfl
  · simp

theorem context_rd (a : Nat) : ((rdMem cs m).objs[a]?).bind FObj.context = (m.objs[a]?).bind FObj.context := by
  rw [rdMem_objs]
  rcases m.objs[a]? with _ | f
  · rfl
  · simp

theorem cmap_rd (a : Nat) (k : Name) : ((rdMem cs m).objs[a]?).bind (·.cmap.lookup k) = (m.objs[a]?).bind (·.cmap.lookup k) := by
  rw [rdMem_objs]
  rcases m.objs[a]? with _ | f
  · rfl
  · simp

theorem findFunction_rd (n : Nat) : ∀ (a : Option Nat) (k : Name), (rdMem cs m).findFunction n a k = m.findFunction n a k := by
  induction n with
  | zero => intro a k; rfl
  | succ n ih =>
    intro a k
    cases a with
    | none => rfl
    | some a => simp only [Mem.findFunction, ownFunction_rd, context_rd, ih]

theorem findConstraint_rd (n : Nat) : ∀ (a : Option Nat) (k : Name), (rdMem cs m).findConstraint n a k = m.findConstraint n a k := by
  induction n with
  | zero => intro a k; rfl
  | succ n ih =>
    intro a k
    cases a with
    | none => rfl
    | some a => simp only [Mem.findConstraint, cmap_rd, context_rd, ih]

theorem findOwner_rd (n : Nat) : ∀ (a : Option Nat) (k : Name), (rdMem cs m).findOwner n a k = m.findOwner n a k := by
  induction n with
  | zero => intro a k; rfl
  | succ n ih =>
    intro a k
    cases a with
    | none => rfl
    | some a => simp only [Mem.findOwner, ownFunction_rd, context_rd, ih]

theorem setFunction_rd (a : Nat) (k : Name) (v : Nat) : (rdMem cs m).setFunction a k v = (m.setFunction a k v).map (rdMem cs) := by
  unfold Mem.setFunction
  rw [rdMem_objs]
  rcases m.objs[a]? with _ | f
  · rfl
  · rcases e : f.fmap with _ | i
    · simp [e]
    · simp [e, rdMem]

theorem setFunction_ok {a : Nat} {k : Name} {v : Nat} {m' : Mem} (h : m.setFunction a k v = some m') (hm : okMem cs m) : okMem cs m' := by
  unfold Mem.setFunction at h
  simp only [Option.bind_eq_bind, Option.bind_eq_some_iff] at h
  obtain ⟨f, h1, i, h2, h3⟩ := h
  cases h3
  exact hm

theorem newCircuit_rd (name : Name) (c : Option Nat) :
    (rdMem cs m).newCircuit name c = ((m.newCircuit name c).1, rdMem cs (m.newCircuit name c).2) := by
  simp only [Mem.newCircuit, List.length_map, rdMem, List.map_append, List.map_cons, List.map_nil]
  rw [rdObj_plain rfl]

theorem newCircuit_ok (name : Name) (c : Option Nat) (hm : okMem cs m) : okMem cs (m.newCircuit name c).2 := by
  intro f hf
  simp only [Mem.newCircuit, List.mem_append, List.mem_singleton] at hf
  rcases hf with hf | rfl
  · exact hm f hf
  · intro e
    cases e

theorem alloc_rd (f : FObj) : (rdMem cs m).alloc (rdObj cs f) = ((m.alloc f).1, rdMem cs (m.alloc f).2) := by
  simp only [Mem.alloc, List.length_map, rdMem, List.map_append, List.map_cons, List.map_nil]

theorem alloc_ok {f : FObj} (hf : okObj cs f) (hm : okMem cs m) : okMem cs (m.alloc f).2 := by
  intro g hg
  simp only [Mem.alloc, List.mem_append, List.mem_singleton] at hg
  rcases hg with hg | rfl
  · exact hm g hg
  · exact hf

theorem update_rd (a : Nat) {g h : FObj → FObj} (hg : ∀ f, rdObj cs (g f) = h (rdObj cs f)) :
    rdMem cs (m.update a g) = (rdMem cs m).update a h := by
  simp only [Mem.update, rdMem]
  congr 1
  apply List.ext_getElem?
  intro i
  simp only [List.getElem?_map, List.getElem?_modify]
  by_cases e : a = i
  · simp only [e, if_true]
    rcases m.objs[i]? with _ | f
    · rfl
    · exact congrArg some (hg f)
  · simp only [e, if_false]
    rcases m.objs[i]? with _ | f <;> rfl

theorem update_ok {a : Nat} {g : FObj → FObj} (hg : ∀ f, okObj cs f → okObj cs (g f)) (hm : okMem cs m) : okMem cs (m.update a g) := by
  intro f hf
  obtain ⟨i, hi⟩ := List.mem_iff_getElem?.mp hf
  simp only [Mem.update, List.getElem?_modify] at hi
  obtain ⟨f0, h1, h2⟩ := Option.map_eq_some_iff.mp hi
  have h0 := hm f0 (List.mem_of_getElem? h1)
  split at h2
  · rw [← h2]; exact hg _ h0
  · rw [← h2]; exact h0

/-- a change that leaves the number alone -/
theorem update_plain {g : FObj → FObj} (h1 : ∀ f, (g f).isNumber = f.isNumber) (h2 : ∀ f, (g f).value = f.value)
    (h3 : ∀ f v, g { f with value := v } = { g f with value := v }) (f : FObj) : rdObj cs (g f) = g (rdObj cs f) := by
  unfold rdObj
  by_cases e : f.isNumber = true
  · have e' : (g f).isNumber = true := (h1 f).trans e
    rw [if_pos e', if_pos e]
    exact (congrArg (fun v => { g f with value := val cs v }) (h2 f)).trans (h3 f (val cs f.value)).symm
  · have e' : ¬ (g f).isNumber = true := by rw [h1]; exact e
    rw [if_neg e, if_neg e']

theorem flatCopy_rd (n : Nat) : ∀ (m : Mem) (a : Nat), okMem cs m →
    flatCopy n (rdMem cs m) a = (flatCopy n m a).map (fun p => (p.1, rdMem cs p.2)) ∧
    ∀ p, flatCopy n m a = some p → okMem cs p.2 := by
  induction n with
  | zero => intro m a _; exact ⟨rfl, fun p h => by cases h⟩
  | succ n ih =>
    intro m a hm
    have key : ∀ (c : Nat) (es : List (Name × Nat)) (m : Mem), okMem cs m →
        (es.foldlM (fun (m : Mem) (x : Name × Nat) => do
          let (w, m) ← flatCopy n m x.2
          let m := m.update w fun g => { g with context := some c }
          m.setFunction c x.1 w) (rdMem cs m)) =
        (es.foldlM (fun (m : Mem) (x : Name × Nat) => do
          let (w, m) ← flatCopy n m x.2
          let m := m.update w fun g => { g with context := some c }
          m.setFunction c x.1 w) m).map (rdMem cs) ∧
        ∀ m', (es.foldlM (fun (m : Mem) (x : Name × Nat) => do
          let (w, m) ← flatCopy n m x.2
          let m := m.update w fun g => { g with context := some c }
          m.setFunction c x.1 w) m) = some m' → okMem cs m' := by
      intro c es
      induction es with
      | nil => intro m hm; exact ⟨rfl, fun m' h => by cases h; exact hm⟩
      | cons e es ihe =>
        intro m hm
        obtain ⟨i1, i2⟩ := ih m e.2 hm
        simp only [List.foldlM_cons, i1]
        rcases h : flatCopy n m e.2 with _ | ⟨w, m1⟩
        · exact ⟨rfl, fun m' h => by cases h⟩
        · have hm1 := i2 _ h
          simp only [Option.map_some, Option.bind_eq_bind, Option.bind_some]
          rw [← update_rd (cs := cs) (m := m1) w (g := fun g => { g with context := some c })
            (h := fun g => { g with context := some c }) (update_plain (fun _ => rfl) (fun _ => rfl) (fun _ _ => rfl)), setFunction_rd]
          have hm2 : okMem cs (m1.update w fun g => { g with context := some c }) := update_ok (fun f hf => hf) hm1
          rcases h3 : (m1.update w fun g => { g with context := some c }).setFunction c e.1 w with _ | m3
          · exact ⟨rfl, fun m' h => by cases h⟩
          · simp only [Option.map_some, Option.bind_some]
            exact ihe m3 (setFunction_ok h3 hm2)
    unfold flatCopy
    rw [rdMem_objs]
    rcases h1 : m.objs[a]? with _ | f
    · exact ⟨rfl, fun p h => by cases h⟩
    · simp only [Option.map_some, Option.bind_eq_bind, Option.bind_some, rdObj_fmap, rdMem_maps]
      rcases h2 : f.fmap with _ | i
      · exact ⟨rfl, fun p h => by cases h⟩
      · simp only [Option.bind_some]
        rcases h3 : m.maps[i]? with _ | es
        · exact ⟨rfl, fun p h => by cases h⟩
        · simp only [Option.bind_some, rdObj_name, rdObj_context, rdObj_inputs, rdObj_cmap, rdObj_tasks, newCircuit_rd]
          rw [← update_rd (cs := cs) (m := (m.newCircuit f.name f.context).2) _
            (g := fun g => { g with inputs := f.inputs, cmap := f.cmap, tasks := f.tasks })
            (h := fun g => { g with inputs := f.inputs, cmap := f.cmap, tasks := f.tasks })
            (update_plain (fun _ => rfl) (fun _ => rfl) (fun _ _ => rfl))]
          have hm1 : okMem cs ((m.newCircuit f.name f.context).2.update (m.newCircuit f.name f.context).1
              fun g => { g with inputs := f.inputs, cmap := f.cmap, tasks := f.tasks }) :=
            update_ok (fun f hf => hf) (newCircuit_ok _ _ hm)
          obtain ⟨k1, k2⟩ := key (m.newCircuit f.name f.context).1 es _ hm1
          simp only [Option.bind_eq_bind] at k1 k2
          rw [k1]
          constructor
          · rcases (es.foldlM _ _ : Option Mem) with _ | m' <;> rfl
          · intro p hp
            obtain ⟨m', h4, h5⟩ := Option.bind_eq_some_iff.mp hp
            cases h5
            exact k2 m' h4

theorem loadArgs_rd (a : Nat) (args : List Nat) (hm : okMem cs m) :
    loadArgs (rdMem cs m) a args = (loadArgs m a args).map (fun p => (p.1, rdMem cs p.2)) ∧
    ∀ p, loadArgs m a args = some p → okMem cs p.2 := by
  have key : ∀ (es : List (Name × Nat)) (m : Mem), okMem cs m →
      (es.foldlM (fun (m : Mem) (x : Name × Nat) => m.setFunction a x.1 x.2) (rdMem cs m)) =
      (es.foldlM (fun (m : Mem) (x : Name × Nat) => m.setFunction a x.1 x.2) m).map (rdMem cs) ∧
      ∀ m', (es.foldlM (fun (m : Mem) (x : Name × Nat) => m.setFunction a x.1 x.2) m) = some m' → okMem cs m' := by
    intro es
    induction es with
    | nil => intro m hm; exact ⟨rfl, fun m' h => by cases h; exact hm⟩
    | cons e es ihe =>
      intro m hm
      simp only [List.foldlM_cons, setFunction_rd]
      rcases h3 : m.setFunction a e.1 e.2 with _ | m3
      · exact ⟨rfl, fun m' h => by cases h⟩
      · simp only [Option.map_some, Option.bind_some, Option.bind_eq_bind]
        exact ihe m3 (setFunction_ok h3 hm)
  unfold loadArgs
  rw [rdMem_objs]
  rcases h1 : m.objs[a]? with _ | f
  · exact ⟨rfl, fun p h => by cases h⟩
  · simp only [Option.map_some, Option.bind_eq_bind, Option.bind_some, rdObj_inputs]
    split
    · exact ⟨rfl, fun p h => by cases h⟩
    · obtain ⟨k1, k2⟩ := key (f.inputs.zip args) m hm
      rw [k1]
      rcases h2 : (f.inputs.zip args).foldlM (fun (m : Mem) (x : Name × Nat) => m.setFunction a x.1 x.2) m with _ | m'
      · exact ⟨rfl, fun p h => by cases h⟩
      · simp only [Option.map_some, Option.bind_some]
        refine ⟨?_, fun p hp => ?_⟩
        · rw [← update_rd (cs := cs) (m := m') a (g := fun g => { g with inputs := f.inputs.drop args.length })
            (h := fun g => { g with inputs := f.inputs.drop args.length })
            (update_plain (fun _ => rfl) (fun _ => rfl) (fun _ _ => rfl))]
          rfl
        · cases hp
          exact update_ok (fun f hf => hf) (k2 _ h2)

/-! ### storing -/

theorem hStoreOne_spec {f : Factor} (h0 : cells0 <+: cs) (hf : ok cs f.mul) (hm : okMem cs m) :
    okMem cs (hStoreOne cs m f).2 ∧ storeOne (rdMem cs m) (rdF cs f) = ((hStoreOne cs m f).1, rdMem cs (hStoreOne cs m f).2) := by
  unfold hStoreOne storeOne
  simp only [rdF_tok, newCircuit_rd]
  by_cases e : f.tok.isNum = true
  · simp only [e, if_true]
    refine ⟨?_, ?_⟩
    · exact update_ok (fun g _ _ => hf) (newCircuit_ok _ _ hm)
    · rw [update_rd (cs := cs) (h := fun g => { g with tasks := [node .ret [] [.mk (tokOf f.tok) []]], isNumber := true, value := val cs f.mul })]
      · rfl
      · intro g
        unfold rdObj
        simp only [if_true]
        split <;> rfl
  · simp only [e, if_false, val_bigOne h0, rdF_mul, Bool.false_eq_true]
    by_cases e2 : val cs f.mul = 1
    · simp only [e2, if_true]
      refine ⟨update_ok (fun g hg => hg) (newCircuit_ok _ _ hm), ?_⟩
      rw [update_rd (cs := cs) (h := fun g => { g with tasks := [node .ret [] [.mk (tokOf f.tok) []]] })]
      exact update_plain (fun _ => rfl) (fun _ => rfl) (fun _ _ => rfl)
    · simp only [e2, if_false]
      refine ⟨update_ok (fun g hg => hg) (newCircuit_ok _ _ hm), ?_⟩
      rw [update_rd (cs := cs) (h := fun g => { g with tasks := [node .ret [] [node .arithmetic ['*'], node .number (intStr (val cs f.mul)), .mk (tokOf f.tok) []]] })]
      exact update_plain (fun _ => rfl) (fun _ => rfl) (fun _ _ => rfl)

theorem hCombine_spec {q : Nat} {a b r : Nat} {m' : Mem} (h0 : cells0 <+: cs) (hm : okMem cs m)
    (h : hCombine q m a b cs = some (r, m', cs')) :
    cs <+: cs' ∧ okMem cs' m' ∧ combine q (rdMem cs m) a b = some (r, rdMem cs' m') := by
  unfold hCombine at h
  unfold combine
  simp only [Option.bind_eq_bind, Option.bind_eq_some_iff] at h
  obtain ⟨fa, h1, fb, h2, h3⟩ := h
  simp only [rdMem_objs, h1, h2, Option.map_some, Option.bind_eq_bind, Option.bind_some, rdObj_isNumber, rdObj_name]
  split at h3
  · rename_i e
    rw [if_pos e]
    have ea : fa.isNumber = true := by simp only [Bool.and_eq_true] at e; exact e.1
    have eb : fb.isNumber = true := by simp only [Bool.and_eq_true] at e; exact e.2
    rw [rdObj_value ea, rdObj_value eb]
    set v := Fq.add q (val cs fa.value) (val cs fb.value) with hv
    have hp := prefix_snoc cs v
    cases h3
    obtain ⟨k1, k2⟩ := hStoreOne_spec (m := m) (f := ⟨⟨true, intStr v⟩, cs.length⟩) (h0.trans hp) (ok_new cs v) (hm.mono hp)
    refine ⟨hp, k1, ?_⟩
    rw [rdMem_mono hp hm] at k2
    simp only [rdF, val_new] at k2
    exact congrArg some k2
  · rename_i e
    rw [if_neg e]
    simp only [Option.bind_eq_some_iff] at h3
    obtain ⟨m1, h4, m2, h5, h6⟩ := h3
    cases h6
    have hm1 := setFunction_ok h4 (newCircuit_ok [] none hm)
    have hm2 := setFunction_ok h5 hm1
    refine ⟨List.prefix_rfl, update_ok (fun g hg => hg) hm2, ?_⟩
    simp only [newCircuit_rd, setFunction_rd, h4, h5, Option.map_some, Option.bind_some]
    rw [update_rd (cs := cs) (h := fun g => { g with tasks :=
      [node .ret [] [node .arithmetic ['+'], node .functionCall fa.name, node .functionCall fb.name]] })]
    · rfl
    · exact update_plain (fun _ => rfl) (fun _ => rfl) (fun _ _ => rfl)

theorem hStore_spec {q : Nat} (l : Factors) : ∀ {cs cs' : Cells} {m m' : Mem} {a : Nat}, cells0 <+: cs → okFs cs l → okMem cs m →
    hStore q l m cs = some (a, m', cs') →
    cs <+: cs' ∧ okMem cs' m' ∧ store q (rdFs cs l) (rdMem cs m) = some (a, rdMem cs' m') := by
  induction l with
  | nil =>
    intro cs cs' m m' a h0 _ hm h
    cases h
    refine ⟨List.prefix_rfl, alloc_ok (fun e => by cases e) hm, ?_⟩
    exact congrArg some (alloc_rd (cs := cs) (m := m) {})
  | cons f fs ih =>
    intro cs cs' m m' a h0 hl hm h
    obtain ⟨hf, hl⟩ := okFs_cons.mp hl
    obtain ⟨k1, k2⟩ := hStoreOne_spec h0 hf hm
    rcases fs with _ | ⟨g, fs⟩
    · cases h
      exact ⟨List.prefix_rfl, k1, congrArg some k2⟩
    · simp only [hStore, Option.bind_eq_bind, Option.bind_eq_some_iff, Prod.exists] at h
      obtain ⟨b, m1, c1, h1, h2⟩ := h
      obtain ⟨j1, j2, j3⟩ := ih h0 hl k1 h1
      obtain ⟨i1, i2, i3⟩ := hCombine_spec (h0.trans j1) j2 h2
      refine ⟨j1.trans i1, i2, ?_⟩
      rw [rdFs_cons, rdFs_cons, store]
      · rw [k2]
        rw [rdFs_cons] at j3
        simp only [j3, Option.bind_eq_bind, Option.bind_some, i3]
      · simp

end APS.Alias
