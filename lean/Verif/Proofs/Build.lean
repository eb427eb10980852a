import Verif.Spec.Emit
import Verif.Proofs.Nested
import Verif.Proofs.Load

/-! `preCompile` on the constraints of a program: the heap it builds. -/
namespace APS.Prog
open APS.Lex (Token TokenType)
open APS.Parse (Constraint marker)
open APS.Circuit
open APS.LangSpec (builtins Stm Fun isWord okEx okExs okStms declared emit emits emitFun emitFin Program ifFrees)
open APS.ParseSpec (Ex indexText tree trees tuples)
open APS.ProgSpec (nestedEnd)

variable {P : List Fun}

theorem target_eq (x : Name) (is : List Ex) : APS.LangSpec.target x is = target x is := by cases is <;> rfl

theorem ite_some {α : Type*} {c : Prop} [Decidable c] {x : Option α} {y : α} (h : (if c then x else none) = some y) : x = some y := by
  by_cases hc : c
  · rwa [if_pos hc] at h
  · rw [if_neg hc] at h; cases h

/-! ### nesting -/

theorem even_fin (fin : Option Ex) : Even (emitFin fin) := by
  cases fin with
  | none => exact .nil
  | some e => exact .single (by simp [lv1, marker, Constraint.output, opensNested])

theorem emitFin_task (fin : Option Ex) : emitFin fin = retTask fin := by cases fin <;> rfl

theorem noEnd_fin (fin : Option Ex) : ∀ x ∈ emitFin fin, x.output.type ≠ .ifElseEnd := by
  cases fin <;> simp [emitFin, marker, Constraint.output]

mutual
theorem even_st : ∀ st : Stm, Even (emit st)
  | .decl .. => by unfold emit; exact .single (by simp [lv1, Constraint.output, opensNested])
  | .declArr .. => by unfold emit; exact .single (by simp [lv1, Constraint.output, opensNested])
  | .assign .. => by unfold emit; exact .single (by simp [lv1, marker, Constraint.output, opensNested])
  | .call .. => by unfold emit; exact .single (by simp [lv1, Constraint.output, opensNested])
  | .loop _ _ _ _ _ body => by unfold emit; exact .wrap rfl (even_sts body)
  | .cond l cmp r body fin => by
    unfold emit
    have h := (Even.wrap (c := marker .ifT [tree (.bin ⟨.comparator, cmp⟩ l r)]) rfl ((even_sts body).append (even_fin fin))).append
      (.single (c := marker .ifElseEnd) (by simp [lv1, marker, Constraint.output, opensNested]))
    simpa [nestedEnd, marker] using h
theorem even_sts : ∀ sts : List Stm, Even (emits sts)
  | [] => by unfold emits; exact .nil
  | st :: sts => by unfold emits; exact (even_st st).append (even_sts sts)
end

theorem split_ifEnd {c : Constraint} (hc : c.output.type = .ifElseEnd) (r : List Constraint) : ∀ (l : List Constraint),
    (∀ x ∈ l, x.output.type ≠ .ifElseEnd) → splitAtIfEnd (l ++ c :: r) = some (l, c :: r) := by
  intro l
  induction l with
  | nil => intro _; simp [splitAtIfEnd, hc]
  | cons x l ih =>
    intro h
    simp only [List.cons_append, splitAtIfEnd, if_neg (h x (by simp)), ih fun y hy => h y (List.mem_cons_of_mem _ hy), Option.map_some]

mutual
theorem noEnd_st : ∀ st : Stm, st.ifFree = true → ∀ x ∈ emit st, x.output.type ≠ .ifElseEnd
  | .decl .., _ => by unfold emit; simp [Constraint.output]
  | .declArr .., _ => by unfold emit; simp [Constraint.output]
  | .assign .., _ => by unfold emit; simp [marker, Constraint.output]
  | .call .., _ => by unfold emit; simp [Constraint.output]
  | .loop _ _ _ _ _ body, h => by
    unfold Stm.ifFree at h
    have := noEnd_sts body h
    unfold emit
    intro x hx
    rcases List.mem_cons.mp hx with rfl | hx
    · simp [marker, Constraint.output]
    · rcases List.mem_append.mp hx with hx | hx
      · exact this x hx
      · simp at hx; subst hx; simp [marker, Constraint.output]
  | .cond .., h => by simp [Stm.ifFree] at h
theorem noEnd_sts : ∀ sts : List Stm, ifFrees sts = true → ∀ x ∈ emits sts, x.output.type ≠ .ifElseEnd
  | [], _ => by unfold emits; simp
  | st :: sts, h => by
    simp only [ifFrees, Bool.and_eq_true] at h
    unfold emits
    intro x hx
    rcases List.mem_append.mp hx with hx | hx
    · exact noEnd_st st h.1 x hx
    · exact noEnd_sts sts h.2 x hx
end

/-! ### changes to one block -/

/-- a block that is being built -/
structure Blk (m : Mem) (cur : Nat) (f : FObj) (j : Nat) (ents : List (Name × Nat)) : Prop where
  obj : m.objs[cur]? = some f
  fmap : f.fmap = some j
  map : m.maps[j]? = some ents
  ok : MemOK m

/-- only the object `cur` and the map `j` have changed -/
structure Only (cur j : Nat) (m m' : Mem) : Prop where
  olen : m.objs.length ≤ m'.objs.length
  mlen : m.maps.length ≤ m'.maps.length
  objs : ∀ b, b < m.objs.length → b ≠ cur → m'.objs[b]? = m.objs[b]?
  maps : ∀ i, i < m.maps.length → i ≠ j → m'.maps[i]? = m.maps[i]?

theorem Only.refl (cur j : Nat) (m : Mem) : Only cur j m m := ⟨le_refl _, le_refl _, fun _ _ _ => rfl, fun _ _ _ => rfl⟩

theorem Only.trans {cur j : Nat} {a b c : Mem} (h : Only cur j a b) (h' : Only cur j b c) : Only cur j a c :=
  ⟨le_trans h.olen h'.olen, le_trans h.mlen h'.mlen,
    fun x hx hn => (h'.objs x (lt_of_lt_of_le hx h.olen) hn).trans (h.objs x hx hn),
    fun i hi hn => (h'.maps i (lt_of_lt_of_le hi h.mlen) hn).trans (h.maps i hi hn)⟩

/-- changes of what is new -/
theorem Only.other {cur j cur' j' : Nat} {a b c : Mem} (h : Only cur j a b) (h' : Only cur' j' b c) (hc : a.objs.length ≤ cur') (hj : a.maps.length ≤ j') :
    Only cur j a c :=
  ⟨le_trans h.olen h'.olen, le_trans h.mlen h'.mlen,
    fun x hx hn => (h'.objs x (lt_of_lt_of_le hx h.olen) (by omega)).trans (h.objs x hx hn),
    fun i hi hn => (h'.maps i (lt_of_lt_of_le hi h.mlen) (by omega)).trans (h.maps i hi hn)⟩

theorem Blk.lt {m : Mem} {cur j : Nat} {f : FObj} {ents : List (Name × Nat)} (h : Blk m cur f j ents) : cur < m.objs.length ∧ j < m.maps.length :=
  ⟨lt_of_obj h.obj, (List.getElem?_eq_some_iff.mp h.map).1⟩

/-- another block -/
theorem Blk.other {m m' : Mem} {a i : Nat} {f : FObj} {ents : List (Name × Nat)} (h : Blk m a f i ents) {cur j : Nat} (ho : Only cur j m m') (ok : MemOK m')
    (hn : a ≠ cur) (hi : i ≠ j) : Blk m' a f i ents :=
  ⟨by rw [ho.objs a h.lt.1 hn]; exact h.obj, h.fmap, by rw [ho.maps i h.lt.2 hi]; exact h.map, ok⟩

theorem Blk.update {m : Mem} {cur j : Nat} {f : FObj} {ents : List (Name × Nat)} (h : Blk m cur f j ents) (g : FObj → FObj) (hg : ∀ o, (g o).fmap = o.fmap) :
    Blk (m.update cur g) cur (g f) j ents ∧ Only cur j m (m.update cur g) := by
  refine ⟨⟨by rw [update_obj, h.obj]; simp, by rw [hg]; exact h.fmap, h.map, update_ok h.ok _ _ hg⟩, ?_⟩
  exact ⟨by rw [update_olen], le_refl _, fun b _ hb => by rw [update_obj, if_neg (Ne.symm hb)], fun _ _ _ => rfl⟩

theorem Blk.set {m m' : Mem} {cur j : Nat} {f : FObj} {ents : List (Name × Nat)} (h : Blk m cur f j ents) {k : Name} {v : Nat} (hv : v < m.objs.length)
    (hs : m.setFunction cur k v = some m') : Blk m' cur f j (put k v ents) ∧ Only cur j m m' ∧ m'.objs = m.objs := by
  obtain ⟨o, i, h1, h2, rfl⟩ := set_eq hs
  rw [h.obj] at h1; cases h1
  rw [h.fmap] at h2; cases h2
  refine ⟨⟨h.obj, h.fmap, by rw [modify_map]; simp [h.map], modify_ok h.ok _ _ hv⟩, ?_, rfl⟩
  exact ⟨le_refl _, by simp, fun _ _ _ => rfl, fun i _ hi => by rw [modify_map, if_neg (Ne.symm hi)]⟩

theorem Blk.new {m : Mem} {cur j : Nat} {f : FObj} {ents : List (Name × Nat)} (h : Blk m cur f j ents) (n : Name) (ctx : Option Nat) :
    Blk (m.newCircuit n ctx).2 cur f j ents ∧ Only cur j m (m.newCircuit n ctx).2 ∧
      Blk (m.newCircuit n ctx).2 m.objs.length { name := n, context := ctx, fmap := some m.maps.length } m.maps.length [] := by
  have ok := newCircuit_ok h.ok n ctx
  have g := newCircuit_grow m n ctx
  exact ⟨⟨g.obj h.obj, h.fmap, g.map h.map id, ok⟩, ⟨g.olen, g.mlen, fun b hb _ => g.objs b hb, fun i hi _ => g.maps i hi id⟩,
    ⟨newCircuit_obj m n ctx, rfl, newCircuit_map m n ctx, ok⟩⟩

theorem Blk.own {m : Mem} {cur j : Nat} {f : FObj} {ents : List (Name × Nat)} (h : Blk m cur f j ents) (k : Name) : m.ownFunction cur k = ents.lookup k :=
  own_eq h.obj h.fmap h.map k

theorem declare_spec {m m' : Mem} {cur j : Nat} {f : FObj} {ents : List (Name × Nat)} (h : Blk m cur f j ents) {x : Name} {e : Ex}
    (hd : declare m cur ⟨.varDeclare, x⟩ [tree e] = some m') :
    ents.lookup x = none ∧ ∃ v, Blk m' cur ({ f with tasks := f.tasks ++ [setTask (.mk ⟨.varDeclare, x⟩ []) e], cmap := put x (node .functionCall x) f.cmap } : FObj) j (put x v ents) ∧ Only cur j m m' := by
  have hlt := h.lt
  simp only [declare, h.own] at hd
  split at hd
  · cases hd
  · rename_i hn
    refine ⟨hn, m.objs.length, ?_⟩
    simp only [Option.bind_eq_bind, Option.bind_eq_some_iff, List.head?_cons, Option.some.injEq, exists_eq_left', Option.pure_def, Mem.addTask] at hd
    obtain ⟨m2, h2, rfl⟩ := hd
    obtain ⟨b1, o1, c1⟩ := h.new x (some cur)
    obtain ⟨u1, u2⟩ := c1.update (fun f => { f with tasks := [node .ret [] [tree e]] }) (fun _ => rfl)
    have b2 := b1.other u2 u1.ok (by omega) (by omega)
    have o2 : Only cur j m ((m.newCircuit x (some cur)).2.update m.objs.length fun f => { f with tasks := [node .ret [] [tree e]] }) :=
      ⟨le_trans o1.olen u2.olen, le_trans o1.mlen u2.mlen,
        fun b hb hn => (u2.objs b (lt_of_lt_of_le hb o1.olen) (by omega)).trans (o1.objs b hb hn),
        fun i hi hn => (u2.maps i (lt_of_lt_of_le hi o1.mlen) (by omega)).trans (o1.maps i hi hn)⟩
    obtain ⟨b3, o3, -⟩ := b2.set (by rw [update_olen]; simp [Mem.newCircuit]) h2
    obtain ⟨b4, o4⟩ := b3.update (fun f => { f with cmap := put x (node .functionCall x) f.cmap }) (fun _ => rfl)
    obtain ⟨b5, o5⟩ := b4.update (fun f => { f with tasks := f.tasks ++ [node .varOverload [] [.mk ⟨.varDeclare, x⟩ [], tree e]] }) (fun _ => rfl)
    exact ⟨b5, ((o2.trans o3).trans o4).trans o5⟩

/-! ### results of blocks -/

theorem forName_inj {i j : Nat} (h : forName i = forName j) : i = j := by
  have h1 : Nat.toDigits 10 i = Nat.toDigits 10 j := by
    have := h
    unfold forName taskName at this
    exact List.append_cancel_right this
  have := congrArg (fun l => Nat.ofDigitChars 10 l 0) h1
  simpa [Nat.ofDigitChars_toDigits] using this

theorem ifName_inj {i j : Nat} (h : ifName i = ifName j) : i = j := by
  have h1 : Nat.toDigits 10 i = Nat.toDigits 10 j := by
    have := h
    unfold ifName taskName at this
    exact List.append_cancel_right this
  have := congrArg (fun l => Nat.ofDigitChars 10 l 0) h1
  simpa [Nat.ofDigitChars_toDigits] using this

theorem forName_ne {i j : Nat} : forName i ≠ ifName j := by
  intro h
  have := congrArg List.getLast? h
  simp [forName, ifName, taskName] at this

/-- the names of the `i`-th task are not used -/
def Fresh (n : Nat) (ents : List (Name × Nat)) : Prop := ∀ i, n ≤ i → ents.lookup (forName i) = none ∧ ents.lookup (ifName i) = none

theorem put_kept {α} (k : Name) (v : α) {l : List (Name × α)} (x : Name) (h : (l.lookup x).isSome) : ((put k v l).lookup x).isSome := by
  rw [put_lookup]
  split
  · rfl
  · exact h

theorem put_made {α} (k : Name) (v : α) (l : List (Name × α)) : ((put k v l).lookup k).isSome := by rw [put_lookup, if_pos rfl]; rfl

/-- what is new in a block -/
structure Built (f : FObj) (ents : List (Name × Nat)) (vs as : List Name) (ts : List Constraint) (f' : FObj) (ents' : List (Name × Nat)) : Prop where
  context : f'.context = f.context
  inputs : f'.inputs = f.inputs
  name : f'.name = f.name
  tasks : f'.tasks = f.tasks ++ ts
  keep : ∀ k v, ents.lookup k = some v → ents'.lookup k = some v
  new : ∀ k ∈ vs, (ents'.lookup k).isSome
  only : ∀ k, (ents'.lookup k).isSome → (ents.lookup k).isSome ∨ k ∈ vs ∨ IsFor k
  cmap : ∀ k c, f'.cmap.lookup k = some c → f.cmap.lookup k = some c ∨ (k ∈ vs ∧ c = node .functionCall k) ∨ k ∈ as
  nofor : Fresh f.tasks.length ents → Fresh f'.tasks.length ents'
  kept : ∀ k, (f.cmap.lookup k).isSome → (f'.cmap.lookup k).isSome
  made : ∀ k ∈ vs, (f'.cmap.lookup k).isSome

theorem Built.refl (f : FObj) (ents : List (Name × Nat)) : Built f ents [] [] [] f ents :=
  ⟨rfl, rfl, rfl, by simp, fun _ _ h => h, by simp, fun _ h => Or.inl h, fun _ _ h => Or.inl h, fun h => h, fun _ h => h, by simp⟩

theorem Built.trans {f f1 f2 : FObj} {ents ents1 ents2 : List (Name × Nat)} {vs as vs' as' : List Name} {ts ts' : List Constraint}
    (h : Built f ents vs as ts f1 ents1) (h' : Built f1 ents1 vs' as' ts' f2 ents2) : Built f ents (vs ++ vs') (as ++ as') (ts ++ ts') f2 ents2 := by
  refine ⟨h'.context.trans h.context, h'.inputs.trans h.inputs, h'.name.trans h.name, by rw [h'.tasks, h.tasks, List.append_assoc],
    fun k v hk => h'.keep k v (h.keep k v hk), ?_, ?_, ?_, fun hf => h'.nofor (h.nofor hf), fun k hk => h'.kept k (h.kept k hk),
    fun k hk => (List.mem_append.mp hk).elim (fun hk => h'.kept k (h.made k hk)) (h'.made k)⟩
  · intro k hk
    rcases List.mem_append.mp hk with hk | hk
    · obtain ⟨v, hv⟩ := Option.isSome_iff_exists.mp (h.new k hk)
      rw [h'.keep k v hv]; rfl
    · exact h'.new k hk
  · intro k hk
    rcases h'.only k hk with hk | hk | hk
    · rcases h.only k hk with hk | hk | hk
      · exact Or.inl hk
      · exact Or.inr (Or.inl (List.mem_append_left _ hk))
      · exact Or.inr (Or.inr hk)
    · exact Or.inr (Or.inl (List.mem_append_right _ hk))
    · exact Or.inr (Or.inr hk)
  · intro k c hk
    rcases h'.cmap k c hk with hk | ⟨hk, hc⟩ | hk
    · rcases h.cmap k c hk with hk | ⟨hk, hc⟩ | hk
      · exact Or.inl hk
      · exact Or.inr (Or.inl ⟨List.mem_append_left _ hk, hc⟩)
      · exact Or.inr (Or.inr (List.mem_append_left _ hk))
    · exact Or.inr (Or.inl ⟨List.mem_append_right _ hk, hc⟩)
    · exact Or.inr (Or.inr (List.mem_append_right _ hk))

theorem built_declare {f : FObj} {ents : List (Name × Nat)} {x : Name} {v : Nat} {t : Constraint} (hn : ents.lookup x = none) (hx : ¬ IsFor x) :
    Built f ents [x] [] [t] { f with tasks := f.tasks ++ [t], cmap := put x (node .functionCall x) f.cmap } (put x v ents) := by
  refine ⟨rfl, rfl, rfl, rfl, ?_, ?_, ?_, ?_, ?_, put_kept _ _, fun k hk => by rw [List.mem_singleton.mp hk]; exact put_made _ _ _⟩
  · intro k w hk
    rw [put_lookup, if_neg]
    · exact hk
    · rintro rfl; rw [hn] at hk; cases hk
  · intro k hk
    rw [List.mem_singleton] at hk; subst hk
    rw [put_lookup, if_pos rfl]; rfl
  · intro k hk
    rw [put_lookup] at hk
    split at hk
    · rename_i he; exact Or.inr (Or.inl (by simp [he]))
    · exact Or.inl hk
  · intro k c hk
    simp only [put_lookup] at hk
    split at hk
    · rename_i he; subst he; cases hk; exact Or.inr (Or.inl ⟨by simp, rfl⟩)
    · exact Or.inl hk
  · intro hf i hi
    rw [put_lookup, put_lookup, if_neg (fun he => hx ⟨i, Or.inl he.symm⟩), if_neg (fun he => hx ⟨i, Or.inr he.symm⟩)]
    exact hf i (by simp at hi; omega)

theorem elems_built {cur j : Nat} {a : Name} (ha : isWord a = true) : ∀ (es : List Ex) (i : Nat) {m m' : Mem} {f : FObj} {ents : List (Name × Nat)},
    Blk m cur f j ents → declareElems cur a i (trees es) m = some m' →
    ∃ f' ents', Blk m' cur f' j ents' ∧ Only cur j m m' ∧
      Built f ents ((List.range' i es.length).map fun k => a ++ indexText [k]) [] (elemTasks a i es) f' ents' := by
  intro es
  induction es with
  | nil =>
    intro i m m' f ents h hd
    simp only [trees, declareElems, Option.some.injEq] at hd
    subst hd
    exact ⟨f, ents, h, Only.refl _ _ _, by simpa [elemTasks] using Built.refl f ents⟩
  | cons e es ih =>
    intro i m m' f ents h hd
    simp only [trees, declareElems, Option.bind_eq_bind, Option.bind_eq_some_iff] at hd
    obtain ⟨m1, h1, h2⟩ := hd
    split at h2
    · have he : a ++ '[' :: (Nat.toDigits 10 i ++ [']']) = a ++ indexText [i] := by simp [indexText]
      rw [he] at h1
      obtain ⟨hn, v, b1, o1⟩ := declare_spec h h1
      obtain ⟨f', ents', b2, o2, c2⟩ := ih (i + 1) b1 h2
      refine ⟨f', ents', b2, o1.trans o2, ?_⟩
      have := (built_declare (f := f) (v := v) (t := setTask (.mk ⟨.varDeclare, a ++ indexText [i]⟩ []) e) hn (isWord_notFor ha _)).trans c2
      simpa [elemTasks, List.range'_succ] using this
    · cases h2

theorem arr_not_var {sts : List Stm} (hw : ∀ y ∈ declared sts, isWord y = true) (hn : (declared sts).Nodup) {k : Name} (hk : k ∈ arrs sts) :
    k ∉ vars sts := by
  intro hv
  simp only [arrs, List.mem_flatMap] at hk
  simp only [vars, List.mem_flatMap] at hv
  obtain ⟨s1, h1, k1⟩ := hk
  obtain ⟨s2, h2, k2⟩ := hv
  have hwk : isWord k = true := hw k (List.mem_flatMap.mpr ⟨s1, h1, stArrs_declares k1⟩)
  have hd2 := stVars_base (fun y hy => hw y (List.mem_flatMap.mpr ⟨s2, h2, hy⟩)) k2
  rw [base_word' hwk] at hd2
  by_cases he : s1 = s2
  · subst he
    cases s1 with
    | declArr a es =>
      simp only [stArrs, List.mem_singleton] at k1
      subst k1
      simp only [stVars, List.mem_map] at k2
      obtain ⟨i, -, hi⟩ := k2
      simp [indexText] at hi
    | decl => simp [stArrs] at k1
    | assign => simp [stArrs] at k1
    | call => simp [stArrs] at k1
    | loop => simp [stArrs] at k1
    | cond => simp [stArrs] at k1
  · have : Std.Symm (fun a b : Stm => List.Disjoint a.declares b.declares) := ⟨fun _ _ h => List.disjoint_symm h⟩
    exact List.Pairwise.forall (R := fun a b : Stm => List.Disjoint a.declares b.declares) (List.nodup_flatMap.mp hn).2 h1 h2 he
      (stArrs_declares k1) hd2

/-- a finished block is a node -/
theorem Built.node {m : Mem} {cur j ctx : Nat} {f' : FObj} {ents' : List (Name × Nat)} {vs as : List Name} {ts : List Constraint} {nm : Name} {jj : Option Nat}
    (h : Built { name := nm, context := some ctx, fmap := jj } [] vs as ts f' ents') (b : Blk m cur f' j ents') (hd : ∀ k ∈ as, k ∉ vs) :
    Node m cur ctx [] ts vs as := by
  refine ⟨f', j, ents', b.obj, h.context, b.fmap, b.map, h.inputs, by simpa using h.tasks, h.new, ?_, ?_⟩
  · intro k hk
    rcases h.only k hk with hk | hk
    · simp at hk
    · exact hk
  · intro k c hk
    rcases h.cmap k c hk with hk | hk | hk
    · simp at hk
    · exact Or.inl hk
    · exact Or.inr ⟨hk, hd k hk⟩

/-- nodes and loops away from the block that changes -/
theorem loops_only {cur j : Nat} {m m' : Mem} (ho : Only cur j m m') (hok : MemOK m) {fc : FObj} {ec : List (Name × Nat)} (hb : Blk m cur fc j ec)
    {U : Nat → Prop} (hU : ∀ a, U a → a ≠ cur) {a i : Nat} (ha : a ≠ cur) {f : FObj} {jj : Nat} {ents : List (Name × Nat)} (hba : Blk m a f jj ents)
    {sts : List Stm} (h : Loops m U a i sts) : Loops m' U a i sts := by
  have key : ∀ (x : Nat) (f : FObj) (jj : Nat) (ents : List (Name × Nat)), x ≠ cur → m.objs[x]? = some f → f.fmap = some jj → m.maps[jj]? = some ents →
      m'.objs[x]? = some f ∧ m'.maps[jj]? = some ents := by
    intro x f jj ents hx h1 h2 h3
    have hj : jj ≠ j := by
      rintro rfl
      exact hx (hok.inj _ _ _ _ _ h1 hb.obj h2 hb.fmap)
    exact ⟨by rw [ho.objs x (lt_of_obj h1) hx]; exact h1, by rw [ho.maps jj (List.getElem?_eq_some_iff.mp h3).1 hj]; exact h3⟩
  refine loops_move (fun _ h _ => h) ?_ ?_ sts a i ?_ h
  · rintro b ctx ins tasks vs as hb' ⟨f, jj, ents, h1, h2, h3, h4, h5⟩
    obtain ⟨k1, k2⟩ := key b f jj ents (hU b hb') h1 h3 h4
    exact ⟨f, jj, ents, k1, h2, h3, k2, h5⟩
  · rintro b ctx ins tasks vs as hb' ⟨f, jj, ents, h1, h2, h3, h4, h5⟩ k
    obtain ⟨k1, k2⟩ := key b f jj ents (hU b hb') h1 h3 h4
    rw [own_eq h1 h3 h4, own_eq k1 h3 k2]
  · intro k _
    obtain ⟨k1, k2⟩ := key a f jj ents ha hba.obj hba.fmap hba.map
    rw [hba.own, own_eq k1 hba.fmap k2]

theorem pre_block : ∀ (n : Nat) (sts : List Stm) (tl : List Constraint) (outer vis : List Name) {m m' : Mem} {cur j : Nat} {f : FObj} {ents : List (Name × Nat)},
    Blk m cur f j ents → Fresh f.tasks.length ents → okStms P outer vis sts → (∀ y ∈ declared sts, isWord y = true) →
    (tl = [] ∨ ∃ e, tl = [node .ret [] [tree e]]) → preCompile n m cur (emits sts ++ tl) = some m' →
    ∃ f' ents', Blk m' cur f' j ents' ∧ Only cur j m m' ∧ Built f ents (vars sts) (arrs sts) (tasksFrom f.tasks.length sts ++ tl) f' ents' ∧
      Loops m' (fun x => m.objs.length ≤ x) cur f.tasks.length sts := by
  intro n
  induction n using Nat.strong_induction_on with
  | _ n ih0 =>
  cases n with
  | zero => intro sts tl outer vis m m' cur j f ents _ _ _ _ _ hp; cases hp
  | succ n =>
    have ih := ih0 n (Nat.lt_succ_self n)
    intro sts tl outer vis m m' cur j f ents h hnf hok hw htl hp
    cases sts with
    | nil =>
      rcases htl with rfl | ⟨e, rfl⟩
      · simp only [emits, List.append_nil, preCompile, Option.some.injEq] at hp
        subst hp
        exact ⟨f, ents, h, Only.refl _ _ _, by simpa [vars, arrs, tasksFrom] using Built.refl f ents, trivial⟩
      · simp only [emits, List.nil_append, node, preCompile, Constraint.output] at hp
        split at hp
        · cases n with
          | zero => cases hp
          | succ n =>
            simp only [preCompile, Option.some.injEq] at hp
            subst hp
            obtain ⟨b1, o1⟩ := h.update (fun f => { f with tasks := f.tasks ++ [node .ret [] [tree e]] }) (fun _ => rfl)
            refine ⟨_, ents, b1, o1, ?_, trivial⟩
            refine ⟨rfl, rfl, rfl, by simp [tasksFrom], fun _ _ h => h, by simp [vars], fun _ h => Or.inl h, fun _ _ h => Or.inl h, ?_, fun _ h => h, by simp [vars]⟩
            intro hf i hi
            exact hf i (by simp at hi; omega)
        · cases hp
    | cons st sts =>
      obtain ⟨ok1, ok2⟩ := hok
      have hw1 : ∀ y ∈ st.declares, isWord y = true := fun y hy => hw y (by simp [declared, hy])
      have hw2 : ∀ y ∈ declared sts, isWord y = true := fun y hy => hw y (by
        simp only [declared, List.mem_flatMap] at hy ⊢
        obtain ⟨s, hs, hy⟩ := hy
        exact ⟨s, List.mem_cons_of_mem _ hs, hy⟩)
      -- the first statement is no loop
      have simple : ∀ {m1 : Mem} {f1 : FObj} {ents1 : List (Name × Nat)} {vs as : List Name} {ts : List Constraint}, Blk m1 cur f1 j ents1 →
          Only cur j m m1 → Built f ents vs as ts f1 ents1 → vs = stVars st → as = stArrs st → ts = stTasks f.tasks.length st →
          ts.length = width st → Loop m' (fun x => m.objs.length ≤ x) cur f.tasks.length st → preCompile n m1 cur (emits sts ++ tl) = some m' →
          ∃ f' ents', Blk m' cur f' j ents' ∧ Only cur j m m' ∧ Built f ents (vars (st :: sts)) (arrs (st :: sts))
            (tasksFrom f.tasks.length (st :: sts) ++ tl) f' ents' ∧ Loops m' (fun x => m.objs.length ≤ x) cur f.tasks.length (st :: sts) := by
        intro m1 f1 ents1 vs as ts b1 o1 c1 e1 e2 e3 e4 hl hp1
        obtain ⟨f', ents', b2, o2, c2, l2⟩ := ih sts tl outer _ b1 (c1.nofor hnf) ok2 hw2 htl hp1
        have hlen : f1.tasks.length = f.tasks.length + width st := by rw [c1.tasks, List.length_append, e4]
        subst e1 e2
        refine ⟨f', ents', b2, o1.trans o2, ?_, hl, ?_⟩
        · have := c1.trans c2
          rw [hlen] at this
          simpa [vars, arrs, tasksFrom, e3] using this
        · rw [hlen] at l2
          exact loops_move (fun a h _ => le_trans o1.olen h) (fun _ _ _ _ _ _ _ h => h) (fun _ _ _ _ _ _ _ _ _ => rfl) _ _ _ (fun _ _ => rfl) l2
      have task : ∀ {t : Constraint}, Built f ents [] [] [t] { f with tasks := f.tasks ++ [t] } ents := fun {t} =>
        ⟨rfl, rfl, rfl, rfl, fun _ _ h => h, by simp, fun _ h => Or.inl h, fun _ _ h => Or.inl h, fun hf i hi => hf i (by simp at hi; omega),
          fun _ h => h, by simp⟩
      cases st with
      | decl x e =>
        simp only [emits, emit, List.cons_append, List.nil_append, preCompile, Constraint.output, Constraint.inputs, Option.bind_eq_bind,
          Option.bind_eq_some_iff] at hp
        obtain ⟨m1, h1, h2⟩ := hp
        obtain ⟨hn, v, b1, o1⟩ := declare_spec h h1
        have hx : ¬ IsFor x := by
          have := isWord_notFor (hw1 x (by simp [Stm.declares])) []
          rwa [List.append_nil] at this
        exact simple b1 o1 (built_declare hn hx) rfl rfl rfl rfl trivial (ite_some h2)
      | declArr a es =>
        simp only [emits, emit, List.cons_append, List.nil_append, preCompile, Constraint.output, Constraint.inputs, h.obj, Option.bind_some] at hp
        split at hp
        · cases hp
        · rename_i hca
          simp only [Option.bind_eq_bind, Option.bind_eq_some_iff] at hp
          obtain ⟨m1, h1, h2⟩ := hp
          obtain ⟨b0, o0⟩ := h.update (fun f => { f with cmap := put a (.mk ⟨.arrayDeclare, a⟩ (trees es)) f.cmap }) (fun _ => rfl)
          have c0 : Built f ents [] [a] [] { f with cmap := put a (.mk ⟨.arrayDeclare, a⟩ (trees es)) f.cmap } ents := by
            refine ⟨rfl, rfl, rfl, by simp, fun _ _ h => h, by simp, fun _ h => Or.inl h, ?_, fun h => h, put_kept _ _, by simp⟩
            intro k c hk
            simp only [put_lookup] at hk
            split at hk
            · rename_i he; exact Or.inr (Or.inr (by simp [he]))
            · exact Or.inl hk
          obtain ⟨f1, ents1, b1, o1, c1⟩ := elems_built (hw1 a (by simp [Stm.declares])) es 0 b0 h1
          refine simple b1 (o0.trans o1) (c0.trans c1) ?_ rfl rfl ?_ trivial (ite_some h2)
          · simp [stVars, List.range_eq_range']
          · have : ∀ (es : List Ex) (i : Nat), (elemTasks a i es).length = es.length := by
              intro es
              induction es with
              | nil => intro i; rfl
              | cons e es ih => intro i; simp [elemTasks, ih]
            simp [width, this]
      | assign x idx e =>
        simp only [emits, emit, List.cons_append, List.nil_append, marker, preCompile, Constraint.output, Constraint.inputs] at hp
        obtain ⟨b1, o1⟩ := h.update (fun f => { f with tasks := f.tasks ++ [.mk ⟨.varOverload, []⟩ [APS.LangSpec.target x idx, tree e]] }) (fun _ => rfl)
        exact simple b1 o1 task rfl rfl (by simp [stTasks, setTask, node, target_eq]) rfl trivial (ite_some hp)
      | call g args =>
        simp only [emits, emit, List.cons_append, List.nil_append, preCompile, Constraint.output, Constraint.inputs] at hp
        obtain ⟨b1, o1⟩ := h.update (fun f => { f with tasks := f.tasks ++ [.mk ⟨.functionCall, g⟩ (trees args)] }) (fun _ => rfl)
        exact simple b1 o1 task rfl rfl (by simp [stTasks]) rfl trivial (ite_some hp)
      | loop l cmp r x step body =>
        obtain ⟨-, -, -, -, -, hdn, hdecl, -, hbody⟩ := ok1
        have hwb : ∀ y ∈ declared body, isWord y = true := fun y hy => (hdecl y hy).1
        have hlt := h.lt
        set tk : Constraint := node .forT (forName f.tasks.length) [condTree l cmp r, setTask (target x []) step] with htk
        have hsplit := split_nested (c := marker .forT [tree (.bin ⟨.comparator, cmp⟩ l r), marker .varOverload [APS.LangSpec.target x [], tree step]])
          rfl (even_sts body) (emits sts ++ tl)
        simp only [emits, emit, List.cons_append, List.append_assoc, List.nil_append, preCompile, marker, Constraint.output, Constraint.inputs,
          Option.bind_eq_bind] at hp hsplit
        simp only [nestedEnd, marker] at hsplit
        rw [hsplit] at hp
        simp only [Option.bind_some, Option.bind_eq_some_iff, List.drop_succ_cons, List.drop_zero, Mem.taskCount, h.obj, Option.map_some,
          Option.getD_some] at hp
        obtain ⟨m1, h1, m2, h2, h3⟩ := hp
        obtain ⟨b0, o0, c0⟩ := h.new "for".toList (some cur)
        obtain ⟨b1, o1, e1⟩ := b0.set (by simp [Mem.newCircuit]) h1
        obtain ⟨b2, o2⟩ := b1.update (fun f => { f with tasks := f.tasks ++ [tk] }) (fun _ => rfl)
        have c2 := ((c0.other o1 b1.ok (by omega) (by omega)).other o2 b2.ok (by omega) (by omega))
        have obs : Only cur j m (m1.addTask cur tk) := (o0.trans o1).trans o2
        have hl2 : m.objs.length < (m1.addTask cur tk).objs.length := c2.lt.1
        have bl : Built f ents [] [] [tk] { f with tasks := f.tasks ++ [tk] } (put (forName f.tasks.length) m.objs.length ents) := by
          refine ⟨rfl, rfl, rfl, rfl, ?_, by simp, ?_, fun _ _ h => Or.inl h, ?_, fun _ h => h, by simp⟩
          · intro k v hk
            rw [put_lookup, if_neg]
            · exact hk
            · rintro rfl; rw [(hnf _ (le_refl _)).1] at hk; cases hk
          · intro k hk
            rw [put_lookup] at hk
            split at hk
            · rename_i he; exact Or.inr (Or.inr ⟨_, Or.inl he⟩)
            · exact Or.inl hk
          · intro hf i hi
            simp only [List.length_append, List.length_singleton] at hi
            refine ⟨?_, ?_⟩
            · rw [put_lookup, if_neg (fun he => by have := forName_inj he; omega)]
              exact (hf i (by omega)).1
            · rw [put_lookup, if_neg (fun he => forName_ne he.symm)]
              exact (hf i (by omega)).2
        have h2' : preCompile n (m1.addTask cur tk) cur (emits sts ++ tl) = some m2 := by
          simpa [htk, condTree, setTask, node, target_eq, Mem.addTask, forName] using h2
        obtain ⟨f3, ents3, b3, o3, c3, l3⟩ := ih sts tl outer _ b2 (bl.nofor hnf) ok2 hw2 htl h2'
        have cc := c2.other o3 b3.ok (by omega) (by omega)
        rw [← List.append_nil (emits body)] at h3
        obtain ⟨f4, ents4, b4, o4, c4, l4⟩ := ih body [] _ _ cc (fun _ _ => ⟨rfl, rfl⟩) hbody hwb (Or.inl rfl) h3
        have b3' := b3.other o4 b4.ok (by omega) (by omega)
        have hlen : ({ f with tasks := f.tasks ++ [tk] } : FObj).tasks.length = f.tasks.length + 1 := by simp
        rw [hlen] at l3 c3
        have hm2 : m.objs.length ≤ m2.objs.length := le_trans obs.olen o3.olen
        have hown : ents3.lookup (forName f.tasks.length) = some m.objs.length := c3.keep _ _ (by rw [put_lookup]; exact if_pos rfl)
        refine ⟨f3, ents3, b3', ?_, ?_, ⟨m.objs.length, by rw [b3'.own]; exact hown, le_refl _, ?_, ?_⟩, ?_⟩
        · have h := obs.trans o3
          exact ⟨le_trans h.olen o4.olen, le_trans h.mlen o4.mlen,
            fun b hb hn => (o4.objs b (lt_of_lt_of_le hb h.olen) (by omega)).trans (h.objs b hb hn),
            fun i hi hn => (o4.maps i (lt_of_lt_of_le hi h.mlen) (by omega)).trans (h.maps i hi hn)⟩
        · have := bl.trans c3
          simpa [vars, arrs, tasksFrom, stVars, stArrs, stTasks, width, htk] using this
        · have := c4.node b4 (fun k hk => arr_not_var hwb hdn hk)
          simpa using this
        · have : ({ name := "for".toList, context := some cur, fmap := some m.maps.length } : FObj).tasks.length = 0 := rfl
          rw [this] at l4
          exact loops_move (fun a h _ => le_trans hm2 h) (fun _ _ _ _ _ _ _ h => h) (fun _ _ _ _ _ _ _ _ _ => rfl) _ _ _ (fun _ _ => rfl) l4
        · have := loops_only o4 b3.ok cc (U := fun x => (m1.addTask cur tk).objs.length ≤ x) (fun a ha => by omega) (a := cur) (by omega) b3 l3
          exact loops_move (fun a h _ => le_trans obs.olen h) (fun _ _ _ _ _ _ _ h => h) (fun _ _ _ _ _ _ _ _ _ => rfl) _ _ _ (fun _ _ => rfl) this
      | cond l cmp r body fin =>
        obtain ⟨-, -, -, hdn, hfree, -, hbody⟩ := ok1
        have hwb : ∀ y ∈ declared body, isWord y = true := by simp [hdn]
        have hlt := h.lt
        set tk : Constraint := node .ifFunctionCall (ifName f.tasks.length) with htk
        set tb : Constraint := node .ifT (ifName 0) [condTree l cmp r] with htb
        have hsplit0 := split_ifEnd (c := marker .ifElseEnd) rfl (emits sts ++ tl)
          (marker .ifT [tree (.bin ⟨.comparator, cmp⟩ l r)] :: ((emits body ++ emitFin fin) ++ [marker .nestedEnd])) (by
            intro x hx
            rcases List.mem_cons.mp hx with rfl | hx
            · simp [marker, Constraint.output]
            · rcases List.mem_append.mp hx with hx | hx
              · rcases List.mem_append.mp hx with hx | hx
                · exact noEnd_sts body hfree x hx
                · exact noEnd_fin fin x hx
              · simp at hx; subst hx; simp [marker, Constraint.output])
        have hsplit := split_nested (c := marker .ifT [tree (.bin ⟨.comparator, cmp⟩ l r)]) rfl ((even_sts body).append (even_fin fin)) []
        simp only [emits, emit, List.cons_append, List.append_assoc, List.nil_append, preCompile, marker, Constraint.output,
          Option.bind_eq_bind] at hp hsplit hsplit0
        simp only [nestedEnd, marker] at hsplit
        rw [hsplit0] at hp
        simp only [Option.bind_some, Option.bind_eq_some_iff, List.drop_succ_cons, List.drop_zero, Mem.taskCount, h.obj, Option.map_some,
          Option.getD_some, hsplit, List.head?_cons, Option.some.injEq, exists_eq_left', Constraint.inputs] at hp
        obtain ⟨m1, h1, m2, h2, m3, h3, m4, h4, h5⟩ := hp
        cases n with
        | zero => cases h3
        | succ n =>
        obtain ⟨b0, o0, c0⟩ := h.new (ifName f.tasks.length) (some cur)
        obtain ⟨b1, o1, -⟩ := b0.set (by simp [Mem.newCircuit]) h1
        obtain ⟨b2, o2⟩ := b1.update (fun f => { f with tasks := f.tasks ++ [tk] }) (fun _ => rfl)
        have B2 := ((c0.other o1 b1.ok (by omega) (by omega)).other o2 b2.ok (by omega) (by omega))
        have hB := B2.lt
        replace b2 : Blk (m1.addTask cur tk) cur { f with tasks := f.tasks ++ [tk] } j (put (ifName f.tasks.length) m.objs.length ents) := b2
        replace o2 : Only cur j m1 (m1.addTask cur tk) := o2
        replace B2 : Blk (m1.addTask cur tk) m.objs.length { name := ifName f.tasks.length, context := some cur, fmap := some m.maps.length } m.maps.length [] := B2
        replace hB : m.objs.length < (m1.addTask cur tk).objs.length ∧ m.maps.length < (m1.addTask cur tk).maps.length := hB
        obtain ⟨b3, o3, c3⟩ := b2.new "if".toList (some cur)
        obtain ⟨B3, -, -⟩ := B2.new "if".toList (some cur)
        have hcount : taskName ((Option.map (fun x : FObj => x.tasks.length) (m1.addTask cur tk).objs[m.objs.length]?).getD 0) "if".toList = ifName 0 := by
          rw [B2.obj]; rfl
        have h2' : ((m1.addTask cur tk).newCircuit "if".toList (some cur)).2.setFunction m.objs.length (ifName 0) (m1.addTask cur tk).objs.length = some m2 := by
          rw [← hcount]; exact h2
        obtain ⟨B4, o4, -⟩ := B3.set (by simp [Mem.newCircuit]) h2'
        obtain ⟨B5, o5⟩ := B4.update (fun f => { f with tasks := f.tasks ++ [tb] }) (fun _ => rfl)
        have b5 := ((b3.other o4 B4.ok (by omega) (by omega)).other o5 B5.ok (by omega) (by omega))
        have c5 := ((c3.other o4 B4.ok (by omega) (by omega)).other o5 B5.ok (by omega) (by omega))
        have obs : Only cur j m (m2.addTask m.objs.length tb) :=
          ((((o0.trans o1).trans o2).trans o3).other o4 (le_refl _) (le_refl _)).other o5 (le_refl _) (le_refl _)
        have hlc := c5.lt
        replace hlc : (m1.addTask cur tk).objs.length < (m2.addTask m.objs.length tb).objs.length ∧
          (m1.addTask cur tk).maps.length < (m2.addTask m.objs.length tb).maps.length := hlc
        have bl : Built f ents [] [] [tk] { f with tasks := f.tasks ++ [tk] } (put (ifName f.tasks.length) m.objs.length ents) := by
          refine ⟨rfl, rfl, rfl, rfl, ?_, by simp, ?_, fun _ _ h => Or.inl h, ?_, fun _ h => h, by simp⟩
          · intro k v hk
            rw [put_lookup, if_neg]
            · exact hk
            · rintro rfl; rw [(hnf _ (le_refl _)).2] at hk; cases hk
          · intro k hk
            rw [put_lookup] at hk
            split at hk
            · rename_i he; exact Or.inr (Or.inr ⟨_, Or.inr he⟩)
            · exact Or.inl hk
          · intro hf i hi
            simp only [List.length_append, List.length_singleton] at hi
            refine ⟨?_, ?_⟩
            · rw [put_lookup, if_neg (fun he => forName_ne he)]
              exact (hf i (by omega)).1
            · rw [put_lookup, if_neg (fun he => by have := ifName_inj he; omega)]
              exact (hf i (by omega)).2
        have h3' : preCompile n (m2.addTask m.objs.length tb) cur (emits sts ++ tl) = some m3 := by
          simp only [preCompile, Constraint.output] at h3
          have := ite_some h3
          rw [htb, ← hcount]
          exact this
        obtain ⟨f6, ents6, b6, o6, c6, l6⟩ := ih0 n (by omega) sts tl outer _ b5 (bl.nofor hnf) ok2 hw2 htl h3'
        have B6 := B5.other o6 b6.ok (by omega) (by omega)
        have cc := c5.other o6 b6.ok (by omega) (by omega)
        obtain ⟨f7, ents7, b7, o7, c7, l7⟩ := ih body (emitFin fin) _ _ cc (fun _ _ => ⟨rfl, rfl⟩) hbody hwb
          (by cases fin with | none => exact Or.inl rfl | some e => exact Or.inr ⟨e, rfl⟩) h4
        rw [emitFin_task] at c7
        simp only [preCompile, Option.some.injEq] at h5
        subst h5
        have b6' := b6.other o7 b7.ok (by omega) (by omega)
        have B7 := B6.other o7 b7.ok (by omega) (by omega)
        have hlen : ({ f with tasks := f.tasks ++ [tk] } : FObj).tasks.length = f.tasks.length + 1 := by simp
        rw [hlen] at l6 c6
        have hm3 : m.objs.length ≤ m3.objs.length := le_trans obs.olen o6.olen
        have hown : ents6.lookup (ifName f.tasks.length) = some m.objs.length := c6.keep _ _ (by rw [put_lookup]; exact if_pos rfl)
        refine ⟨f6, ents6, b6', (obs.trans o6).other o7 (by omega) (by omega), ?_,
          ⟨m.objs.length, (m1.addTask cur tk).objs.length, by rw [b6'.own]; exact hown, le_refl _, ?_, ?_, by omega, by omega, ⟨cur, Or.inl rfl, ?_⟩, ?_⟩, ?_⟩
        · have := bl.trans c6
          simpa [vars, arrs, tasksFrom, stVars, stArrs, stTasks, width, htk] using this
        · refine ⟨_, _, _, B7.obj, rfl, B7.fmap, B7.map, rfl, rfl, by simp, ?_, ?_⟩
          · intro k hk
            rw [put_lookup] at hk
            split at hk
            · rename_i he; exact Or.inr ⟨_, Or.inr he⟩
            · simp at hk
          · intro k c hk
            simp at hk
        · rw [B7.own, put_lookup, if_pos rfl]
        · have := c7.node b7 (fun k hk => arr_not_var hwb (by simp [hdn]) hk)
          simpa using this
        · exact loops_move (fun a h _ => le_trans hm3 h) (fun _ _ _ _ _ _ _ h => h) (fun _ _ _ _ _ _ _ _ _ => rfl) _ _ _ (fun _ _ => rfl) l7
        · have := loops_only o7 b6.ok cc (U := fun x => (m2.addTask m.objs.length tb).objs.length ≤ x) (fun a ha => by omega) (a := cur) (by omega) b6 l6
          exact loops_move (fun a h _ => le_trans obs.olen h) (fun _ _ _ _ _ _ _ h => h) (fun _ _ _ _ _ _ _ _ _ => rfl) _ _ _ (fun _ _ => rfl) this

end APS.Prog
