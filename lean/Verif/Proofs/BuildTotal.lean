import Verif.Spec.Plain
import Verif.Proofs.BuildFun

/-! `preCompile` accepts every well-formed program. -/
namespace APS.Prog
open APS.Lex (Token TokenType)
open APS.Parse (Constraint marker)
open APS.Circuit
open APS.LangSpec (builtins Stm Fun isWord okEx okExs okStms declared emit emits emitFun emitFin emitPublic Program ifFrees bareEx bareExs bareFin
  plainStms)
open APS.ParseSpec (Ex indexText tree trees tuples)
open APS.ProgSpec (nestedEnd)

variable {P : List Fun}

/-! ### visible names -/

/-- the name is found in the block or in a block around it -/
inductive Sees (m : Mem) (x : Name) : Nat → Prop
  | here {a : Nat} : (m.ownFunction a x).isSome → Sees m x a
  | up {a b : Nat} {f : FObj} : m.objs[a]? = some f → f.context = some b → b < a → Sees m x b → Sees m x a

theorem Sees.lt {m : Mem} {x : Name} {a : Nat} (h : Sees m x a) : a < m.objs.length := by
  cases h with
  | here h =>
    unfold Mem.ownFunction at h
    cases ho : m.objs[a]? with
    | none => rw [ho] at h; simp at h
    | some f => exact lt_of_obj ho
  | up h _ _ _ => exact lt_of_obj h

theorem Sees.find {m : Mem} {x : Name} {a : Nat} (h : Sees m x a) : ∀ n, a < n → (m.findFunction n (some a) x).isSome := by
  induction h with
  | @here a h =>
    intro n hn
    obtain ⟨n, rfl⟩ : ∃ n', n = n' + 1 := ⟨n - 1, by omega⟩
    obtain ⟨v, hv⟩ := Option.isSome_iff_exists.mp h
    simp [Mem.findFunction, hv]
  | @up a b f h1 h2 h3 _ ih =>
    intro n hn
    obtain ⟨n, rfl⟩ : ∃ n', n = n' + 1 := ⟨n - 1, by omega⟩
    unfold Mem.findFunction
    split
    · rfl
    · rw [h1]
      simp only [Option.bind_some, h2]
      exact ih n (by omega)

/-- contexts stay, functions are only added -/
structure Adds (m m' : Mem) : Prop where
  ctx : ∀ (a : Nat) (f : FObj), m.objs[a]? = some f → ∃ f' : FObj, m'.objs[a]? = some f' ∧ f'.context = f.context
  own : ∀ a k, (m.ownFunction a k).isSome → (m'.ownFunction a k).isSome

theorem Sees.mono {m m' : Mem} (hg : Adds m m') {x : Name} {a : Nat} (h : Sees m x a) : Sees m' x a := by
  induction h with
  | here h => exact .here (hg.own _ _ h)
  | up h1 h2 h3 _ ih =>
    obtain ⟨f', k1, k2⟩ := hg.ctx _ _ h1
    exact .up k1 (k2.trans h2) h3 ih

theorem adds_of {m m' : Mem} {cur j : Nat} {f f' : FObj} {ents ents' : List (Name × Nat)} (h : Blk m cur f j ents) (ho : Only cur j m m')
    (h' : Blk m' cur f' j ents') (hc : f'.context = f.context) (hk : ∀ k v, ents.lookup k = some v → ents'.lookup k = some v) : Adds m m' := by
  refine ⟨fun a g hg => ?_, fun a k ha => ?_⟩
  · by_cases hac : a = cur
    · subst hac
      rw [h.obj] at hg; cases hg
      exact ⟨f', h'.obj, hc⟩
    · exact ⟨g, by rw [ho.objs a (lt_of_obj hg) hac]; exact hg, rfl⟩
  · by_cases hac : a = cur
    · subst hac
      rw [h.own] at ha
      obtain ⟨v, hv⟩ := Option.isSome_iff_exists.mp ha
      rw [h'.own, hk k v hv]; rfl
    · obtain ⟨v, hv⟩ := Option.isSome_iff_exists.mp ha
      simp only [Mem.ownFunction, Option.bind_eq_bind, Option.bind_eq_some_iff] at hv
      obtain ⟨g, h1, i, h2, mp, h3, h4⟩ := hv
      have hij : i ≠ j := by
        rintro rfl
        exact hac (h.ok.inj _ _ _ _ _ h1 h.obj h2 h.fmap)
      have e1 := (ho.objs a (lt_of_obj h1) hac).trans h1
      have e2 := (ho.maps i (List.getElem?_eq_some_iff.mp h3).1 hij).trans h3
      rw [own_eq e1 h2 e2, h4]; rfl

theorem Built.adds {m m' : Mem} {cur j : Nat} {f f' : FObj} {ents ents' : List (Name × Nat)} {vs as : List Name} {ts : List Constraint}
    (c : Built f ents vs as ts f' ents') (h : Blk m cur f j ents) (ho : Only cur j m m') (h' : Blk m' cur f' j ents') : Adds m m' :=
  adds_of h ho h' c.context c.keep

/-! ### the context check -/

mutual
theorem ctx_tree {m : Mem} {cur : Nat} {vis : List Name} : ∀ (e : Ex), okEx P vis e → (∀ x ∈ bareEx e, Sees m x cur) → contextCheck m cur (tree e) = true
  | .num w, _, _ => by simp [tree, contextCheck, contextCheck.contextCheckAll]
  | .var x, _, h => by
    have h0 := h x (by simp [bareEx])
    have := h0.find m.depth (by have := h0.lt; unfold Mem.depth; omega)
    simp [tree, contextCheck, contextCheck.contextCheckAll, this]
  | .paren e, ho, h => by
    unfold okEx at ho
    unfold bareEx at h
    unfold tree
    exact ctx_tree e ho h
  | .bin op l r, ho, h => by
    unfold okEx at ho
    unfold bareEx at h
    have h1 := ctx_tree l ho.2.2.1 fun x hx => h x (List.mem_append_left _ hx)
    have h2 := ctx_tree r ho.2.2.2 fun x hx => h x (List.mem_append_right _ hx)
    unfold tree
    have w : ∀ (b : Bool) (s : Name) (t : Constraint), contextCheck m cur t = true →
        contextCheck m cur (if b then .mk ⟨.unassigned, s⟩ [t] else t) = true := by
      intro b s t ht
      cases b
      · simpa using ht
      · simp [contextCheck, contextCheck.contextCheckAll, ht]
    simp only [contextCheck, contextCheck.contextCheckAll, Bool.and_true, w _ _ _ h1, w _ _ _ h2, ho.1]
  | .arr a idx, ho, h => by
    unfold okEx at ho
    unfold bareEx at h
    unfold tree
    simp [contextCheck, ctx_trees idx ho.2.2 h]
  | .call f args, ho, h => by
    unfold okEx at ho
    unfold bareEx at h
    unfold tree
    simp [contextCheck, ctx_trees args ho.1 h]
theorem ctx_trees {m : Mem} {cur : Nat} {vis : List Name} : ∀ (es : List Ex), okExs P vis es → (∀ x ∈ bareExs es, Sees m x cur) →
    contextCheck.contextCheckAll m cur (trees es) = true
  | [], _, _ => by simp [trees, contextCheck.contextCheckAll]
  | e :: es, ho, h => by
    unfold okExs at ho
    unfold bareExs at h
    unfold trees contextCheck.contextCheckAll
    rw [ctx_tree e ho.1 fun x hx => h x (List.mem_append_left _ hx), ctx_trees es ho.2 fun x hx => h x (List.mem_append_right _ hx)]
    rfl
end

/-! ### declarations -/

theorem Blk.set_total {m : Mem} {cur j : Nat} {f : FObj} {ents : List (Name × Nat)} (h : Blk m cur f j ents) (k : Name) (v : Nat) :
    ∃ m', m.setFunction cur k v = some m' := by
  simp [Mem.setFunction, h.obj, h.fmap]

theorem declare_total {m : Mem} {cur j : Nat} {f : FObj} {ents : List (Name × Nat)} (h : Blk m cur f j ents) {x : Name} (hx : ents.lookup x = none) (e : Ex) :
    ∃ m', declare m cur ⟨.varDeclare, x⟩ [tree e] = some m' := by
  have hlt := h.lt
  obtain ⟨b1, o1, c1⟩ := h.new x (some cur)
  obtain ⟨u1, u2⟩ := c1.update (fun f => { f with tasks := [node .ret [] [tree e]] }) (fun _ => rfl)
  have b2 := b1.other u2 u1.ok (by omega) (by omega)
  obtain ⟨m', hm⟩ := b2.set_total x m.objs.length
  have e0 : m.ownFunction cur x = none := by rw [h.own]; exact hx
  rw [← Option.isSome_iff_exists]
  simp only [declare, e0]
  show ((((m.newCircuit x (some cur)).2.update m.objs.length fun f => { f with tasks := [node .ret [] [tree e]] }).setFunction cur x m.objs.length).bind _).isSome = _
  rw [hm]
  rfl

/-- nothing in the block belongs to the names -/
def Unused (ys : List Name) (f : FObj) (ents : List (Name × Nat)) : Prop :=
  ∀ k, base k ∈ ys → ents.lookup k = none ∧ f.cmap.lookup k = none

theorem Built.unused {f f' : FObj} {ents ents' : List (Name × Nat)} {vs as ys : List Name} {ts : List Constraint} (c : Built f ents vs as ts f' ents')
    (h : Unused ys f ents) (hw : ∀ y ∈ ys, isWord y = true) (hv : ∀ k ∈ vs, base k ∉ ys) (ha : ∀ k ∈ as, base k ∉ ys) : Unused ys f' ents' := by
  intro k hk
  obtain ⟨h1, h2⟩ := h k hk
  refine ⟨?_, ?_⟩
  · rw [← Option.not_isSome_iff_eq_none]
    intro hs
    rcases c.only k hs with hs | hs | hs
    · rw [h1] at hs; simp at hs
    · exact hv k hs hk
    · have := isWord_notFor (hw _ hk) (k.dropWhile (· != '['))
      unfold base at this
      rw [List.takeWhile_append_dropWhile] at this
      exact this hs
  · cases hc : f'.cmap.lookup k with
    | none => rfl
    | some d =>
      rcases c.cmap k d hc with hs | ⟨hs, -⟩ | hs
      · rw [h2] at hs; cases hs
      · exact absurd hk (hv k hs)
      · exact absurd hk (ha k hs)

theorem elems_total {cur j : Nat} {a : Name} (ha : isWord a = true) {vis : List Name} : ∀ (es : List Ex) (i : Nat) {m : Mem} {f : FObj}
    {ents : List (Name × Nat)}, Blk m cur f j ents → (∀ k, i ≤ k → ents.lookup (a ++ indexText [k]) = none) → okExs P vis es →
    (∀ x ∈ bareExs es, Sees m x cur) → ∃ m', declareElems cur a i (trees es) m = some m' := by
  intro es
  induction es with
  | nil => intro i m f ents _ _ _ _; exact ⟨m, by simp [trees, declareElems]⟩
  | cons e es ih =>
    intro i m f ents h hf ho hs
    unfold okExs at ho
    unfold bareExs at hs
    obtain ⟨m1, h1⟩ := declare_total h (hf i (le_refl _)) e
    obtain ⟨hn, v, b1, o1⟩ := declare_spec h h1
    have g1 := (built_declare (f := f) (v := v) (t := setTask (.mk ⟨.varDeclare, a ++ indexText [i]⟩ []) e) hn (isWord_notFor ha _)).adds h o1 b1
    have hc : contextCheck m1 cur (tree e) = true := ctx_tree e ho.1 fun x hx => (hs x (List.mem_append_left _ hx)).mono g1
    obtain ⟨m2, h2⟩ := ih (i + 1) b1 (fun k hk => by
      rw [put_lookup, if_neg]
      · exact hf k (by omega)
      · intro he
        have := APS.Parse.indexText_inj _ _ (List.append_cancel_left he)
        simp at this; omega) ho.2 (fun x hx => (hs x (List.mem_append_right _ hx)).mono g1)
    refine ⟨m2, ?_⟩
    have he : a ++ '[' :: (Nat.toDigits 10 i ++ [']']) = a ++ indexText [i] := by simp [indexText]
    simp only [trees, declareElems, he, h1, Option.bind_eq_bind, Option.bind_some, hc, if_true]
    exact h2

/-! ### blocks -/

theorem mem_of_all {xs sc : List Name} (h : xs.all (sc.contains ·) = true) : ∀ x ∈ xs, x ∈ sc := by
  intro x hx
  simpa using List.all_eq_true.mp h x hx

theorem scalars_vars (st : Stm) : ∀ x ∈ st.scalars, x ∈ stVars st := by
  cases st <;> simp [Stm.scalars, stVars]

theorem emit_pos (st : Stm) : 1 ≤ (emit st).length := by
  cases st <;> simp [emit]

/-- the end of a block: nothing, or a `return` whose names are visible -/
def TailOK (P : List Fun) (sc : List Name) (tl : List Constraint) : Prop :=
  tl = [] ∨ ∃ e vis, tl = [node .ret [] [tree e]] ∧ okEx P vis e ∧ ∀ x ∈ bareEx e, x ∈ sc

theorem block_total : ∀ (n : Nat) (sts : List Stm) (tl : List Constraint) (outer vis sc : List Name) {m : Mem} {cur j : Nat} {f : FObj}
    {ents : List (Name × Nat)}, Blk m cur f j ents → Fresh f.tasks.length ents → okStms P outer vis sts → (∀ y ∈ declared sts, isWord y = true) →
    (declared sts).Nodup → Unused (declared sts) f ents → plainStms sc sts = true → (∀ x ∈ sc, Sees m x cur) →
    TailOK P (sts.flatMap Stm.scalars ++ sc) tl → (emits sts ++ tl).length < n → ∃ m', preCompile n m cur (emits sts ++ tl) = some m' := by
  intro n
  induction n using Nat.strong_induction_on with
  | _ n ih0 =>
  cases n with
  | zero => intro sts tl outer vis sc m cur j f ents _ _ _ _ _ _ _ _ _ hl; omega
  | succ n =>
    have ih := ih0 n (Nat.lt_succ_self n)
    intro sts tl outer vis sc m cur j f ents h hnf hok hw hnd hun hpl hsee htl hlen
    cases sts with
    | nil =>
      rcases htl with rfl | ⟨e, vis', rfl, he, hb⟩
      · exact ⟨m, by simp [emits, preCompile]⟩
      · obtain ⟨b1, o1⟩ := h.update (fun f => { f with tasks := f.tasks ++ [node .ret [] [tree e]] }) (fun _ => rfl)
        have g := adds_of h o1 b1 rfl (fun _ _ h => h)
        have hc := ctx_tree (m := m.addTask cur (node .ret [] [tree e])) (cur := cur) e he
          (fun x hx => (hsee x (by simpa using hb x hx)).mono g)
        obtain ⟨n, rfl⟩ : ∃ n', n = n' + 1 := ⟨n - 1, by simp [emits] at hlen; omega⟩
        refine ⟨m.addTask cur (node .ret [] [tree e]), ?_⟩
        simp only [emits, List.nil_append, node, preCompile, Constraint.output, Constraint.inputs, contextCheck.contextCheckAll] at hc ⊢
        rw [hc]
        simp only [Bool.and_true, if_true]
    | cons st sts =>
      obtain ⟨ok1, ok2⟩ := hok
      have hd : declared (st :: sts) = st.declares ++ declared sts := rfl
      have hw1 : ∀ y ∈ st.declares, isWord y = true := fun y hy => hw y (by rw [hd]; exact List.mem_append_left _ hy)
      have hw2 : ∀ y ∈ declared sts, isWord y = true := fun y hy => hw y (by rw [hd]; exact List.mem_append_right _ hy)
      rw [hd] at hnd hun
      obtain ⟨nd1, nd2, nd3⟩ := List.nodup_append.mp hnd
      have hun2 : Unused (declared sts) f ents := fun k hk => hun k (List.mem_append_right _ hk)
      simp only [plainStms, Bool.and_eq_true] at hpl
      obtain ⟨pl1, pl2⟩ := hpl
      have hlen' : (emits sts ++ tl).length + (emit st).length < n + 1 := by
        simp only [emits, List.length_append] at hlen ⊢
        omega
      have htl2 : TailOK P (sts.flatMap Stm.scalars ++ (st.scalars ++ sc)) tl := by
        rcases htl with h | ⟨e, v, h1, h2, h3⟩
        · exact Or.inl h
        · refine Or.inr ⟨e, v, h1, h2, fun x hx => ?_⟩
          have := h3 x hx
          simp only [List.flatMap_cons, List.mem_append] at this ⊢
          tauto
      -- what comes after the first statement
      have rest : ∀ (n' : Nat), n' ≤ n → (emits sts ++ tl).length < n' → ∀ {m1 : Mem} {f1 : FObj} {ents1 : List (Name × Nat)} {vs as : List Name} {ts : List Constraint},
          Blk m1 cur f1 j ents1 → Only cur j m m1 → Built f ents vs as ts f1 ents1 → vs = stVars st → as = stArrs st →
          ∃ m', preCompile n' m1 cur (emits sts ++ tl) = some m' := by
        intro n' hn' hl' m1 f1 ents1 vs as ts b1 o1 c1 e1 e2
        subst e1 e2
        have g := c1.adds h o1 b1
        refine ih0 n' (by omega) sts tl outer _ (st.scalars ++ sc) b1 (c1.nofor hnf) ok2 hw2 nd2 ?_ pl2 ?_ htl2 hl'
        · refine c1.unused hun2 hw2 ?_ ?_
          · intro k hk hm
            exact nd3 _ (stVars_base hw1 hk) _ hm rfl
          · intro k hk hm
            have hk' := stArrs_declares hk
            rw [base_word' (hw1 k hk')] at hm
            exact nd3 _ hk' _ hm rfl
        · intro x hx
          rcases List.mem_append.mp hx with hx | hx
          · refine .here ?_
            rw [b1.own]
            exact c1.new x (scalars_vars st x hx)
          · exact (hsee x hx).mono g
      have task : ∀ {t : Constraint}, Built f ents [] [] [t] { f with tasks := f.tasks ++ [t] } ents := fun {t} =>
        ⟨rfl, rfl, rfl, rfl, fun _ _ h => h, by simp, fun _ h => Or.inl h, fun _ _ h => Or.inl h, fun hf i hi => hf i (by simp at hi; omega),
          fun _ h => h, by simp⟩
      have hpos := emit_pos st
      cases st with
      | decl x e =>
        unfold Stm.plain at pl1
        have hx : ¬ IsFor x := by
          have := isWord_notFor (hw1 x (by simp [Stm.declares])) []
          rwa [List.append_nil] at this
        have hbx : base x = x := base_word' (hw1 x (by simp [Stm.declares]))
        obtain ⟨m1, h1⟩ := declare_total h (hun x (by rw [hbx]; simp [Stm.declares])).1 e
        obtain ⟨hn, v, b1, o1⟩ := declare_spec h h1
        have c1 := built_declare (f := f) (v := v) (t := setTask (.mk ⟨.varDeclare, x⟩ []) e) hn hx
        have hc := ctx_tree (m := m1) (cur := cur) e ok1 (fun y hy => (hsee y (mem_of_all pl1 y hy)).mono (c1.adds h o1 b1))
        obtain ⟨m', hm'⟩ := rest n (le_refl _) (by omega) b1 o1 c1 rfl rfl
        refine ⟨m', ?_⟩
        simp only [emits, emit, List.cons_append, List.nil_append, preCompile, Constraint.output, Constraint.inputs, Option.bind_eq_bind, h1,
          Option.bind_some, contextCheck.contextCheckAll, hc, Bool.and_true, if_true]
        exact hm'
      | declArr a es =>
        unfold Stm.plain at pl1
        have hba : base a = a := base_word' (hw1 a (by simp [Stm.declares]))
        have hwa := hw1 a (by simp [Stm.declares])
        have hca := (hun a (by rw [hba]; simp [Stm.declares])).2
        obtain ⟨b0, o0⟩ := h.update (fun f => { f with cmap := put a (.mk ⟨.arrayDeclare, a⟩ (trees es)) f.cmap }) (fun _ => rfl)
        have c0 : Built f ents [] [a] [] { f with cmap := put a (.mk ⟨.arrayDeclare, a⟩ (trees es)) f.cmap } ents := by
          refine ⟨rfl, rfl, rfl, by simp, fun _ _ h => h, by simp, fun _ h => Or.inl h, ?_, fun h => h, put_kept _ _, by simp⟩
          intro k c hk
          simp only [put_lookup] at hk
          split at hk
          · rename_i he; exact Or.inr (Or.inr (by simp [he]))
          · exact Or.inl hk
        obtain ⟨m1, h1⟩ := elems_total hwa es 0 b0 (fun k _ => (hun _ (by rw [base_word hwa]; simp [Stm.declares])).1) ok1
          (fun y hy => (hsee y (mem_of_all pl1 y hy)).mono (c0.adds h o0 b0))
        obtain ⟨f1, ents1, b1, o1, c1⟩ := elems_built hwa es 0 b0 h1
        have c2 := c0.trans c1
        have hc := ctx_trees (m := m1) (cur := cur) es ok1 (fun y hy => (hsee y (mem_of_all pl1 y hy)).mono (c2.adds h (o0.trans o1) b1))
        obtain ⟨m', hm'⟩ := rest n (le_refl _) (by omega) b1 (o0.trans o1) c2 (by simp [stVars, List.range_eq_range']) rfl
        refine ⟨m', ?_⟩
        simp only [emits, emit, List.cons_append, List.nil_append, preCompile, Constraint.output, Constraint.inputs, h.obj, Option.bind_some, hca,
          Option.bind_eq_bind]
        rw [h1]
        simp only [Option.bind_some, hc, if_true]
        exact hm'
      | assign x idx e =>
        unfold Stm.plain at pl1
        simp only [Bool.and_eq_true] at pl1
        obtain ⟨⟨px, pi⟩, pe⟩ := pl1
        obtain ⟨b1, o1⟩ := h.update (fun f => { f with tasks := f.tasks ++ [.mk ⟨.varOverload, []⟩ [APS.LangSpec.target x idx, tree e]] }) (fun _ => rfl)
        have g := task.adds h o1 b1
        have hc := ctx_tree (m := m.addTask cur (.mk ⟨.varOverload, []⟩ [APS.LangSpec.target x idx, tree e])) (cur := cur) e ok1.2.2
          (fun y hy => (hsee y (mem_of_all pe y hy)).mono g)
        have ht : contextCheck (m.addTask cur (.mk ⟨.varOverload, []⟩ [APS.LangSpec.target x idx, tree e])) cur (APS.LangSpec.target x idx) = true := by
          cases idx with
          | nil =>
            have hx : x ∈ sc := by simpa using px
            exact ctx_tree (P := P) (vis := [x]) (.var x) (by simp [okEx]) (fun y hy => by
              simp [bareEx] at hy; subst hy; exact (hsee y hx).mono g)
          | cons i is =>
            have := ctx_trees (m := m.addTask cur (.mk ⟨.varOverload, []⟩ [APS.LangSpec.target x (i :: is), tree e])) (cur := cur) (i :: is) ok1.2.1
              (fun y hy => (hsee y (mem_of_all pi y hy)).mono g)
            simp only [APS.LangSpec.target, contextCheck, Bool.and_true] at this ⊢
            exact this
        obtain ⟨m', hm'⟩ := rest n (le_refl _) (by omega) b1 o1 task rfl rfl
        refine ⟨m', ?_⟩
        simp only [emits, emit, List.cons_append, List.nil_append, marker, preCompile, Constraint.output, Constraint.inputs,
          contextCheck.contextCheckAll, hc, ht, Bool.and_true, if_true]
        exact hm'
      | call g args =>
        unfold Stm.plain at pl1
        obtain ⟨b1, o1⟩ := h.update (fun f => { f with tasks := f.tasks ++ [.mk ⟨.functionCall, g⟩ (trees args)] }) (fun _ => rfl)
        have gr := task.adds h o1 b1
        have hargs : okExs P vis args := by
          unfold Stm.ok at ok1
          split at ok1
          · exact ok1.2
          · split at ok1
            · exact ok1.2
            · unfold okEx at ok1; exact ok1.1
        have hc := ctx_trees (m := m.addTask cur (.mk ⟨.functionCall, g⟩ (trees args))) (cur := cur) args hargs
          (fun y hy => (hsee y (mem_of_all pl1 y hy)).mono gr)
        obtain ⟨m', hm'⟩ := rest n (le_refl _) (by omega) b1 o1 task rfl rfl
        refine ⟨m', ?_⟩
        simp only [emits, emit, List.cons_append, List.nil_append, preCompile, Constraint.output, Constraint.inputs, hc, if_true]
        exact hm'
      | loop l cmp r x step body =>
        obtain ⟨-, -, -, -, -, hdn, hdecl, -, hbody⟩ := ok1
        unfold Stm.plain at pl1
        simp only [Bool.and_eq_true] at pl1
        obtain ⟨-, plb⟩ := pl1
        have hwb : ∀ y ∈ declared body, isWord y = true := fun y hy => (hdecl y hy).1
        have hlt := h.lt
        set tk : Constraint := node .forT (forName f.tasks.length) [condTree l cmp r, setTask (target x []) step] with htk
        have hsplit := split_nested (c := marker .forT [tree (.bin ⟨.comparator, cmp⟩ l r), marker .varOverload [APS.LangSpec.target x [], tree step]])
          rfl (even_sts body) (emits sts ++ tl)
        obtain ⟨b0, o0, c0⟩ := h.new "for".toList (some cur)
        obtain ⟨m1, h1⟩ := b0.set_total (forName f.tasks.length) m.objs.length
        obtain ⟨b1, o1, e1⟩ := b0.set (by simp [Mem.newCircuit]) h1
        obtain ⟨b2, o2⟩ := b1.update (fun f => { f with tasks := f.tasks ++ [tk] }) (fun _ => rfl)
        have c2 := ((c0.other o1 b1.ok (by omega) (by omega)).other o2 b2.ok (by omega) (by omega))
        have obs : Only cur j m (m1.addTask cur tk) := (o0.trans o1).trans o2
        have bl : Built f ents [] [] [tk] { f with tasks := f.tasks ++ [tk] } (put (forName f.tasks.length) m.objs.length ents) := by
          refine ⟨rfl, rfl, rfl, rfl, ?_, by simp, ?_, fun _ _ h => Or.inl h, ?_, fun _ h => h, by simp⟩
          · intro k v hk
            rw [put_lookup, if_neg]
            · exact hk
            · rintro rfl; rw [(hnf _ (le_refl _)).1] at hk; cases hk
          · intro k hk
            rw [put_lookup] at hk
            split at hk
            · rename_i he; exact Or.inr (Or.inr ⟨_, Or.inl he⟩)
            · exact Or.inl hk
          · intro hf i hi
            simp only [List.length_append, List.length_singleton] at hi
            refine ⟨?_, ?_⟩
            · rw [put_lookup, if_neg (fun he => by have := forName_inj he; omega)]
              exact (hf i (by omega)).1
            · rw [put_lookup, if_neg (fun he => forName_ne he.symm)]
              exact (hf i (by omega)).2
        have hel : (emit (.loop l cmp r x step body)).length = (emits body).length + 2 := by simp [emit]
        obtain ⟨m2, h2⟩ := rest n (le_refl _) (by omega) b2 obs bl rfl rfl
        have htl' : tl = [] ∨ ∃ e, tl = [node .ret [] [tree e]] := htl.imp id fun ⟨e, _, h, _⟩ => ⟨e, h⟩
        obtain ⟨f3, ents3, b3, o3, c3, -⟩ := pre_block n sts tl outer _ b2 (bl.nofor hnf) ok2 hw2 htl' h2
        have cc := c2.other o3 b3.ok (by omega) (by omega)
        obtain ⟨m3, h3⟩ := ih body [] _ _ sc cc (fun _ _ => ⟨rfl, rfl⟩) hbody hwb hdn (fun _ _ => ⟨rfl, rfl⟩) plb (fun y hy =>
          .up cc.obj rfl (by omega) ((hsee y hy).mono ((bl.trans c3).adds h (obs.trans o3) b3))) (Or.inl rfl) (by
            rw [List.append_nil]
            simp only [List.length_append] at hlen'
            omega)
        refine ⟨m3, ?_⟩
        simp only [emits, emit, List.cons_append, List.append_assoc, List.nil_append, preCompile, marker, Constraint.output, Constraint.inputs,
          Option.bind_eq_bind] at hsplit ⊢
        simp only [nestedEnd, marker] at hsplit
        rw [hsplit]
        simp only [Option.bind_some, List.drop_succ_cons, List.drop_zero, Mem.taskCount, h.obj, Option.map_some, Option.getD_some]
        show ((m.newCircuit "for".toList (some cur)).2.setFunction cur (forName f.tasks.length) m.objs.length).bind _ = _
        rw [h1]
        have h2' : preCompile n (m1.addTask cur (node .forT (taskName f.tasks.length "for".toList)
            [tree (.bin ⟨.comparator, cmp⟩ l r), .mk ⟨.varOverload, []⟩ [APS.LangSpec.target x [], tree step]])) cur (emits sts ++ tl) = some m2 := by
          simpa [htk, condTree, setTask, node, target_eq, Mem.addTask, forName] using h2
        simp only [Option.bind_some, h2']
        rw [List.append_nil] at h3
        exact h3
      | cond l cmp r body fin =>
        obtain ⟨-, -, -, hdn, hfree, hfin, hbody⟩ := ok1
        unfold Stm.plain at pl1
        simp only [Bool.and_eq_true] at pl1
        obtain ⟨plc, plb⟩ := pl1
        have hwb : ∀ y ∈ declared body, isWord y = true := by simp [hdn]
        have hlt := h.lt
        set tk : Constraint := node .ifFunctionCall (ifName f.tasks.length) with htk
        set tb : Constraint := node .ifT (ifName 0) [condTree l cmp r] with htb
        have hsplit0 := split_ifEnd (c := marker .ifElseEnd) rfl (emits sts ++ tl)
          (marker .ifT [tree (.bin ⟨.comparator, cmp⟩ l r)] :: ((emits body ++ emitFin fin) ++ [marker .nestedEnd])) (by
            intro x hx
            rcases List.mem_cons.mp hx with rfl | hx
            · simp [marker, Constraint.output]
            · rcases List.mem_append.mp hx with hx | hx
              · rcases List.mem_append.mp hx with hx | hx
                · exact noEnd_sts body hfree x hx
                · exact noEnd_fin fin x hx
              · simp at hx; subst hx; simp [marker, Constraint.output])
        have hsplit := split_nested (c := marker .ifT [tree (.bin ⟨.comparator, cmp⟩ l r)]) rfl ((even_sts body).append (even_fin fin)) []
        have hel : (emit (.cond l cmp r body fin)).length = (emits body).length + (emitFin fin).length + 3 := by simp [emit]; omega
        obtain ⟨n, rfl⟩ : ∃ n', n = n' + 1 := ⟨n - 1, by omega⟩
        obtain ⟨b0, o0, c0⟩ := h.new (ifName f.tasks.length) (some cur)
        obtain ⟨m1, h1⟩ := b0.set_total (ifName f.tasks.length) m.objs.length
        obtain ⟨b1, o1, -⟩ := b0.set (by simp [Mem.newCircuit]) h1
        obtain ⟨b2, o2⟩ := b1.update (fun f => { f with tasks := f.tasks ++ [tk] }) (fun _ => rfl)
        have B2 := ((c0.other o1 b1.ok (by omega) (by omega)).other o2 b2.ok (by omega) (by omega))
        have hB := B2.lt
        replace b2 : Blk (m1.addTask cur tk) cur { f with tasks := f.tasks ++ [tk] } j (put (ifName f.tasks.length) m.objs.length ents) := b2
        replace o2 : Only cur j m1 (m1.addTask cur tk) := o2
        replace B2 : Blk (m1.addTask cur tk) m.objs.length { name := ifName f.tasks.length, context := some cur, fmap := some m.maps.length } m.maps.length [] := B2
        replace hB : m.objs.length < (m1.addTask cur tk).objs.length ∧ m.maps.length < (m1.addTask cur tk).maps.length := hB
        obtain ⟨b3, o3, c3⟩ := b2.new "if".toList (some cur)
        obtain ⟨B3, -, -⟩ := B2.new "if".toList (some cur)
        have hcount : taskName ((Option.map (fun x : FObj => x.tasks.length) (m1.addTask cur tk).objs[m.objs.length]?).getD 0) "if".toList = ifName 0 := by
          rw [B2.obj]; rfl
        obtain ⟨m2, h2⟩ := B3.set_total (ifName 0) (m1.addTask cur tk).objs.length
        obtain ⟨B4, o4, -⟩ := B3.set (by simp [Mem.newCircuit]) h2
        obtain ⟨B5, o5⟩ := B4.update (fun f => { f with tasks := f.tasks ++ [tb] }) (fun _ => rfl)
        have b5 := ((b3.other o4 B4.ok (by omega) (by omega)).other o5 B5.ok (by omega) (by omega))
        have c5 := ((c3.other o4 B4.ok (by omega) (by omega)).other o5 B5.ok (by omega) (by omega))
        have obs : Only cur j m (m2.addTask m.objs.length tb) :=
          ((((o0.trans o1).trans o2).trans o3).other o4 (le_refl _) (le_refl _)).other o5 (le_refl _) (le_refl _)
        have hlc := c5.lt
        replace hlc : (m1.addTask cur tk).objs.length < (m2.addTask m.objs.length tb).objs.length ∧
          (m1.addTask cur tk).maps.length < (m2.addTask m.objs.length tb).maps.length := hlc
        have bl : Built f ents [] [] [tk] { f with tasks := f.tasks ++ [tk] } (put (ifName f.tasks.length) m.objs.length ents) := by
          refine ⟨rfl, rfl, rfl, rfl, ?_, by simp, ?_, fun _ _ h => Or.inl h, ?_, fun _ h => h, by simp⟩
          · intro k v hk
            rw [put_lookup, if_neg]
            · exact hk
            · rintro rfl; rw [(hnf _ (le_refl _)).2] at hk; cases hk
          · intro k hk
            rw [put_lookup] at hk
            split at hk
            · rename_i he; exact Or.inr (Or.inr ⟨_, Or.inr he⟩)
            · exact Or.inl hk
          · intro hf i hi
            simp only [List.length_append, List.length_singleton] at hi
            refine ⟨?_, ?_⟩
            · rw [put_lookup, if_neg (fun he => forName_ne he)]
              exact (hf i (by omega)).1
            · rw [put_lookup, if_neg (fun he => by have := ifName_inj he; omega)]
              exact (hf i (by omega)).2
        obtain ⟨m3, h3⟩ := rest n (by omega) (by omega) b5 obs bl rfl rfl
        have htl' : tl = [] ∨ ∃ e, tl = [node .ret [] [tree e]] := htl.imp id fun ⟨e, _, h, _⟩ => ⟨e, h⟩
        obtain ⟨f6, ents6, b6, o6, c6, -⟩ := pre_block n sts tl outer _ b5 (bl.nofor hnf) ok2 hw2 htl' h3
        have cc := c5.other o6 b6.ok (by omega) (by omega)
        have hll : (emits body ++ emitFin fin).length < n + 1 := by
          simp only [List.length_append] at hlen' ⊢
          omega
        have B6 := B5.other o6 b6.ok (by omega) (by omega)
        obtain ⟨m4, h4⟩ := ih body (emitFin fin) _ _ sc cc (fun _ _ => ⟨rfl, rfl⟩) hbody hwb (by simp [hdn]) (fun _ _ => ⟨rfl, rfl⟩) plb (fun y hy =>
          .up cc.obj rfl (by omega) ((hsee y hy).mono ((bl.trans c6).adds h (obs.trans o6) b6))) (by
            cases fin with
            | none => exact Or.inl rfl
            | some e =>
              refine Or.inr ⟨e, _, rfl, hfin e rfl, fun y hy => List.mem_append_right _ ?_⟩
              exact mem_of_all plc y (List.mem_append_right _ hy)) hll
        refine ⟨m4, ?_⟩
        simp only [emits, emit, List.cons_append, List.append_assoc, List.nil_append, marker, Constraint.output] at hsplit hsplit0 ⊢
        simp only [nestedEnd, marker] at hsplit
        rw [preCompile]
        simp only [Constraint.output, Option.bind_eq_bind]
        rw [hsplit0]
        simp only [Option.bind_some, List.drop_succ_cons, List.drop_zero, Mem.taskCount, h.obj, Option.map_some,
          Option.getD_some, hsplit, List.head?_cons, Constraint.inputs]
        show ((m.newCircuit (ifName f.tasks.length) (some cur)).2.setFunction cur (ifName f.tasks.length) m.objs.length).bind _ = _
        rw [h1]
        simp only [Option.bind_some]
        show (((m1.addTask cur tk).newCircuit "if".toList (some cur)).2.setFunction m.objs.length
          (taskName ((Option.map (fun x : FObj => x.tasks.length) (m1.addTask cur tk).objs[m.objs.length]?).getD 0) "if".toList)
          (m1.addTask cur tk).objs.length).bind _ = _
        rw [hcount, h2]
        simp only [Option.bind_some]
        have e3 : preCompile (n + 1) (m2.addTask m.objs.length tb) cur (.mk ⟨.ifElseEnd, []⟩ [] :: (emits sts ++ tl)) = some m3 := by
          simp only [preCompile, Constraint.output, Constraint.inputs, contextCheck.contextCheckAll, if_true]
          exact h3
        show ((preCompile (n + 1) (m2.addTask m.objs.length (node .ifT (taskName ((Option.map (fun x : FObj => x.tasks.length)
          (m1.addTask cur tk).objs[m.objs.length]?).getD 0) "if".toList) [tree (.bin ⟨.comparator, cmp⟩ l r)])) cur _).bind _) = _
        rw [hcount]
        show ((preCompile (n + 1) (m2.addTask m.objs.length tb) cur _).bind _) = _
        rw [e3]
        simp only [Option.bind_some]
        show (preCompile (n + 1) m3 (m1.addTask cur tk).objs.length (emits body ++ emitFin fin)).bind _ = _
        rw [h4]
        simp only [Option.bind_some, preCompile]

end APS.Prog
