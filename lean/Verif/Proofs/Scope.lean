import Verif.Spec.Scope
import Verif.Proofs.BuildFun

/-! What `preCompile` has checked when it returns: for every program, well-formed or not. -/
namespace APS.Prog
open APS.Lex (Token TokenType)
open APS.Parse (Constraint marker)
open APS.Circuit
open APS.LangSpec (Stm Fun isWord declared emit emits emitFun emitFin emitPublic Program bareEx bareExs bareFin AllIn scopedStms onceStms)
open APS.ParseSpec (Ex indexText tree trees tuples)
open APS.ProgSpec (nestedEnd)

/-! ### visible names -/

/-- the words a block has itself are in `vis` -/
def Keys (f : FObj) (ents : List (Name × Nat)) (vis : List Name) : Prop :=
  ∀ x, isWord x = true → (ents.lookup x).isSome ∨ (f.cmap.lookup x).isSome → x ∈ vis

/-- the words seen in a block are in `vis` -/
inductive Vis (m : Mem) (vis : List Name) : Nat → Prop
  | top {a j : Nat} {f : FObj} {ents : List (Name × Nat)} : Blk m a f j ents → Keys f ents vis → f.context = none → Vis m vis a
  | up {a b j : Nat} {f : FObj} {ents : List (Name × Nat)} : Blk m a f j ents → Keys f ents vis → f.context = some b → b < a → Vis m vis b → Vis m vis a

/-- the words seen in the blocks around are in `vis` -/
def Up (m : Mem) (cur : Nat) (f : FObj) (vis : List Name) : Prop := f.context = none ∨ ∃ b, f.context = some b ∧ b < cur ∧ Vis m vis b

theorem vis_of {m : Mem} {cur j : Nat} {f : FObj} {ents : List (Name × Nat)} {vis : List Name} (h : Blk m cur f j ents) (hk : Keys f ents vis)
    (hu : Up m cur f vis) : Vis m vis cur := by
  rcases hu with hu | ⟨b, h1, h2, h3⟩
  · exact .top h hk hu
  · exact .up h hk h1 h2 h3

theorem Keys.mono {f : FObj} {ents : List (Name × Nat)} {vis vis' : List Name} (h : Keys f ents vis) (hs : ∀ x ∈ vis, x ∈ vis') : Keys f ents vis' :=
  fun x hw hx => hs x (h x hw hx)

theorem Vis.mono {m : Mem} {vis vis' : List Name} (hs : ∀ x ∈ vis, x ∈ vis') {a : Nat} (h : Vis m vis a) : Vis m vis' a := by
  induction h with
  | top h1 h2 h3 => exact .top h1 (h2.mono hs) h3
  | up h1 h2 h3 h4 _ ih => exact .up h1 (h2.mono hs) h3 h4 ih

theorem Up.mono {m : Mem} {cur : Nat} {f : FObj} {vis vis' : List Name} (hs : ∀ x ∈ vis, x ∈ vis') (h : Up m cur f vis) : Up m cur f vis' := by
  rcases h with h | ⟨b, h1, h2, h3⟩
  · exact Or.inl h
  · exact Or.inr ⟨b, h1, h2, h3.mono hs⟩

/-- blocks around do not change -/
theorem Vis.other {m m' : Mem} {cur j : Nat} {f : FObj} {ents : List (Name × Nat)} (hb : Blk m cur f j ents) (ho : Only cur j m m') (ok : MemOK m')
    {vis : List Name} {a : Nat} (h : Vis m vis a) : a < cur → Vis m' vis a := by
  have key : ∀ {a i : Nat} {g : FObj} {es : List (Name × Nat)}, a < cur → Blk m a g i es → Blk m' a g i es := by
    intro a i g es ha h
    refine h.other ho ok (by omega) ?_
    rintro rfl
    have := hb.ok.inj _ _ _ _ _ h.obj hb.obj h.fmap hb.fmap
    omega
  induction h with
  | top h1 h2 h3 => intro ha; exact .top (key ha h1) h2 h3
  | up h1 h2 h3 h4 _ ih => intro ha; exact .up (key ha h1) h2 h3 h4 (ih (by omega))

theorem Up.only {m m' : Mem} {cur j : Nat} {f f' : FObj} {ents : List (Name × Nat)} (hb : Blk m cur f j ents) (ho : Only cur j m m') (ok : MemOK m')
    (hc : f'.context = f.context) {vis : List Name} (h : Up m cur f vis) : Up m' cur f' vis := by
  rcases h with h | ⟨b, h1, h2, h3⟩
  · exact Or.inl (hc.trans h)
  · exact Or.inr ⟨b, hc.trans h1, h2, h3.other hb ho ok h2⟩

theorem Vis.fn {m : Mem} {vis : List Name} {x : Name} (hw : isWord x = true) {a : Nat} (h : Vis m vis a) :
    ∀ n, (m.findFunction n (some a) x).isSome → x ∈ vis := by
  induction h with
  | top h1 h2 h3 =>
    intro n hn
    cases n with
    | zero => cases hn
    | succ n =>
      unfold Mem.findFunction at hn
      rw [h1.own, h1.obj] at hn
      split at hn
      · rename_i h; exact h2 x hw (Or.inl (by rw [h]; rfl))
      · simp only [Option.bind_some, h3] at hn
        cases n <;> cases hn
  | up h1 h2 h3 h4 _ ih =>
    intro n hn
    cases n with
    | zero => cases hn
    | succ n =>
      unfold Mem.findFunction at hn
      rw [h1.own, h1.obj] at hn
      split at hn
      · rename_i h; exact h2 x hw (Or.inl (by rw [h]; rfl))
      · simp only [Option.bind_some, h3] at hn
        exact ih n hn

theorem Vis.con {m : Mem} {vis : List Name} {x : Name} (hw : isWord x = true) {a : Nat} (h : Vis m vis a) :
    ∀ n, (m.findConstraint n (some a) x).isSome → x ∈ vis := by
  induction h with
  | top h1 h2 h3 =>
    intro n hn
    cases n with
    | zero => cases hn
    | succ n =>
      unfold Mem.findConstraint at hn
      rw [h1.obj] at hn
      simp only [Option.bind_some] at hn
      split at hn
      · rename_i h; exact h2 x hw (Or.inr (by rw [h]; rfl))
      · rw [h3] at hn
        cases n <;> cases hn
  | up h1 h2 h3 h4 _ ih =>
    intro n hn
    cases n with
    | zero => cases hn
    | succ n =>
      unfold Mem.findConstraint at hn
      rw [h1.obj] at hn
      simp only [Option.bind_some] at hn
      split at hn
      · rename_i h; exact h2 x hw (Or.inr (by rw [h]; rfl))
      · rw [h3] at hn
        exact ih n hn

/-! ### the context check -/

theorem ctx_inputs {m : Mem} {cur : Nat} {t : Token} {is : List Constraint} (h : contextCheck m cur (.mk t is) = true) :
    contextCheck.contextCheckAll m cur is = true := by
  unfold contextCheck at h
  exact (Bool.and_eq_true_iff.mp h).1

mutual
theorem checked_tree {m : Mem} {cur : Nat} {vis : List Name} (hv : Vis m vis cur) : ∀ (e : Ex), contextCheck m cur (tree e) = true → AllIn vis (bareEx e)
  | .num w, _ => by simp [bareEx, AllIn]
  | .var x, h => by
    unfold bareEx
    intro y hy hw
    rw [List.mem_singleton] at hy
    subst hy
    unfold tree contextCheck at h
    rw [Bool.and_eq_true_iff] at h
    rcases Bool.or_eq_true_iff.mp h.2 with h | h
    · exact hv.con hw _ h
    · exact hv.fn hw _ h
  | .paren e, h => by
    unfold tree at h
    unfold bareEx
    exact checked_tree hv e h
  | .bin op l r, h => by
    unfold tree at h
    have h := ctx_inputs h
    have w' : ∀ (b : Prop) [Decidable b] (s : Name) (t : Constraint), contextCheck m cur (if b then .mk ⟨.unassigned, s⟩ [t] else t) = true →
        contextCheck m cur t = true := by
      intro b _ s t ht
      split at ht
      · have := ctx_inputs ht
        simpa [contextCheck.contextCheckAll] using this
      · exact ht
    simp only [contextCheck.contextCheckAll, Bool.and_true, Bool.and_eq_true_iff] at h
    unfold bareEx
    intro x hx hw
    rcases List.mem_append.mp hx with hx | hx
    · exact checked_tree hv l (w' _ _ _ h.2.1) x hx hw
    · exact checked_tree hv r (w' _ _ _ h.2.2) x hx hw
  | .arr a idx, h => by
    unfold tree at h
    unfold bareEx
    exact checked_trees hv idx (ctx_inputs h)
  | .call f args, h => by
    unfold tree at h
    unfold bareEx
    exact checked_trees hv args (ctx_inputs h)
theorem checked_trees {m : Mem} {cur : Nat} {vis : List Name} (hv : Vis m vis cur) : ∀ (es : List Ex), contextCheck.contextCheckAll m cur (trees es) = true →
    AllIn vis (bareExs es)
  | [], _ => by simp [bareExs, AllIn]
  | e :: es, h => by
    unfold trees contextCheck.contextCheckAll at h
    rw [Bool.and_eq_true_iff] at h
    unfold bareExs
    intro x hx hw
    rcases List.mem_append.mp hx with hx | hx
    · exact checked_tree hv e h.1 x hx hw
    · exact checked_trees hv es h.2 x hx hw
end

theorem ite_both {α : Type*} {c : Prop} [Decidable c] {x : Option α} {y : α} (h : (if c then x else none) = some y) : c ∧ x = some y := by
  by_cases hc : c
  · rw [if_pos hc] at h; exact ⟨hc, h⟩
  · rw [if_neg hc] at h; cases h

/-! ### declarations -/

theorem word_bracket {a t : Name} : isWord (a ++ '[' :: t) = false := by
  have h : APS.Lex.isLetter '[' = false := by decide
  have h' : APS.Lex.isDigit '[' = false := by decide
  cases a with
  | nil => simp [isWord, h]
  | cons c a => simp [isWord, h, h']

theorem elem_word {a : Name} {i : Nat} : isWord (a ++ indexText [i]) = false := by
  have : indexText [i] = '[' :: (Nat.toDigits 10 i ++ [']']) := by simp [indexText]
  rw [this]
  exact word_bracket

theorem task_word {i : Nat} {x : Name} (hw : isWord x = true) : x ≠ forName i ∧ x ≠ ifName i := by
  have := isWord_notFor hw []
  rw [List.append_nil] at this
  exact ⟨fun h => this ⟨i, Or.inl h⟩, fun h => this ⟨i, Or.inr h⟩⟩

theorem put_isSome {α : Type} {k k' : Name} {v : α} {l : List (Name × α)} (h : (l.lookup k').isSome) : ((put k v l).lookup k').isSome := by
  rw [put_lookup]
  split
  · rfl
  · exact h

theorem Keys.addF {f : FObj} {ents : List (Name × Nat)} {vis : List Name} (h : Keys f ents vis) {k : Name} (v : Nat) (hk : isWord k = true → k ∈ vis) :
    Keys f (put k v ents) vis := by
  intro x hw hx
  rcases hx with hx | hx
  · rw [put_lookup] at hx
    split at hx
    · rename_i he; subst he; exact hk hw
    · exact h x hw (Or.inl hx)
  · exact h x hw (Or.inr hx)

theorem Keys.putC {f g : FObj} {ents : List (Name × Nat)} {vis : List Name} (h : Keys f ents vis) {k : Name} (c : Constraint)
    (hg : g.cmap = put k c f.cmap) (hk : isWord k = true → k ∈ vis) : Keys g ents vis := by
  intro x hw hx
  rcases hx with hx | hx
  · exact h x hw (Or.inl hx)
  · rw [hg, put_lookup] at hx
    split at hx
    · rename_i he; subst he; exact hk hw
    · exact h x hw (Or.inr hx)

/-- the block after a declaration -/
def decF (f : FObj) (x : Name) (e : Ex) : FObj :=
  { f with tasks := f.tasks ++ [setTask (.mk ⟨.varDeclare, x⟩ []) e], cmap := put x (node .functionCall x) f.cmap }

theorem decF_keys {f : FObj} {ents : List (Name × Nat)} {vis : List Name} (h : Keys f ents vis) {x : Name} {e : Ex} (v : Nat) (hx : isWord x = true → x ∈ vis) :
    Keys (decF f x e) (put x v ents) vis :=
  (h.addF v hx).putC _ rfl hx

theorem elems_scope {cur j : Nat} {a : Name} {vis : List Name} : ∀ (es : List Ex) (i : Nat) {m m' : Mem} {f : FObj} {ents : List (Name × Nat)},
    Blk m cur f j ents → Keys f ents vis → Up m cur f vis → declareElems cur a i (trees es) m = some m' →
    ∃ f' ents', Blk m' cur f' j ents' ∧ Only cur j m m' ∧ f'.context = f.context ∧ Keys f' ents' vis ∧ AllIn vis (bareExs es) ∧
      (∀ x, (ents.lookup x).isSome → (ents'.lookup x).isSome) ∧ (∀ x, (f.cmap.lookup x).isSome → (f'.cmap.lookup x).isSome) := by
  intro es
  induction es with
  | nil =>
    intro i m m' f ents h hk hu hd
    simp only [trees, declareElems, Option.some.injEq] at hd
    subst hd
    exact ⟨f, ents, h, Only.refl _ _ _, rfl, hk, by simp [bareExs, AllIn], fun _ h => h, fun _ h => h⟩
  | cons e es ih =>
    intro i m m' f ents h hk hu hd
    simp only [trees, declareElems, Option.bind_eq_bind, Option.bind_eq_some_iff] at hd
    obtain ⟨m1, h1, h2⟩ := hd
    obtain ⟨hc, h2⟩ := ite_both h2
    obtain ⟨hn, v, b1, o1⟩ := declare_spec h h1
    have k1 := decF_keys hk v (x := a ++ '[' :: (Nat.toDigits 10 i ++ [']'])) (e := e) (by rw [word_bracket]; simp)
    have u1 := hu.only h o1 b1.ok (f' := decF f (a ++ '[' :: (Nat.toDigits 10 i ++ [']'])) e) rfl
    obtain ⟨f', ents', b2, o2, c2, k2, a2, e2, g2⟩ := ih (i + 1) b1 k1 u1 h2
    refine ⟨f', ents', b2, o1.trans o2, c2, k2, ?_, fun x hx => e2 x (put_isSome hx), fun x hx => g2 x (put_isSome hx)⟩
    unfold bareExs
    intro x hx hw
    rcases List.mem_append.mp hx with hx | hx
    · exact checked_tree (vis_of b1 k1 u1) e hc x hx hw
    · exact a2 x hx hw

/-! ### blocks -/

theorem first_end : ∀ (l : List Constraint), (∀ x ∈ l, x.output.type ≠ .ifElseEnd) ∨
    ∃ pre c post, l = pre ++ c :: post ∧ c.output.type = .ifElseEnd ∧ ∀ x ∈ pre, x.output.type ≠ .ifElseEnd := by
  intro l
  induction l with
  | nil => exact Or.inl (by simp)
  | cons x l ih =>
    by_cases hx : x.output.type = .ifElseEnd
    · exact Or.inr ⟨[], x, l, rfl, hx, by simp⟩
    · rcases ih with h | ⟨pre, c, post, rfl, h1, h2⟩
      · exact Or.inl (by simpa [hx] using h)
      · exact Or.inr ⟨x :: pre, c, post, rfl, h1, by simpa [hx] using h2⟩

theorem pre_scope : ∀ (n : Nat) (sts : List Stm) (fin : Option Ex) (vis vars names : List Name) {m m' : Mem} {cur j : Nat} {f : FObj} {ents : List (Name × Nat)},
    Blk m cur f j ents → Keys f ents vis → Up m cur f vis → (∀ x ∈ vars, (ents.lookup x).isSome) → (∀ x ∈ names, (f.cmap.lookup x).isSome) →
    preCompile n m cur (emits sts ++ emitFin fin) = some m' →
    ∃ f' ents', Blk m' cur f' j ents' ∧ Only cur j m m' ∧ f'.context = f.context ∧ Keys f' ents' (declared sts ++ vis) ∧ scopedStms vis sts ∧
      AllIn (declared sts ++ vis) (bareFin fin) ∧ onceStms vars names sts := by
  intro n
  induction n using Nat.strong_induction_on with
  | _ n ih0 =>
  cases n with
  | zero => intro sts fin vis vars names m m' cur j f ents _ _ _ _ _ hp; cases hp
  | succ n =>
    have ih := ih0 n (Nat.lt_succ_self n)
    intro sts fin vis vars names m m' cur j f ents h hk hu hv hn hp
    cases sts with
    | nil =>
      cases fin with
      | none =>
        simp only [emits, emitFin, List.append_nil, preCompile, Option.some.injEq] at hp
        subst hp
        exact ⟨f, ents, h, Only.refl _ _ _, rfl, by simpa [declared] using hk, trivial, by simp [bareFin, AllIn], trivial⟩
      | some e =>
        simp only [emits, emitFin, List.nil_append, marker, preCompile, Constraint.output, Constraint.inputs] at hp
        obtain ⟨hc, hp⟩ := ite_both hp
        cases n with
        | zero => cases hp
        | succ n =>
          simp only [preCompile, Option.some.injEq] at hp
          subst hp
          obtain ⟨b1, o1⟩ := h.update (fun f => { f with tasks := f.tasks ++ [.mk ⟨.ret, []⟩ [tree e]] }) (fun _ => rfl)
          refine ⟨_, ents, b1, o1, rfl, fun y hw hy => hk y hw hy, trivial, ?_, trivial⟩
          have : contextCheck.contextCheckAll (m.addTask cur (.mk ⟨.ret, []⟩ [tree e])) cur (trees [e]) = true := by simpa [trees] using hc
          have := checked_trees (vis_of b1 hk (hu.only h o1 b1.ok rfl)) [e] this
          simpa [declared, bareFin, bareExs] using this
    | cons st sts =>
      have simple : ∀ {m1 : Mem} {f1 : FObj} {ents1 : List (Name × Nat)}, Blk m1 cur f1 j ents1 → Only cur j m m1 → f1.context = f.context →
          Keys f1 ents1 (st.declares ++ vis) → (∀ x ∈ st.scalars ++ vars, (ents1.lookup x).isSome) →
          (∀ x ∈ st.declares ++ names, (f1.cmap.lookup x).isSome) → st.once vars names → (Vis m1 (st.declares ++ vis) cur → st.scoped (declared sts) vis) →
          preCompile n m1 cur (emits sts ++ emitFin fin) = some m' →
          ∃ f' ents', Blk m' cur f' j ents' ∧ Only cur j m m' ∧ f'.context = f.context ∧ Keys f' ents' (declared (st :: sts) ++ vis) ∧
            scopedStms vis (st :: sts) ∧ AllIn (declared (st :: sts) ++ vis) (bareFin fin) ∧ onceStms vars names (st :: sts) := by
        intro m1 f1 ents1 b1 o1 c1 k1 v1 n1 on1 sc1 hp1
        have u1 := (hu.only h o1 b1.ok c1).mono (vis' := st.declares ++ vis) (fun x hx => List.mem_append_right _ hx)
        obtain ⟨f', ents', b2, o2, c2, k2, s2, a2, on2⟩ := ih sts fin _ _ _ b1 k1 u1 v1 n1 hp1
        have hmem : ∀ x ∈ declared sts ++ (st.declares ++ vis), x ∈ declared (st :: sts) ++ vis := by
          intro x hx
          simp only [declared, List.flatMap_cons, List.mem_append] at hx ⊢
          tauto
        exact ⟨f', ents', b2, o1.trans o2, c2.trans c1, k2.mono hmem, ⟨sc1 (vis_of b1 k1 u1), s2⟩, fun x hx hw => hmem x (a2 x hx hw), on1, on2⟩
      cases st with
      | decl x e =>
        simp only [emits, emit, List.cons_append, List.nil_append, preCompile, Constraint.output, Constraint.inputs, Option.bind_eq_bind,
          Option.bind_eq_some_iff] at hp
        obtain ⟨m1, h1, h2⟩ := hp
        obtain ⟨hc, h2⟩ := ite_both h2
        obtain ⟨hno, v, b1, o1⟩ := declare_spec h h1
        refine simple b1 o1 rfl ?_ ?_ ?_ ?_ ?_ h2
        · refine (Keys.addF (hk.mono fun y hy => List.mem_append_right _ hy) v ?_).putC _ rfl ?_ <;> simp [Stm.declares]
        · intro y hy
          rcases List.mem_append.mp hy with hy | hy
          · simp only [Stm.scalars, List.mem_singleton] at hy
            subst hy
            rw [put_lookup, if_pos rfl]; rfl
          · exact put_isSome (hv y hy)
        · intro y hy
          rcases List.mem_append.mp hy with hy | hy
          · simp only [Stm.declares, List.mem_singleton] at hy
            subst hy
            rw [put_lookup, if_pos rfl]; rfl
          · exact put_isSome (hn y hy)
        · intro hx
          have := hv x hx
          rw [hno] at this; cases this
        · intro hvis
          have := checked_trees hvis [e] (by simpa [trees] using hc)
          simpa [Stm.scoped, bareExs, Stm.declares] using this
      | declArr a es =>
        simp only [emits, emit, List.cons_append, List.nil_append, preCompile, Constraint.output, Constraint.inputs, h.obj, Option.bind_some] at hp
        split at hp
        · cases hp
        · rename_i hca
          simp only [Option.bind_eq_bind, Option.bind_eq_some_iff] at hp
          obtain ⟨m1, h1, h2⟩ := hp
          obtain ⟨hc, h2⟩ := ite_both h2
          obtain ⟨b0, o0⟩ := h.update (fun f => { f with cmap := put a (.mk ⟨.arrayDeclare, a⟩ (trees es)) f.cmap }) (fun _ => rfl)
          have k0 : Keys ({ f with cmap := put a (.mk ⟨.arrayDeclare, a⟩ (trees es)) f.cmap } : FObj) ents (a :: vis) :=
            (hk.mono fun y hy => List.mem_cons_of_mem _ hy).putC _ rfl (by simp)
          have u0 := (hu.only h o0 b0.ok (f' := ({ f with cmap := put a (.mk ⟨.arrayDeclare, a⟩ (trees es)) f.cmap } : FObj)) rfl).mono
            (vis' := a :: vis) (fun y hy => List.mem_cons_of_mem _ hy)
          obtain ⟨f1, ents1, b1, o1, c1, k1, a1, e1, g1⟩ := elems_scope es 0 b0 k0 u0 h1
          refine simple b1 (o0.trans o1) c1 k1 ?_ ?_ ?_ (fun _ => a1) h2
          · intro y hy
            exact e1 y (hv y (by simpa [Stm.scalars] using hy))
          · intro y hy
            refine g1 y ?_
            rcases List.mem_append.mp hy with hy | hy
            · simp only [Stm.declares, List.mem_singleton] at hy
              subst hy
              rw [put_lookup, if_pos rfl]; rfl
            · exact put_isSome (hn y hy)
          · intro hx
            have := hn a hx
            rw [hca] at this; cases this
      | assign x idx e =>
        simp only [emits, emit, List.cons_append, List.nil_append, marker, preCompile, Constraint.output, Constraint.inputs] at hp
        obtain ⟨b1, o1⟩ := h.update (fun f => { f with tasks := f.tasks ++ [.mk ⟨.varOverload, []⟩ [APS.LangSpec.target x idx, tree e]] }) (fun _ => rfl)
        obtain ⟨hc, hp⟩ := ite_both hp
        refine simple b1 o1 rfl hk hv hn trivial ?_ hp
        intro hvis
        replace hvis : Vis (m.addTask cur (.mk ⟨.varOverload, []⟩ [APS.LangSpec.target x idx, tree e])) vis cur := hvis
        simp only [contextCheck.contextCheckAll, Bool.and_true, Bool.and_eq_true_iff] at hc
        refine ⟨?_, ?_, checked_tree hvis e hc.2⟩
        · rintro rfl
          have := checked_tree hvis (.var x) (by rw [tree]; exact hc.1)
          simpa [bareEx] using this
        · cases idx with
          | nil => simp [bareExs, AllIn]
          | cons i is => exact checked_trees hvis _ (ctx_inputs hc.1)
      | call g args =>
        simp only [emits, emit, List.cons_append, List.nil_append, preCompile, Constraint.output, Constraint.inputs] at hp
        obtain ⟨b1, o1⟩ := h.update (fun f => { f with tasks := f.tasks ++ [.mk ⟨.functionCall, g⟩ (trees args)] }) (fun _ => rfl)
        obtain ⟨hc, hp⟩ := ite_both hp
        exact simple b1 o1 rfl hk hv hn trivial (fun hvis => checked_trees hvis args hc) hp
      | loop l cmp r x step body =>
        have hlt := h.lt
        have hsplit := split_nested (c := marker .forT [tree (.bin ⟨.comparator, cmp⟩ l r), marker .varOverload [APS.LangSpec.target x [], tree step]])
          rfl (even_sts body) (emits sts ++ emitFin fin)
        simp only [emits, emit, List.cons_append, List.append_assoc, List.nil_append, preCompile, marker, Constraint.output, Constraint.inputs,
          Option.bind_eq_bind] at hp hsplit
        simp only [nestedEnd, marker] at hsplit
        rw [hsplit] at hp
        simp only [Option.bind_some, Option.bind_eq_some_iff, List.drop_succ_cons, List.drop_zero, Mem.taskCount, h.obj, Option.map_some,
          Option.getD_some, Mem.addTask] at hp
        obtain ⟨m1, h1, m2, h2, h3⟩ := hp
        obtain ⟨b0, o0, c0⟩ := h.new "for".toList (some cur)
        obtain ⟨b1, o1, e1⟩ := b0.set (by simp [Mem.newCircuit]) h1
        obtain ⟨b2, o2⟩ := b1.update (fun f' => { f' with tasks := f'.tasks ++ [node .forT (forName f.tasks.length)
          [tree (.bin ⟨.comparator, cmp⟩ l r), .mk ⟨.varOverload, []⟩ [APS.LangSpec.target x [], tree step]]] }) (fun _ => rfl)
        have c2 := ((c0.other o1 b1.ok (by omega) (by omega)).other o2 b2.ok (by omega) (by omega))
        have obs := (o0.trans o1).trans o2
        have hcl := c2.lt
        obtain ⟨f3, ents3, b3, o3, x3, k3, s3, a3, on3⟩ := ih sts fin vis vars names b2
          (fun y hw hy => Keys.addF hk _ (fun hw => absurd rfl (task_word hw).1) y hw hy) (hu.only h obs b2.ok rfl) (fun y hy => put_isSome (hv y hy)) hn h2
        have cc := c2.other o3 b3.ok (by omega) (by omega)
        have hv3 : Vis m2 (declared sts ++ vis) cur := vis_of b3 k3
          (((hu.only h obs b2.ok (f' := f) rfl).only b2 o3 b3.ok x3).mono fun y hy => List.mem_append_right _ hy)
        rw [← List.append_nil (emits body)] at h3
        obtain ⟨f4, ents4, b4, o4, x4, k4, s4, a4, on4⟩ := ih body none (declared sts ++ vis) [] [] cc (by intro y _ hy; simp at hy)
          (Or.inr ⟨cur, rfl, hlt.1, hv3⟩) (by simp) (by simp) h3
        have b3' := b3.other o4 b4.ok (by omega) (by omega)
        refine ⟨f3, ents3, b3', (obs.trans o3).other o4 (le_refl _) (le_refl _), x3, ?_, ⟨s4, ?_⟩, ?_, on4, ?_⟩
        · simpa [declared, Stm.declares] using k3
        · simpa [Stm.declares] using s3
        · simpa [declared, Stm.declares] using a3
        · simpa [Stm.declares, Stm.scalars] using on3
      | cond l cmp r body fn =>
        have hlt := h.lt
        rcases first_end (emits body) with hfree | ⟨pre, ce, post, hpre, hce, hfree⟩
        · set tk : Constraint := node .ifFunctionCall (ifName f.tasks.length) with htk
          set tb : Constraint := node .ifT (ifName 0) [tree (.bin ⟨.comparator, cmp⟩ l r)] with htb
          have hsplit0 := split_ifEnd (c := marker .ifElseEnd) rfl (emits sts ++ emitFin fin)
            (marker .ifT [tree (.bin ⟨.comparator, cmp⟩ l r)] :: ((emits body ++ emitFin fn) ++ [marker .nestedEnd])) (by
              intro x hx
              rcases List.mem_cons.mp hx with rfl | hx
              · simp [marker, Constraint.output]
              · rcases List.mem_append.mp hx with hx | hx
                · rcases List.mem_append.mp hx with hx | hx
                  · exact hfree x hx
                  · exact noEnd_fin fn x hx
                · simp at hx; subst hx; simp [marker, Constraint.output])
          have hsplit := split_nested (c := marker .ifT [tree (.bin ⟨.comparator, cmp⟩ l r)]) rfl ((even_sts body).append (even_fin fn)) []
          simp only [emits, emit, List.cons_append, List.append_assoc, List.nil_append, preCompile, marker, Constraint.output,
            Option.bind_eq_bind] at hp hsplit hsplit0
          simp only [nestedEnd, marker] at hsplit
          rw [hsplit0] at hp
          simp only [Option.bind_some, Option.bind_eq_some_iff, List.drop_succ_cons, List.drop_zero, Mem.taskCount, h.obj, Option.map_some,
            Option.getD_some, hsplit, List.head?_cons, Option.some.injEq, exists_eq_left', Constraint.inputs] at hp
          obtain ⟨m1, h1, m2, h2, m3, h3, m4, h4, h5⟩ := hp
          cases n with
          | zero => cases h3
          | succ n =>
          obtain ⟨b0, o0, c0⟩ := h.new (ifName f.tasks.length) (some cur)
          obtain ⟨b1, o1, -⟩ := b0.set (by simp [Mem.newCircuit]) h1
          obtain ⟨b2, o2⟩ := b1.update (fun f => { f with tasks := f.tasks ++ [tk] }) (fun _ => rfl)
          have B2 := ((c0.other o1 b1.ok (by omega) (by omega)).other o2 b2.ok (by omega) (by omega))
          have hB := B2.lt
          replace b2 : Blk (m1.addTask cur tk) cur { f with tasks := f.tasks ++ [tk] } j (put (ifName f.tasks.length) m.objs.length ents) := b2
          replace o2 : Only cur j m1 (m1.addTask cur tk) := o2
          replace B2 : Blk (m1.addTask cur tk) m.objs.length { name := ifName f.tasks.length, context := some cur, fmap := some m.maps.length } m.maps.length [] := B2
          replace hB : m.objs.length < (m1.addTask cur tk).objs.length ∧ m.maps.length < (m1.addTask cur tk).maps.length := hB
          obtain ⟨b3, o3, c3⟩ := b2.new "if".toList (some cur)
          obtain ⟨B3, -, -⟩ := B2.new "if".toList (some cur)
          have hcount : taskName ((Option.map (fun x : FObj => x.tasks.length) (m1.addTask cur tk).objs[m.objs.length]?).getD 0) "if".toList = ifName 0 := by
            rw [B2.obj]; rfl
          have h2' : ((m1.addTask cur tk).newCircuit "if".toList (some cur)).2.setFunction m.objs.length (ifName 0) (m1.addTask cur tk).objs.length = some m2 := by
            rw [← hcount]; exact h2
          obtain ⟨B4, o4, -⟩ := B3.set (by simp [Mem.newCircuit]) h2'
          obtain ⟨B5, o5⟩ := B4.update (fun f => { f with tasks := f.tasks ++ [tb] }) (fun _ => rfl)
          have b5 := ((b3.other o4 B4.ok (by omega) (by omega)).other o5 B5.ok (by omega) (by omega))
          have c5 := ((c3.other o4 B4.ok (by omega) (by omega)).other o5 B5.ok (by omega) (by omega))
          have obs : Only cur j m (m2.addTask m.objs.length tb) :=
            ((((o0.trans o1).trans o2).trans o3).other o4 (le_refl _) (le_refl _)).other o5 (le_refl _) (le_refl _)
          have hlc := c5.lt
          replace hlc : (m1.addTask cur tk).objs.length < (m2.addTask m.objs.length tb).objs.length ∧
            (m1.addTask cur tk).maps.length < (m2.addTask m.objs.length tb).maps.length := hlc
          have h3' : preCompile n (m2.addTask m.objs.length tb) cur (emits sts ++ emitFin fin) = some m3 := by
            simp only [preCompile, Constraint.output] at h3
            have := ite_some h3
            rw [htb, ← hcount]
            exact this
          obtain ⟨f6, ents6, b6, o6, x6, k6, s6, a6, on6⟩ := ih0 n (by omega) sts fin vis vars names b5
            (fun y hw hy => Keys.addF hk _ (fun hw => absurd rfl (task_word hw).2) y hw hy) (hu.only h obs b5.ok rfl) (fun y hy => put_isSome (hv y hy)) hn h3'
          have cc := c5.other o6 b6.ok (by omega) (by omega)
          have hv6 : Vis m3 (declared sts ++ vis) cur := vis_of b6 k6
            (((hu.only h obs b5.ok (f' := f) rfl).only b5 o6 b6.ok x6).mono fun y hy => List.mem_append_right _ hy)
          obtain ⟨f7, ents7, b7, o7, x7, k7, s7, a7, on7⟩ := ih body fn (declared sts ++ vis) [] [] cc (by intro y _ hy; simp at hy)
            (Or.inr ⟨cur, rfl, by omega, hv6⟩) (by simp) (by simp) h4
          simp only [preCompile, Option.some.injEq] at h5
          subst h5
          have b6' := b6.other o7 b7.ok (by omega) (by omega)
          refine ⟨f6, ents6, b6', (obs.trans o6).other o7 (by omega) (by omega), x6, ?_, ⟨⟨s7, a7⟩, ?_⟩, ?_, on7, ?_⟩
          · simpa [declared, Stm.declares] using k6
          · simpa [Stm.declares] using s6
          · simpa [declared, Stm.declares] using a6
          · simpa [Stm.declares, Stm.scalars] using on6
        · exfalso
          have hsplit0 := split_ifEnd hce (post ++ (emitFin fn ++ [marker .nestedEnd, marker .ifElseEnd] ++ (emits sts ++ emitFin fin)))
            (marker .ifT [tree (.bin ⟨.comparator, cmp⟩ l r)] :: pre) (by
              intro x hx
              rcases List.mem_cons.mp hx with rfl | hx
              · simp [marker, Constraint.output]
              · exact hfree x hx)
          have hun := split_unclosed (c := marker .ifT [tree (.bin ⟨.comparator, cmp⟩ l r)]) rfl (l := pre)
            (fun p hp => (even_sts body).2 p (hp.trans (by rw [hpre]; exact List.prefix_append _ _)))
          simp only [emits, emit, hpre, List.cons_append, List.append_assoc, List.nil_append, preCompile, marker, Constraint.output,
            Option.bind_eq_bind] at hp hsplit0 hun
          rw [hsplit0] at hp
          simp only [Option.bind_some, Option.bind_eq_some_iff, hun] at hp
          obtain ⟨m1, h1, x, hx, -⟩ := hp
          cases hx

/-! ### functions -/

theorem args_scope {a j : Nat} : ∀ (xs : List Name) (vis : List Name) {m m' : Mem} {f : FObj} {ents : List (Name × Nat)},
    Blk m a f j ents → Keys f ents vis → (xs.map fun x => Constraint.mk ⟨.argument, x⟩ []).foldlM (registerArg a) m = some m' →
    ∃ f' ents', Blk m' a f' j ents' ∧ Only a j m m' ∧ f'.context = f.context ∧ f'.name = f.name ∧ Keys f' ents' (xs ++ vis) ∧ xs.Nodup ∧
      (∀ x ∈ xs, ents.lookup x = none) ∧ (∀ x, x ∈ xs ∨ (ents.lookup x).isSome → (ents'.lookup x).isSome) ∧
      (∀ x, x ∈ xs ∨ (f.cmap.lookup x).isSome → (f'.cmap.lookup x).isSome) := by
  intro xs
  induction xs with
  | nil =>
    intro vis m m' f ents h hk hf
    simp only [List.map_nil, List.foldlM_nil, Option.pure_def, Option.some.injEq] at hf
    subst hf
    exact ⟨f, ents, h, Only.refl _ _ _, rfl, rfl, hk, List.nodup_nil, by simp, by simp, by simp⟩
  | cons x xs ih =>
    intro vis m m' f ents h hk hf
    simp only [List.map_cons, List.foldlM_cons, Option.bind_eq_bind, Option.bind_eq_some_iff] at hf
    obtain ⟨m1, h1, h2⟩ := hf
    obtain ⟨hn, b1, o1, -⟩ := registerArg_spec h h1
    obtain ⟨f', ents', b2, o2, c2, n2, k2, d2, l2, e2, g2⟩ := ih (x :: vis) b1
      (((hk.mono fun y hy => List.mem_cons_of_mem x hy).addF m.objs.length (by simp)).putC _ rfl (by simp)) h2
    have hl : ∀ y ∈ xs, y ≠ x ∧ ents.lookup y = none := by
      intro y hy
      have := l2 y hy
      rw [put_lookup] at this
      split at this
      · cases this
      · rename_i hne; exact ⟨hne, this⟩
    refine ⟨f', ents', b2, o1.trans o2, c2, n2, k2.mono (by simp; tauto), List.nodup_cons.mpr ⟨fun hx => (hl x hx).1 rfl, d2⟩, ?_, ?_, ?_⟩
    · intro y hy
      rcases List.mem_cons.mp hy with rfl | hy
      · exact hn
      · exact (hl y hy).2
    · intro y hy
      refine e2 y ?_
      rcases hy with hy | hy
      · rcases List.mem_cons.mp hy with rfl | hy
        · exact Or.inr (by rw [put_lookup, if_pos rfl]; rfl)
        · exact Or.inl hy
      · exact Or.inr (put_isSome hy)
    · intro y hy
      refine g2 y ?_
      rcases hy with hy | hy
      · rcases List.mem_cons.mp hy with rfl | hy
        · exact Or.inr (by rw [put_lookup, if_pos rfl]; rfl)
        · exact Or.inl hy
      · exact Or.inr (put_isSome hy)

theorem pubs_main {cur : Nat} {cs : List Constraint} {m m' : Mem} {ps : List (Name × List Nat)} {n : Nat}
    (h : preCompile n m cur (ps.map emitPublic ++ cs) = some m') (hne : ps ≠ []) : (m.objs[cur]?).map FObj.name = some "main".toList := by
  cases ps with
  | nil => exact absurd rfl hne
  | cons p ps =>
    cases n with
    | zero => cases h
    | succ n =>
      simp only [List.map_cons, List.cons_append, emitPublic, preCompile, Constraint.output] at h
      exact (ite_both h).1

theorem funs_scope (all : List Name) : ∀ (Fs : List (List (Name × List Nat) × Fun)) (n : Nat) {m m' : Mem} {f0 : FObj} {j0 : Nat} {ents0 : List (Name × Nat)},
    Blk m 0 f0 j0 ents0 → f0.context = none → Keys f0 ents0 all → (∀ x ∈ Fs, x.2.name ∈ all) →
    preCompile n m 0 (Fs.flatMap fun x => emitFun x.1 x.2) = some m' →
    ∃ ents', Blk m' 0 f0 j0 ents' ∧ Only 0 j0 m m' ∧ Keys f0 ents' all ∧
      (∀ x ∈ Fs, x.2.scoped all ∧ x.2.once ∧ (x.1 ≠ [] → x.2.name = "main".toList) ∧ ents0.lookup x.2.name = none) ∧ (Fs.map fun x => x.2.name).Nodup := by
  intro Fs
  induction Fs with
  | nil =>
    intro n m m' f0 j0 ents0 h hc hk _ hp
    cases n with
    | zero => cases hp
    | succ n =>
      simp only [List.flatMap_nil, preCompile, Option.some.injEq] at hp
      subst hp
      exact ⟨ents0, h, Only.refl _ _ _, hk, by simp, by simp⟩
  | cons x Fs ih =>
    intro n m m' f0 j0 ents0 h hc hk hall hp
    obtain ⟨pubs, F⟩ := x
    cases n with
    | zero => cases hp
    | succ n =>
      have hsplit := split_nested (c := .mk ⟨.functionDefine, F.name⟩ (F.names.map fun x => .mk ⟨.argument, x⟩ [])) rfl (even_fun pubs F)
        (Fs.flatMap fun x => emitFun x.1 x.2)
      have e0 : ((pubs, F) :: Fs).flatMap (fun x => emitFun x.1 x.2) =
          .mk ⟨.functionDefine, F.name⟩ (F.names.map fun x => .mk ⟨.argument, x⟩ []) :: ((pubs.map emitPublic ++ (emits F.body ++ [marker .ret [tree F.ret]])) ++
            nestedEnd :: (Fs.flatMap fun x => emitFun x.1 x.2)) := by
        simp [emitFun, nestedEnd, marker]
      rw [e0] at hp
      simp only [preCompile, Constraint.output, Option.bind_eq_bind] at hp
      rw [hsplit] at hp
      simp only [Option.bind_some, h.own, List.drop_succ_cons, List.drop_zero] at hp
      split at hp
      · rename_i hn1 hn2
        simp only [register, Option.bind_eq_bind, Option.bind_eq_some_iff, Option.pure_def, Option.some.injEq, Prod.exists, Prod.mk.injEq,
          Constraint.output, Constraint.inputs] at hp
        obtain ⟨a, m1, ⟨m1', h1, rfl, rfl⟩, m2, h2, m3, h3, h4⟩ := hp
        have hlt := h.lt
        obtain ⟨b0, o0, c0⟩ := h.new F.name (some 0)
        have ha : (m.newCircuit F.name (some 0)).1 = m.objs.length := rfl
        rw [ha] at h1 h2 h4
        obtain ⟨f1, e1, c1, o1, x1, n1, k1, d1, -, g1, i1⟩ := args_scope F.names [] c0 (by intro y _ hy; simp at hy) h1
        have b1 := b0.other o1 c1.ok (by omega) (by omega)
        obtain ⟨b2, o2, eo2⟩ := b1.set c1.lt.1 h2
        have c2 := c1.other o2 b2.ok (by omega) (by omega)
        obtain ⟨ents3, b3, o3, k3, at3, d3⟩ := ih n b2 hc (Keys.addF hk _ fun _ => hall (pubs, F) (by simp)) (fun x hx => hall x (List.mem_cons_of_mem _ hx)) h3
        have c3 := c2.other o3 b3.ok (by omega) (by omega)
        have hmain : pubs ≠ [] → F.name = "main".toList := by
          intro hne
          have := pubs_main h4 hne
          rw [c3.obj] at this
          simp only [Option.map_some, Option.some.injEq] at this
          rw [← this, n1]
        obtain ⟨n', h4'⟩ := pre_pubs pubs h4
        have hv3 : Vis m3 (F.names ++ all) 0 := .top b3 (k3.mono fun y hy => List.mem_append_right _ hy) hc
        obtain ⟨f4, e4, c4, o4, x4, k4, s4, a4, on4⟩ := pre_scope n' F.body (some F.ret) (F.names ++ all) F.names F.names c3
          (k1.mono (by simp; tauto)) (Or.inr ⟨0, x1, by omega, hv3⟩) (fun x hx => g1 x (Or.inl hx)) (fun x hx => i1 x (Or.inl hx)) h4'
        have b4 := b3.other o4 c4.ok (by omega) (by omega)
        have hl : ∀ x ∈ Fs, x.2.name ≠ F.name ∧ ents0.lookup x.2.name = none := by
          intro x hx
          have := (at3 x hx).2.2.2
          rw [put_lookup] at this
          split at this
          · cases this
          · rename_i hne; exact ⟨hne, this⟩
        refine ⟨ents3, b4, (((o0.inner o1 (le_refl _) (le_refl _)).trans o2).trans o3).inner o4 (le_refl _) (le_refl _), k3, ?_, ?_⟩
        · intro x hx
          rcases List.mem_cons.mp hx with rfl | hx
          · exact ⟨⟨s4, a4⟩, ⟨d1, on4⟩, hmain, hn1⟩
          · exact ⟨(at3 x hx).1, (at3 x hx).2.1, (at3 x hx).2.2.1, (hl x hx).2⟩
        · rw [List.map_cons, List.nodup_cons]
          refine ⟨?_, d3⟩
          intro hm
          obtain ⟨x, hx, he⟩ := List.mem_map.mp hm
          exact (hl x hx).1 he
      · cases hp

theorem emit_all (p : Program) : p.emit = p.all.flatMap fun x => emitFun x.1 x.2 := by
  simp [Program.emit, LangSpec.Program.all, List.flatMap_map]

/-- what is true of every program the parser accepts -/
theorem program_scope {p : Program} {m : Mem} (hp : program p.emit = some m) :
    (∀ x ∈ p.all, x.2.scoped (p.all.map fun y => y.2.name) ∧ x.2.once ∧ (x.1 ≠ [] → x.2.name = "main".toList)) ∧ (p.all.map fun x => x.2.name).Nodup := by
  rw [emit_all] at hp
  have hg : Blk (({} : Mem).newCircuit "global".toList none).2 0 { name := "global".toList, context := none, fmap := some 0 } 0 [] :=
    ⟨rfl, rfl, rfl, newCircuit_ok ⟨by simp, by simp, by simp, by simp⟩ _ _⟩
  obtain ⟨ents', -, -, -, h, hn⟩ := funs_scope (p.all.map fun y => y.2.name) p.all _ hg rfl (by intro y _ hy; simp at hy)
    (fun x hx => List.mem_map.mpr ⟨x, hx, rfl⟩) hp
  exact ⟨fun x hx => ⟨(h x hx).1, (h x hx).2.1, (h x hx).2.2.1⟩, hn⟩

end APS.Prog
