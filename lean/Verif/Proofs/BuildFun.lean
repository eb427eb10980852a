import Verif.Proofs.Build

/-! `preCompile` on the functions of a program. -/
namespace APS.Prog
open APS.Lex (Token TokenType)
open APS.Parse (Constraint marker)
open APS.Circuit
open APS.LangSpec (builtins Stm Fun isWord okEx okExs okStms declared emit emits emitFun emitPublic Program)
open APS.ParseSpec (Ex indexText tree trees tuples)
open APS.ProgSpec (nestedEnd)

variable {P : List Fun}

/-! ### parameters -/

/-- the object of a parameter -/
def Param (m : Mem) (x : Name) (o : Nat) : Prop := Val m [argF x 1] o

theorem Param.lt {m : Mem} {x : Name} {o : Nat} (h : Param m x o) : o < m.objs.length := by
  obtain ⟨_, f, h, _⟩ := h
  exact lt_of_obj h

theorem Param.only {cur j : Nat} {m m' : Mem} (ho : Only cur j m m') {fc : FObj} {ec : List (Name × Nat)} (hb : Blk m cur fc j ec) {x : Name} {o : Nat}
    (hne : o ≠ cur) (h : Param m x o) : Param m' x o := by
  obtain ⟨⟨f, i, ents, h1, h2, h3, h4, h5, h6⟩, f', k1, k2, k3⟩ := h
  have e1 : m'.objs[o]? = m.objs[o]? := ho.objs o (lt_of_obj h1) hne
  have hj : i ≠ j := by
    rintro rfl
    exact hne (hb.ok.inj _ _ _ _ _ h1 hb.obj h3 hb.fmap)
  have e2 : m'.maps[i]? = m.maps[i]? := ho.maps i (List.getElem?_eq_some_iff.mp h4).1 hj
  exact ⟨⟨f, i, ents, e1.trans h1, h2, h3, e2.trans h4, h5, h6⟩, f', e1.trans k1, k2, k3⟩

theorem registerArg_spec {m m' : Mem} {a j : Nat} {f : FObj} {ents : List (Name × Nat)} (h : Blk m a f j ents) {x : Name}
    (hr : registerArg a m (.mk ⟨.argument, x⟩ []) = some m') :
    ents.lookup x = none ∧ Blk m' a { f with inputs := f.inputs ++ [x], cmap := put x (node .functionCall x) f.cmap } j (put x m.objs.length ents) ∧
      Only a j m m' ∧ Param m' x m.objs.length := by
  simp only [registerArg, Constraint.output, Constraint.inputs] at hr
  obtain ⟨b1, o1⟩ := h.update (fun f => { f with inputs := f.inputs ++ [x], cmap := put x (node .functionCall x) f.cmap }) (fun _ => rfl)
  have l1 : (m.update a fun f => { f with inputs := f.inputs ++ [x], cmap := put x (node .functionCall x) f.cmap }).objs.length = m.objs.length :=
    update_olen _ _ _
  generalize (m.update a fun f => { f with inputs := f.inputs ++ [x], cmap := put x (node .functionCall x) f.cmap }) = m1 at hr b1 o1 l1
  obtain ⟨b2, o2, c2⟩ := b1.new x none
  obtain ⟨c3, u3⟩ := c2.update (fun f => { f with tasks := [node .ret [] [.mk ⟨.argument, x⟩ []]] }) (fun _ => rfl)
  have hlt := b1.lt
  have b3 := b2.other u3 c3.ok (by omega) (by omega)
  rw [show (m1.newCircuit x none).1 = m1.objs.length from rfl] at hr
  rw [b3.own] at hr
  split at hr
  · cases hr
  · rename_i hn
    have ho3 : Only a j m1 ((m1.newCircuit x none).2.update m1.objs.length fun f => { f with tasks := [node .ret [] [.mk ⟨.argument, x⟩ []]] }) :=
      ⟨le_trans o2.olen u3.olen, le_trans o2.mlen u3.mlen,
        fun b hb hn => (u3.objs b (lt_of_lt_of_le hb o2.olen) (by omega)).trans (o2.objs b hb hn),
        fun i hi hn => (u3.maps i (lt_of_lt_of_le hi o2.mlen) (by omega)).trans (o2.maps i hi hn)⟩
    obtain ⟨b4, o4, e4⟩ := b3.set c3.lt.1 hr
    rw [l1] at b4
    refine ⟨hn, b4, (o1.trans ho3).trans o4, ?_⟩
    rw [← l1]
    have c5 := c3.other o4 b4.ok (by omega) (by omega)
    refine ⟨⟨_, _, _, c5.obj, rfl, c5.fmap, c5.map, rfl, ?_⟩, _, c5.obj, rfl, ?_⟩
    · simp [oneTask, argF, tokOf]
    · rintro y hy hnum
      simp only [List.cons.injEq, and_true] at hy
      subst hy
      cases hnum

theorem args_built {a j : Nat} : ∀ (xs : List Name) {m m' : Mem} {f : FObj} {ents : List (Name × Nat)}, (∀ x ∈ xs, ¬ IsFor x) → a < m.objs.length →
    Blk m a f j ents → (xs.map fun x => Constraint.mk ⟨.argument, x⟩ []).foldlM (registerArg a) m = some m' →
    ∃ f' ents', Blk m' a f' j ents' ∧ Only a j m m' ∧ Built { f with inputs := f.inputs ++ xs } ents xs [] [] f' ents' ∧
      ∀ x ∈ xs, ∃ o, ents'.lookup x = some o ∧ m.objs.length ≤ o ∧ Param m' x o := by
  intro xs
  induction xs with
  | nil =>
    intro m m' f ents _ _ h hf
    simp only [List.map_nil, List.foldlM_nil, Option.pure_def, Option.some.injEq] at hf
    subst hf
    exact ⟨f, ents, h, Only.refl _ _ _, by simpa using Built.refl f ents, by simp⟩
  | cons x xs ih =>
    intro m m' f ents hx hlt h hf
    simp only [List.map_cons, List.foldlM_cons, Option.bind_eq_bind, Option.bind_eq_some_iff] at hf
    obtain ⟨m1, h1, h2⟩ := hf
    obtain ⟨hn, b1, o1, p1⟩ := registerArg_spec h h1
    obtain ⟨f', ents', b2, o2, c2, p2⟩ := ih (fun y hy => hx y (List.mem_cons_of_mem _ hy)) b1.lt.1 b1 h2
    refine ⟨f', ents', b2, o1.trans o2, ?_, ?_⟩
    · have c1 : Built { f with inputs := f.inputs ++ x :: xs } ents [x] [] []
          { f with inputs := f.inputs ++ [x] ++ xs, cmap := put x (node .functionCall x) f.cmap } (put x m.objs.length ents) := by
        refine ⟨rfl, by simp, rfl, by simp, ?_, ?_, ?_, ?_, ?_, put_kept _ _, fun k hk => by rw [List.mem_singleton.mp hk]; exact put_made _ _ _⟩
        · intro k w hk
          rw [put_lookup, if_neg]
          · exact hk
          · rintro rfl; rw [hn] at hk; cases hk
        · intro k hk
          rw [List.mem_singleton] at hk; subst hk
          rw [put_lookup, if_pos rfl]; rfl
        · intro k hk
          rw [put_lookup] at hk
          split at hk
          · rename_i he; exact Or.inr (Or.inl (by simp [he]))
          · exact Or.inl hk
        · intro k c hk
          simp only [put_lookup] at hk
          split at hk
          · rename_i he; subst he; cases hk; exact Or.inr (Or.inl ⟨by simp, rfl⟩)
          · exact Or.inl hk
        · intro hf i hi
          rw [put_lookup, put_lookup, if_neg (fun he => hx x (by simp) ⟨i, Or.inl he.symm⟩), if_neg (fun he => hx x (by simp) ⟨i, Or.inr he.symm⟩)]
          exact hf i hi
      simpa using c1.trans c2
    · intro y hy
      by_cases hys : y ∈ xs
      · obtain ⟨o, k1, k2, k3⟩ := p2 y hys
        exact ⟨o, k1, le_trans o1.olen k2, k3⟩
      · have he : y = x := by simpa [hys] using hy
        subst he
        refine ⟨m.objs.length, c2.keep _ _ (by rw [put_lookup, if_pos rfl]), le_refl _, p1.only o2 b1 (by omega)⟩

/-! ### functions -/

theorem pre_pubs {cur : Nat} {cs : List Constraint} {m m' : Mem} : ∀ (ps : List (Name × List Nat)) {n : Nat},
    preCompile n m cur (ps.map emitPublic ++ cs) = some m' → ∃ n', preCompile n' m cur cs = some m' := by
  intro ps
  induction ps with
  | nil => intro n h; exact ⟨n, h⟩
  | cons p ps ih =>
    intro n h
    cases n with
    | zero => cases h
    | succ n =>
      simp only [List.map_cons, List.cons_append, emitPublic, preCompile, Constraint.output] at h
      exact ih (ite_some (ite_some h))

theorem even_fun (pubs : List (Name × List Nat)) (F : Fun) : Even (pubs.map emitPublic ++ (emits F.body ++ [marker .ret [tree F.ret]])) := by
  refine Even.append ?_ ((even_sts F.body).append (.single (by simp [lv1, marker, Constraint.output, opensNested])))
  induction pubs with
  | nil => exact .nil
  | cons p ps ih =>
    rw [List.map_cons, ← List.singleton_append]
    exact (Even.single (by simp [lv1, emitPublic, Constraint.output, opensNested])).append ih

/-- a change to new parts only -/
theorem Only.inner {cur j a i : Nat} {m m1 m2 : Mem} (h : Only cur j m m1) (h' : Only a i m1 m2) (ha : m.objs.length ≤ a) (hi : m.maps.length ≤ i) :
    Only cur j m m2 :=
  ⟨le_trans h.olen h'.olen, le_trans h.mlen h'.mlen,
    fun b hb hn => (h'.objs b (lt_of_lt_of_le hb h.olen) (by omega)).trans (h.objs b hb hn),
    fun i hi hn => (h'.maps i (lt_of_lt_of_le hi h.mlen) (by omega)).trans (h.maps i hi hn)⟩

/-- a block stays where another one changes -/
theorem Node.only {cur j : Nat} {m m' : Mem} (ho : Only cur j m m') {fc : FObj} {ec : List (Name × Nat)} (hb : Blk m cur fc j ec) {a ctx : Nat}
    {ins : List Name} {tasks : List Constraint} {vs as : List Name} (hne : a ≠ cur) (h : Node m a ctx ins tasks vs as) :
    Node m' a ctx ins tasks vs as ∧ ∀ k, m'.ownFunction a k = m.ownFunction a k := by
  obtain ⟨f, i, ents, h1, h2, h3, h4, h5⟩ := h
  have hj : i ≠ j := by
    rintro rfl
    exact hne (hb.ok.inj _ _ _ _ _ h1 hb.obj h3 hb.fmap)
  have e1 := (ho.objs a (lt_of_obj h1) hne).trans h1
  have e2 := (ho.maps i (List.getElem?_eq_some_iff.mp h4).1 hj).trans h4
  exact ⟨⟨f, i, ents, e1, h2, h3, e2, h5⟩, fun k => by rw [own_eq h1 h3 h4, own_eq e1 h3 e2]⟩

/-- a function on the heap: its loops are at `L` and beyond -/
structure FunAt (m : Mem) (L b : Nat) (F : Fun) : Prop where
  node : Node m b 0 F.names (tasksFrom 0 F.body ++ [Prog.node .ret [] [tree F.ret]]) (F.names ++ vars F.body) (arrs F.body)
  loops : Loops m (L ≤ ·) b 0 F.body
  params : ∀ x ∈ F.names, ∃ o, m.ownFunction b x = some o ∧ Param m x o
  cm : ∃ f : FObj, m.objs[b]? = some f ∧ ∀ x ∈ F.names, (f.cmap.lookup x).isSome

theorem FunAt.only {cur j : Nat} {m m' : Mem} (ho : Only cur j m m') {fc : FObj} {ec : List (Name × Nat)} (hb : Blk m cur fc j ec) {L b : Nat} {F : Fun}
    (hc : fc.context ≠ none) (hne : b ≠ cur) (hL : cur < L) (h : FunAt m L b F) : FunAt m' L b F := by
  obtain ⟨n1, n2⟩ := h.node.only ho hb hne
  refine ⟨n1, ?_, ?_, ?_⟩
  rotate_right
  · obtain ⟨f, h1, h2⟩ := h.cm
    exact ⟨f, (ho.objs b (lt_of_obj h1) hne).trans h1, h2⟩
  · obtain ⟨f, i, ents, h1, h2, h3, h4, -⟩ := h.node
    exact loops_only ho hb.ok hb (U := (L ≤ ·)) (fun a ha => by omega) hne (⟨h1, h3, h4, hb.ok⟩ : Blk m b f i ents) h.loops
  · intro x hx
    obtain ⟨o, h1, h2⟩ := h.params x hx
    refine ⟨o, by rw [n2]; exact h1, h2.only ho hb ?_⟩
    rintro rfl
    obtain ⟨⟨f, _, _, k1, k2, _⟩, _⟩ := h2
    rw [hb.obj] at k1; cases k1
    exact hc k2

theorem Built.node' {m : Mem} {cur j ctx : Nat} {f f' : FObj} {ents' : List (Name × Nat)} {vs as : List Name} {ts : List Constraint} {ins : List Name}
    (h : Built f [] vs as ts f' ents') (b : Blk m cur f' j ents') (hd : ∀ k ∈ as, k ∉ vs) (h1 : f.context = some ctx) (h2 : f.inputs = ins)
    (h3 : f.tasks = []) (h4 : f.cmap = []) : Node m cur ctx ins ts vs as := by
  refine ⟨f', j, ents', b.obj, h.context.trans h1, b.fmap, b.map, h.inputs.trans h2, by rw [h.tasks, h3, List.nil_append], h.new, ?_, ?_⟩
  · intro k hk
    rcases h.only k hk with hk | hk
    · simp at hk
    · exact hk
  · intro k c hk
    rcases h.cmap k c hk with hk | hk | hk
    · rw [h4] at hk; simp at hk
    · exact Or.inl hk
    · exact Or.inr ⟨hk, hd k hk⟩

theorem ok_params {F : Fun} (h : F.ok P) : (∀ p ∈ F.params, isWord p.1 = true) ∧ (∀ y ∈ declared F.body, isWord y = true) ∧
    (declared F.body).Nodup ∧ ∀ k ∈ arrs F.body, k ∉ F.names ++ vars F.body := by
  obtain ⟨h1, h2, -⟩ := h
  have hw : ∀ p ∈ F.params, isWord p.1 = true := fun p hp => (h2 p.1 (List.mem_append_left _ (List.mem_map_of_mem hp))).1
  have hd : ∀ y ∈ declared F.body, isWord y = true := fun y hy => (h2 y (List.mem_append_right _ hy)).1
  have hn := (List.nodup_append.mp h1).2.1
  refine ⟨hw, hd, hn, ?_⟩
  intro k hk hm
  rcases List.mem_append.mp hm with hm | hm
  · obtain ⟨b1, -⟩ := word_names hw hm
    simp only [arrs, List.mem_flatMap] at hk
    obtain ⟨st, hst, hk⟩ := hk
    have hdk : k ∈ declared F.body := List.mem_flatMap.mpr ⟨st, hst, stArrs_declares hk⟩
    rw [base_word' (hd k hdk)] at b1
    exact (List.nodup_append.mp h1).2.2 _ b1 _ hdk rfl
  · exact arr_not_var hd hn hk hm

theorem pre_funs : ∀ (Fs : List (List (Name × List Nat) × Fun)) (n : Nat) {m m' : Mem} {f0 : FObj} {j0 : Nat} {ents0 : List (Name × Nat)},
    Blk m 0 f0 j0 ents0 → (∀ x ∈ Fs, x.2.ok P) → preCompile n m 0 (Fs.flatMap fun x => emitFun x.1 x.2) = some m' →
    ∃ ents' L, Blk m' 0 f0 j0 ents' ∧ Only 0 j0 m m' ∧ (m.objs.length ≤ L ∧ L ≤ m'.objs.length) ∧ (∀ k v, ents0.lookup k = some v → ents'.lookup k = some v) ∧
      (∀ k, (ents'.lookup k).isSome → (ents0.lookup k).isSome ∨ ∃ x ∈ Fs, x.2.name = k) ∧
      (∀ x ∈ Fs, ∃ b, ents'.lookup x.2.name = some b ∧ m.objs.length ≤ b ∧ b < L ∧ FunAt m' L b x.2) ∧
      ∀ x ∈ Fs, ∀ y ∈ Fs, ∀ b, ents'.lookup x.2.name = some b → ents'.lookup y.2.name = some b → x.2.name = y.2.name := by
  intro Fs
  induction Fs with
  | nil =>
    intro n m m' f0 j0 ents0 h _ hp
    cases n with
    | zero => cases hp
    | succ n =>
      simp only [List.flatMap_nil, preCompile, Option.some.injEq] at hp
      subst hp
      exact ⟨ents0, _, h, Only.refl _ _ _, ⟨le_refl _, le_refl _⟩, fun _ _ h => h, fun _ h => Or.inl h, by simp, by simp⟩
  | cons x Fs ih =>
    intro n m m' f0 j0 ents0 h hok hp
    obtain ⟨pubs, F⟩ := x
    cases n with
    | zero => cases hp
    | succ n =>
      have hF : F.ok P := hok (pubs, F) (by simp)
      obtain ⟨hw, hd, hn, hdis⟩ := ok_params hF
      have hsplit := split_nested (c := .mk ⟨.functionDefine, F.name⟩ (F.names.map fun x => .mk ⟨.argument, x⟩ [])) rfl (even_fun pubs F)
        (Fs.flatMap fun x => emitFun x.1 x.2)
      have e0 : ((pubs, F) :: Fs).flatMap (fun x => emitFun x.1 x.2) =
          .mk ⟨.functionDefine, F.name⟩ (F.names.map fun x => .mk ⟨.argument, x⟩ []) :: ((pubs.map emitPublic ++ (emits F.body ++ [marker .ret [tree F.ret]])) ++
            nestedEnd :: (Fs.flatMap fun x => emitFun x.1 x.2)) := by
        simp [emitFun, nestedEnd, marker]
      rw [e0] at hp
      simp only [preCompile, Constraint.output, Option.bind_eq_bind] at hp
      rw [hsplit] at hp
      simp only [Option.bind_some, h.own, List.drop_succ_cons, List.drop_zero] at hp
      split at hp
      · rename_i hn1 hn2
        simp only [register, Option.bind_eq_bind, Option.bind_eq_some_iff, Option.pure_def, Option.some.injEq, Prod.exists, Prod.mk.injEq,
          Constraint.output, Constraint.inputs] at hp
        obtain ⟨a, m1, ⟨m1', h1, rfl, rfl⟩, m2, h2, m3, h3, h4⟩ := hp
        have hlt := h.lt
        obtain ⟨b0, o0, c0⟩ := h.new F.name (some 0)
        have ha : (m.newCircuit F.name (some 0)).1 = m.objs.length := rfl
        rw [ha] at h1 h2 h4
        obtain ⟨f1, e1, c1, o1, bu1, p1⟩ := args_built F.names (fun x hx => by
          obtain ⟨_, p, hp, is, rfl⟩ := word_names hw hx
          exact isWord_notFor (hw p hp) _) c0.lt.1 c0 h1
        have b1 := b0.other o1 c1.ok (by omega) (by omega)
        obtain ⟨b2, o2, eo2⟩ := b1.set c1.lt.1 h2
        have c2 := c1.other o2 b2.ok (by omega) (by omega)
        have len2 : m2.objs.length = m1'.objs.length := by rw [eo2]
        obtain ⟨ents3, L, b3, o3, ⟨hL, hL'⟩, keep3, only3, at3, inj3⟩ := ih n b2 (fun x hx => hok x (List.mem_cons_of_mem _ hx)) h3
        have c3 := c2.other o3 b3.ok (by omega) (by omega)
        obtain ⟨n', h4'⟩ := pre_pubs pubs h4
        obtain ⟨f4, e4, c4, o4, bu4, l4⟩ := pre_block n' F.body [node .ret [] [tree F.ret]] _ _ c3 (by
          have := bu1.nofor (fun _ _ => ⟨rfl, rfl⟩)
          exact this) hF.2.2.1 hd (Or.inr ⟨_, rfl⟩) h4'
        have b4 := b3.other o4 c4.ok (by omega) (by omega)
        have len1 : m.objs.length < m1'.objs.length := c1.lt.1
        have key : (put F.name m.objs.length ents0).lookup F.name = some m.objs.length := by rw [put_lookup, if_pos rfl]
        have hctx : f1.context ≠ none := by rw [bu1.context]; simp
        have ht1 : f1.tasks.length = 0 := by rw [bu1.tasks]; rfl
        rw [ht1] at bu4 l4
        have only02 : Only 0 j0 m m2 := (o0.inner o1 (le_refl _) (le_refl _)).trans o2
        have only03 : Only 0 j0 m m3 := only02.trans o3
        refine ⟨ents3, L, b4, only03.inner o4 (le_refl _) (le_refl _), ⟨by omega, le_trans hL' o4.olen⟩, ?_, ?_, ?_, ?_⟩
        · intro k v hk
          refine keep3 k v ?_
          rw [put_lookup, if_neg]
          · exact hk
          · rintro rfl; rw [hn1] at hk; cases hk
        · intro k hk
          rcases only3 k hk with hk | ⟨x, hx, he⟩
          · rw [put_lookup] at hk
            split at hk
            · rename_i he; exact Or.inr ⟨(pubs, F), by simp, he.symm⟩
            · exact Or.inl hk
          · exact Or.inr ⟨x, List.mem_cons_of_mem _ hx, he⟩
        · intro x hx
          rcases List.mem_cons.mp hx with rfl | hx
          · refine ⟨m.objs.length, keep3 _ _ key, le_refl _, by omega, ?_, ?_, ?_, ⟨f4, c4.obj, fun x hx => bu4.kept x (bu1.made x hx)⟩⟩
            · have := bu1.trans bu4
              simp only [List.nil_append] at this
              exact this.node' c4 hdis rfl (by simp) rfl rfl
            · exact loops_move (fun a h _ => le_trans hL' h) (fun _ _ _ _ _ _ _ h => h) (fun _ _ _ _ _ _ _ _ _ => rfl) _ _ _ (fun _ _ => rfl) l4
            · intro x hx
              obtain ⟨o, k1, k2, k3⟩ := p1 x hx
              have hlo : m.objs.length < o := by simpa [Mem.newCircuit] using k2
              have q2 := k3.only o2 b1 (by omega)
              have q3 := q2.only o3 b2 (by omega)
              refine ⟨o, ?_, q3.only o4 c3 (by omega)⟩
              rw [c4.own]; exact bu4.keep _ _ k1
          · obtain ⟨b, k1, k2, k3, k4⟩ := at3 x hx
            exact ⟨b, k1, by omega, k3, k4.only o4 c3 hctx (by omega) (by omega)⟩
        · have head : ∀ x ∈ Fs, ∀ b, ents3.lookup x.2.name = some b → m.objs.length < b := by
            intro x hx b hb
            obtain ⟨b', k1, k2, -⟩ := at3 x hx
            rw [hb] at k1; cases k1
            omega
          intro x hx y hy b h1 h2
          have h0 := keep3 _ _ key
          rcases List.mem_cons.mp hx with rfl | hx <;> rcases List.mem_cons.mp hy with rfl | hy
          · rfl
          · have := head y hy b h2
            rw [h0] at h1; cases h1; omega
          · have := head x hx b h1
            rw [h0] at h2; cases h2; omega
          · exact inj3 x hx y hy b h1 h2
      · cases hp

end APS.Prog
