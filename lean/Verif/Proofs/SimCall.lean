import Verif.Proofs.Load

/-! The compiler on the heap: calls of functions. -/
namespace APS.Prog
open APS.Lex (Token TokenType)
open APS.Parse (Constraint)
open APS.Circuit
open APS.LangSpec (builtins Stm Fun isWord okEx okExs okStms find kwBase kwEqual kwSplit compareOp declared)
open APS.ParseSpec (Ex indexText tree trees tuples)
open APS.Sym (Sym Static sym_wf arithGate complete envOK_zip)

variable {H : Name → Nat} {q : Nat} {P : List Fun}

theorem callFunction_base {comp : Comp} {cur : Nat} {a : Constraint} {w : W} : callFunction H q comp cur kwBase [a] w = (do
      let (x, w) ← comp cur a w
      let (f, s) ← baseGate H x.facs w.s
      pure ({ facs := f }, { w with s := s })) := by
  unfold callFunction
  rw [if_neg (by decide +kernel), if_neg (by decide +kernel), if_neg (by decide +kernel), if_neg (by decide +kernel), if_pos (by decide +kernel)]

theorem callFunction_equal {comp : Comp} {cur : Nat} {a b : Constraint} {w : W} : callFunction H q comp cur kwEqual [a, b] w = (do
      let (x, w) ← comp cur a w
      let (y, w) ← comp cur b w
      let (s, _) ← w.s.add H { typ := .equality, left := x.facs, right := y.facs, noNew := true }
      pure ({}, { w with s := s })) := by
  unfold callFunction
  rw [if_neg (by decide +kernel), if_neg (by decide +kernel), if_neg (by decide +kernel), if_neg (by decide +kernel), if_neg (by decide +kernel),
    if_pos (by decide +kernel)]

theorem callFunction_split {comp : Comp} {cur : Nat} {a : Constraint} {w : W} : callFunction H q comp cur kwSplit [a] w = (do
      let (r, w) ← comp cur a w
      let s ← splitGate H q r.facs w.s
      pure ({}, { w with s := s })) := by
  unfold callFunction
  rw [if_neg (by decide +kernel), if_pos (by decide +kernel)]

/-- what a function of the program declares is proper -/
theorem ProgOK.names (hP : ProgOK P) {G : Fun} (hG : G ∈ P) : (∀ y ∈ G.top, NameOK P y) ∧ (∀ p ∈ G.params, isWord p.1 = true) ∧ G.names.Nodup ∧
    (declared G.body).Nodup ∧ (∀ x ∈ G.names, base x ∉ declared G.body) := by
  obtain ⟨h1, h2, -, -⟩ := hP.ok G hG
  have hw : ∀ p ∈ G.params, isWord p.1 = true := fun p hp => (h2 p.1 (List.mem_append_left _ (List.mem_map_of_mem hp))).1
  have h3 := List.nodup_append.mp h1
  refine ⟨fun y hy => ⟨(h2 y hy).1, (h2 y hy).2.1, (h2 y hy).2.2⟩, hw, names_nodup hw h3.1, h3.2.1, ?_⟩
  intro x hx hd
  exact h3.2.2 _ (word_names hw hx).1 _ hd rfl

/-- the function a name stands for -/
theorem Inv.function (hP : ProgOK P) {I : List Name} {env : Env} {vis : List Name} {F : Frame} {rest : List Frame} {w : W}
    (h : Inv q P I env vis (F :: rest) w) {G : Fun} (hG : G ∈ P) {n o : Nat} (hf : w.m.findFunction n (some F.addr) G.name = some o) :
    Outside (F :: rest) o ∧ Node w.m o 0 G.names (tasksFrom 0 G.body ++ [node .ret [] [tree G.ret]]) (G.names ++ vars G.body) (arrs G.body) ∧
      Loops w.m (Outside (F :: rest)) o 0 G.body := by
  obtain ⟨hw, hb⟩ := hP.name G hG
  rcases find_chain h.chain rfl hf with ⟨E, hE, ho⟩ | ⟨-, n', hg⟩
  · exfalso
    have hfor : ¬ IsFor G.name := by simpa using isWord_notFor hw []
    obtain ⟨-, h2⟩ := own_var h.chain hE hfor (by rw [ho]; rfl)
    rw [base_word' hw] at h2
    exact (h.names E hE _ h2).fn (List.mem_map_of_mem hG)
  · have ho := (h.glob.find hg).1
    obtain ⟨f, i, ents, h1, h2, h3, h4, h5, h6, h7⟩ := h.glob
    obtain ⟨b, b1, b2, b3, b4⟩ := h7 G hG
    rw [own_eq h1 h4 h5, b1] at ho
    cases ho
    exact ⟨b2, b3, b4⟩

/-- the state in which the body of a function is executed -/
theorem enter [Fact q.Prime] (hP : ProgOK P) {comp : Comp} (hm : MonoC comp) (hE : ExSpec H q P comp) {I : List Name} {env : Env} {vis : List Name}
    {F : Frame} {rest : List Frame} {w w2 : W} {G : Fun} (hG : G ∈ P) {args : List Ex} (hok : okExs P vis args) (hlen : G.names.length = args.length)
    (h : Inv q P I env vis (F :: rest) w) {o nxt : Nat} {m1 m3 : Mem} {as : List Nat} {ready : Bool}
    (hfind : w.m.findFunction w.m.depth (some F.addr) G.name = some o) (hcopy : flatCopy w.m.depth w.m o = some (nxt, m1))
    (hargs : callArgs q comp F.addr (trees args) { w with m := m1 } = some (as, w2)) (hload : loadArgs w2.m nxt as = some (ready, m3))
    (hf : Fin q I w2) :
    ready = true ∧ ∃ (fs : List Factors), Sym H q P (.exs env args w.s fs w2.s) ∧ Grow0 w.m m3 ∧
      Inv q P I (G.names.zip fs) (G.params.map Prod.fst) [⟨nxt, G.names ++ vars G.body, arrs G.body⟩] { w2 with m := m3 } ∧
      Loops m3 (Outside [⟨nxt, G.names ++ vars G.body, arrs G.body⟩]) nxt 0 G.body ∧
      (∀ i, Fr m3 [⟨nxt, G.names ++ vars G.body, arrs G.body⟩] i → w.m.maps.length ≤ i) ∧
      ∃ f : FObj, m3.objs[nxt]? = some f ∧ f.tasks = tasksFrom 0 G.body ++ [node .ret [] [tree G.ret]] := by
  obtain ⟨hnames, hwords, hnd, hdn, hdis⟩ := hP.names hG
  obtain ⟨-, hnode, hloops⟩ := h.function hP hG hfind
  obtain ⟨rfl, ok1, g1, cp, fo, fn, e1, e2, e3⟩ := flatCopy_spec _ h.ok hcopy
  have hctx : fn.context = some 0 := by
    obtain ⟨f', _, _, k1, k2, _⟩ := hnode
    rw [k1] at e1; cases e1
    rw [e3, k2]
  have hnode1 := node_copy hnode cp ⟨fn, e2, hctx⟩
  have hloops1 := loops_copy G.body 0 cp (le_refl w.m.objs.length) hloops
  have hj : ∃ j, fn.fmap = some j ∧ w.m.maps.length ≤ j := by
    obtain ⟨d, hd⟩ : ∃ d, w.m.depth = d + 1 := ⟨_, rfl⟩
    rw [hd] at cp
    obtain ⟨-, _, _, _, f', j, _, _, _, _, c1, c2, c3, -⟩ := cp
    rw [e2] at c1; cases c1
    exact ⟨j, c2, c3⟩
  obtain ⟨j, j1, j2⟩ := hj
  -- arguments
  have hinv1 : Inv q P I env vis (F :: rest) { w with m := m1 } := h.next ⟨g1, ok1⟩ h.wf h.env
  obtain ⟨n2, fs, sy, vals, apt⟩ := args_spec hm hE args _ _ _ hok hinv1 hargs hf
  have g2 : Grow0 m1 w2.m := n2.grow
  have hnode2 : Node w2.m w.m.objs.length 0 _ _ _ _ := node_grow g2 (fun _ _ _ _ => id) hnode1
  have hloops2 : Loops w2.m (fun x => w.m.objs.length < x) w.m.objs.length 0 G.body := by
    refine loops_move (fun _ h _ => h) (fun a ctx ins tasks vs as _ hn => node_grow g2 (fun _ _ _ _ => id) hn) ?_ _ _ _ ?_ hloops1
    · intro a ctx ins tasks vs as _ hn k
      obtain ⟨f, i, ents, k1, k2, k3, k4⟩ := hn.obj
      exact own_grow g2 k1 k3 k4 id k
    · intro k _
      obtain ⟨f, i, ents, k1, k2, k3, k4⟩ := hnode1.obj
      exact own_grow g2 k1 k3 k4 id k
  have e2' := g2.obj e2
  obtain ⟨f, i, ents, k1, k2, k3, k4, k5, k6, k7, k8, k9⟩ := hnode2
  rw [e2'] at k1; cases k1
  rw [j1] at k3; cases k3
  -- loading
  have hl1 : args.length = as.length := by
    have := (sym_wf sy).1
    rw [← this, vals.length_eq]
  obtain ⟨hready, hld⟩ := load_spec n2.ok e2' j1 k4 (by rw [k5, hlen, hl1]) (by rw [k5]; exact hnd)
    (by
      intro x hx
      obtain ⟨g, -, hg⟩ : ∃ g ∈ fs, Val w2.m g x := by
        obtain ⟨i, hi, rfl⟩ := List.mem_iff_getElem.mp hx
        have hi' : i < fs.length := by rw [vals.length_eq]; exact hi
        exact ⟨_, List.getElem_mem hi', (List.forall₂_iff_get.mp vals).2 i hi' hi⟩
      exact hg.1.lt) hload
  have g3 : Grow0 w.m m3 := hld.grow (g1.trans g2) (le_refl _) j2
  obtain ⟨ents', m4, m5⟩ := hld.map
  rw [k5] at m5
  have hfr : ∀ i, Fr m3 [⟨w.m.objs.length, G.names ++ vars G.body, arrs G.body⟩] i → w.m.maps.length ≤ i := by
    rintro i ⟨E, hE, f, hf1, hf2⟩
    rw [List.mem_singleton] at hE
    subst hE
    rw [hld.obj] at hf1; cases hf1
    rw [show (({ fn with inputs := [] } : FObj).fmap) = some j from j1] at hf2; cases hf2
    exact j2
  have hgood := (sym_wf sy).2 I h.wf h.env
  refine ⟨hready, fs, sy, g3, ?_, ?_, hfr, _, hld.obj, k6⟩
  · refine ⟨hld.ok, ?_, ?_, ?_, ?_, ?_, hgood.2.1, envOK_zip hgood.2.2, Apart.zip apt⟩
    · refine ⟨[], tasksFrom 0 G.body ++ [node .ret [] [tree G.ret]], { fn with inputs := [] }, j, ents', hld.obj, hctx, j1, m4, rfl, k6, ?_, ?_, k9⟩
      · intro k hk
        rw [m5]
        cases (G.names.zip as).lookup k with
        | some v => rfl
        | none => exact k7 k hk
      · intro k hk
        rw [m5] at hk
        cases hz : (G.names.zip as).lookup k with
        | some v => exact Or.inl (List.mem_append_left _ (List.of_mem_zip (mem_of_lookup hz)).1)
        | none => rw [hz] at hk; exact k8 k hk
    · have st := Step.of_grow0 h.chain g3
      have gl := globals_weaken (U' := fun x => Outside (F :: rest) x ∧ x < w.m.objs.length) (fun a h1 h2 => ⟨h1, h2⟩) h.glob
      refine globals_weaken ?_ (globals_step h.ok h.chain st (fun a ha => ha.1) gl)
      rintro a ⟨-, ha⟩ - E hE
      rw [List.mem_singleton] at hE
      subst hE
      show w.m.objs.length ≠ a
      omega
    · intro E hE x o' hx ho'
      rw [List.mem_singleton] at hE
      subst hE
      have ho2 : ents'.lookup x = some o' := by rw [← own_eq hld.obj j1 m4]; exact ho'
      have hxn : x ∈ G.names := by
        have hk : x ∈ G.names ++ vars G.body ∨ IsFor x := by
          rw [m5] at ho2
          cases hz : (G.names.zip as).lookup x with
          | some v => exact Or.inl (List.mem_append_left _ (List.of_mem_zip (mem_of_lookup hz)).1)
          | none => rw [hz] at ho2; exact k8 x (by simp at ho2; rw [ho2]; rfl)
        rcases hk with hk | hk
        · rcases List.mem_append.mp hk with hk | hk
          · exact hk
          · exfalso
            simp only [vars, List.mem_flatMap] at hk
            obtain ⟨st, hst, hk⟩ := hk
            have hd : base x ∈ declared G.body := List.mem_flatMap.mpr ⟨st, hst, stVars_base
              (fun y hy => (hnames y (List.mem_append_right _ (List.mem_flatMap.mpr ⟨st, hst, hy⟩))).word) hk⟩
            exact (List.nodup_append.mp (hP.ok G hG).1).2.2 _ hx _ hd rfl
        · exfalso
          have hwx := (hnames _ (List.mem_append_left _ hx)).word
          have := isWord_notFor hwx (x.dropWhile (· != '['))
          rw [base, List.takeWhile_append_dropWhile] at this
          exact this hk
      obtain ⟨v, hv⟩ := Option.isSome_iff_exists.mp (lookup_zip_some G.names as (by omega) hxn)
      rw [m5, hv] at ho2
      simp only [Option.some_or, Option.some.injEq] at ho2
      subst ho2
      obtain ⟨g, hg1, hg2⟩ := lookup_zip _ _ _ vals hv
      exact ⟨g, hg1, hld.val n2.ok e2' j1 (by rw [hctx]; simp) hg2⟩
    · intro E hE y hy
      rw [List.mem_singleton] at hE
      subst hE
      rcases block_bases (fun y hy => (hnames y (List.mem_append_right _ hy)).word) hy with hy | hy
      · obtain ⟨x, hx, rfl⟩ := List.mem_map.mp hy
        exact hnames _ (List.mem_append_left _ (word_names hwords hx).1)
      · exact hnames _ (List.mem_append_right _ hy)
    · exact fun y hy => hnames y (List.mem_append_left _ hy)
  · have hl := hld.loops n2.ok e2' j1 k4 (by
      rw [k5]
      intro k hk
      obtain ⟨-, p, hp, is, rfl⟩ := word_names hwords hk
      exact isWord_notFor (hwords p hp) _) hloops2
    refine loops_move ?_ (fun _ _ _ _ _ _ _ h => h) (fun _ _ _ _ _ _ _ _ _ => rfl) _ _ _ (fun _ _ => rfl) hl
    intro a ha _ E hE
    rw [List.mem_singleton] at hE
    subst hE
    show w.m.objs.length ≠ a
    omega

theorem ret_spec {n : Nat} (hE' : ∀ k, k < n → ExSpec H q P (compile H q k)) : RetSpec H q P (compile H q n) := by
  intro I env vis F rest e w r w' ho h hc hf
  cases n with
  | zero => cases hc
  | succ n =>
    simp only [compile, compileStep, node, Constraint.output, Constraint.inputs, Option.bind_eq_bind, Option.bind_eq_some_iff, Prod.exists,
      Option.pure_def, Option.some.injEq, Prod.mk.injEq] at hc
    obtain ⟨r6, w6, h9, rfl, rfl⟩ := hc
    obtain ⟨-, c2, c3⟩ := hE' n (Nat.lt_succ_self n) _ _ _ _ _ _ _ _ _ _ ho (Or.inl rfl) h h9 hf
    exact ⟨rfl, c2, c3⟩

theorem ex_call [Fact q.Prime] (hP : ProgOK P) {n : Nat} (hE : ExSpec H q P (compile H q n)) (hE' : ∀ k, k < n → ExSpec H q P (compile H q k))
    (hD : DeclSpec H q P (compile H q n)) (hS : StSpec H q P (compile H q n)) (hX : ExitSpec H q P (compile H q n)) {I : List Name} {env : Env} {vis : List Name}
    {F : Frame} {rest : List Frame} {w w' : W} {f : Name} {args : List Ex} {r : Res} (ho : okEx P vis (.call f args))
    (h : Inv q P I env vis (F :: rest) w) (hc : compile H q (n + 1) F.addr (tree (.call f args)) w = some (r, w')) (hf : Fin q I w') :
    r.ret = false ∧ Next w w' ∧ Sym H q P (.ex env (.call f args) w.s r.facs w'.s) := by
  obtain ⟨hok, hfn⟩ := ho
  simp only [tree, compile, compileStep, Constraint.output, Constraint.inputs] at hc
  rcases hfn with ⟨rfl, hl⟩ | ⟨hb, G, hG, rfl, hlen⟩
  · match args, hl, hok with
    | [e], _, hok =>
      rw [trees, trees, callFunction_base] at hc
      simp only [Option.bind_eq_bind, Option.bind_eq_some_iff, Prod.exists, Option.pure_def, Option.some.injEq, Prod.mk.injEq] at hc
      obtain ⟨x, w1, h1, fs, s, h2, rfl, rfl⟩ := hc
      have hf1 : Fin q I w1 := hf.mono (Mono.gates (base_computed h2))
      obtain ⟨-, n1, s1⟩ := hE _ _ _ _ _ _ _ _ _ _ hok.1 (Or.inl rfl) h h1 hf1
      exact ⟨rfl, ⟨n1.grow, n1.ok⟩, .base s1 h2⟩
  · rw [callFunction_user hb] at hc
    simp only [callUser, Option.bind_eq_bind, Option.bind_eq_some_iff, Prod.exists] at hc
    obtain ⟨o, h1, nxt, m1, h2, as, w2, h3, ready, m3, h4, h5⟩ := hc
    have hm2 : Mono w2 w' := by
      split at h5
      · simp only [execFunction, Option.bind_eq_bind, Option.bind_eq_some_iff, Prod.exists, Option.pure_def, Option.some.injEq, Prod.mk.injEq] at h5
        obtain ⟨_, _, ⟨fo, -, h6⟩, -, rfl⟩ := h5
        exact (Mono.heap _ _).trans (tasks_mono (compile_mono H q n) h6)
      · simp only [Option.bind_eq_some_iff, Option.pure_def, Option.some.injEq, Prod.mk.injEq] at h5
        obtain ⟨_, -, -, rfl⟩ := h5
        exact Mono.heap _ _
    obtain ⟨rfl, fs, sy, g3, hinv, hloops, hfr, fo, ho1, ho2⟩ := enter hP (compile_mono H q n) hE hG hok hlen h h1 h2 h3 h4 (hf.mono hm2)
    simp only [if_true, execFunction, Option.bind_eq_bind, Option.bind_eq_some_iff, Prod.exists, Option.pure_def, Option.some.injEq, Prod.mk.injEq] at h5
    obtain ⟨r1, w1, ⟨fo', ho1', h6⟩, rfl, rfl⟩ := h5
    rw [ho1] at ho1'; cases ho1'
    rw [ho2, ← execGen_false (H := H)] at h6
    obtain ⟨hnames, hwords, hnd, hdn, hdis⟩ := hP.names hG
    obtain ⟨-, -, hbody, hret⟩ := hP.ok G hG
    obtain ⟨s1, b1, b2, b3, b4⟩ := fn_spec (compile_mono H q n) hD hS hX (ret_spec hE') (outer := G.top) (by
        intro E hE y hy
        rw [List.mem_singleton] at hE
        subst hE
        rcases block_bases (fun y hy => (hnames y (List.mem_append_right _ hy)).word) hy with hy | hy
        · obtain ⟨x, hx, rfl⟩ := List.mem_map.mp hy
          exact List.mem_append_left _ (word_names hwords hx).1
        · exact List.mem_append_right _ hy)
      G.body 0 _ _ _ _ _ hbody (fun st hst => block_cov (fun y hy => hnames y (List.mem_append_right _ hy)) hdn hdis hst)
      (fun vis1 hv => okEx_mono (fun y hy => by
        rw [hv]
        rcases List.mem_append.mp hy with hy | hy
        · exact Or.inr hy
        · exact Or.inl hy) _ hret)
      (fun y hy => List.mem_append_left _ hy) hloops hinv h6 hf
    simp only [complete, Bool.false_eq_true, if_false, Option.some.injEq] at b2
    subst b2
    refine ⟨rfl, ⟨grow_drop g3 b3.grow hfr, b4⟩, ?_⟩
    refine .call ?_ (find_mem hP.nodup hG) hlen sy b1
    intro he
    exact (hP.name G hG).2 (by rw [he]; decide +kernel)

end APS.Prog
