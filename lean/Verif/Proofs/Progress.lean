import Verif.Proofs.ProgressForms
import Verif.Proofs.Compiled
import Verif.Spec.Run

/-! The compiler finishes on expressions of sums and products. -/
namespace APS.Prog
open APS.Circuit
open APS.Lex (Token TokenType)
open APS.Parse (Constraint)
open APS.ParseSpec (Ex tree trees)
open APS.LangSpec

variable {H : Name → Nat} {q : Nat}

/-- the function `a` has the parameter `x` -/
def HasArg (m : Mem) (a : Nat) (x : Name) : Prop :=
  ∃ (f : FObj) (i : Nat) (ents : List (Name × Nat)) (o : Nat) (fo : FObj) (j : Nat), m.objs[a]? = some f ∧ f.fmap = some i ∧ m.maps[i]? = some ents ∧
    ents.lookup x = some o ∧ f.cmap.lookup x = some (node .functionCall x) ∧ m.objs[o]? = some fo ∧ fo.isNumber = false ∧ fo.inputs = [] ∧
    fo.fmap = some j ∧ m.maps[j]? = some [] ∧ fo.tasks = [oneTask (argF x 1)] ∧ x ∉ builtins

theorem HasArg.grow {m m' : Mem} (hg : Grow0 m m') {a : Nat} {x : Name} (h : HasArg m a x) : HasArg m' a x := by
  obtain ⟨f, i, ents, o, fo, j, h1, h2, h3, h4, h5, h6, h7, h8, h9, h10, h11⟩ := h
  exact ⟨f, i, ents, o, fo, j, hg.obj h1, h2, hg.map h3 id, h4, h5, hg.obj h6, h7, h8, h9, hg.map h10 id, h11⟩

/-- the copy of an object without functions -/
theorem flatCopy_leaf {m : Mem} {o j : Nat} {fo : FObj} (h1 : m.objs[o]? = some fo) (h2 : fo.fmap = some j) (h3 : m.maps[j]? = some []) (k : Nat) :
    flatCopy (k + 1) m o = some (m.objs.length, (m.newCircuit fo.name fo.context).2.update m.objs.length
      fun g => { g with inputs := fo.inputs, cmap := fo.cmap, tasks := fo.tasks }) := by
  simp only [flatCopy, h1, h2, h3, Option.bind_eq_bind, Option.bind_some, List.foldlM_nil, Option.pure_def]
  rfl

theorem update_grow0 {m m' : Mem} (h : Grow0 m m') (g : FObj → FObj) : Grow0 m (m'.update m.objs.length g) :=
  ⟨by rw [update_olen]; exact h.olen, by rw [update_maps]; exact h.mlen,
    fun b hb => by rw [update_obj, if_neg (by omega)]; exact h.objs b hb, fun i hi hs => by rw [update_maps]; exact h.maps i hi hs⟩

/-- A parameter is read. -/
theorem arg_total {a : Nat} {x : Name} {w : W} (h : HasArg w.m a x) :
    w.m.findConstraint w.m.depth (some a) x = some (node .functionCall x) ∧ ∃ m', Grow0 w.m m' ∧
      ∀ n, compile H q (n + 3) a (node .functionCall x) w = some ({ facs := [argF x 1] }, { w with m := m' }) ∧
        compile H q (n + 4) a (.mk ⟨.identifier, x⟩ []) w = some ({ facs := [argF x 1] }, { w with m := m' }) := by
  obtain ⟨f, i, ents, o, fo, j, h1, h2, h3, h4, h5, h6, h7, h8, h9, h10, h11, h12⟩ := h
  have hown : w.m.ownFunction a x = some o := by rw [own_eq h1 h2 h3, h4]
  have hfind : w.m.findFunction w.m.depth (some a) x = some o := find_own hown
  have hcon : w.m.findConstraint w.m.depth (some a) x = some (node .functionCall x) := by
    simp only [Mem.depth, Mem.findConstraint, h1, Option.bind_some, h5]
  have hcopy : flatCopy w.m.depth w.m o = _ := flatCopy_leaf h6 h9 h10 w.m.objs.length
  have hg1 := update_grow0 (newCircuit_grow w.m fo.name fo.context) fun g => { g with inputs := fo.inputs, cmap := fo.cmap, tasks := fo.tasks }
  have ho1 : ((w.m.newCircuit fo.name fo.context).2.update w.m.objs.length
      fun g => { g with inputs := fo.inputs, cmap := fo.cmap, tasks := fo.tasks }).objs[w.m.objs.length]? =
      some { name := fo.name, context := fo.context, fmap := some w.m.maps.length, inputs := [], cmap := fo.cmap, tasks := [oneTask (argF x 1)] } := by
    rw [update_obj, if_pos rfl, newCircuit_obj, h8, h11]
    rfl
  generalize (w.m.newCircuit fo.name fo.context).2.update w.m.objs.length
      (fun g => { g with inputs := fo.inputs, cmap := fo.cmap, tasks := fo.tasks }) = m1 at hcopy hg1 ho1
  refine ⟨hcon, m1.update w.m.objs.length fun g => { g with inputs := [] }, update_grow0 hg1 _, fun n => ?_⟩
  have ho2 : (m1.update w.m.objs.length fun g => { g with inputs := [] }).objs[w.m.objs.length]? =
      some { name := fo.name, context := fo.context, fmap := some w.m.maps.length, inputs := [], cmap := fo.cmap, tasks := [oneTask (argF x 1)] } := by
    rw [update_obj, if_pos rfl, ho1]
    rfl
  have hload : loadArgs m1 w.m.objs.length [] = some (true, m1.update w.m.objs.length fun g => { g with inputs := [] }) := by
    simp only [loadArgs, ho1, Option.bind_eq_bind, Option.bind_some, List.length_nil, lt_self_iff_false, if_false, List.zip_nil_right, List.foldlM_nil,
      Option.pure_def, decide_true, List.drop_zero]
  have hone : ∀ w' : W, compile H q (n + 2) w.m.objs.length (oneTask (argF x 1)) w' = some ({ facs := [argF x 1], ret := true }, w') := by
    intro w'
    simp [oneTask, argF, node, tokOf, compile, compileStep, Constraint.output, Constraint.inputs]
  have hcall : compile H q (n + 3) a (node .functionCall x) w = some ({ facs := [argF x 1] }, { w with m := m1.update w.m.objs.length fun g => { g with inputs := [] } }) := by
    show callFunction H q (compile H q (n + 2)) a x [] w = _
    rw [callFunction_user h12]
    simp only [callUser, hfind, hcopy, callArgs, hload, Option.bind_eq_bind, Option.bind_some, if_true, execFunction, ho2, execTasks, hone, Option.pure_def]
  refine ⟨hcall, ?_⟩
  show compileStep H q (compile H q (n + 3)) a (.mk ⟨.identifier, x⟩ []) w = _
  simp only [compileStep, Constraint.output, hfind, h6, h7, h8, hcon, hcall, Option.bind_eq_bind, Option.bind_some, Bool.false_eq_true, if_false, if_true]

/-- a step of the run: no gates of `SPLIT` are added, the memory grows, no form is stored, and what is thrown away is a number -/
structure Later (q : Nat) (w w' : W) : Prop where
  gates : ∀ g ∈ w'.s.c.gates, g ∈ w.s.c.gates ∨ NoSplit g
  grow : Grow0 w.m w'.m
  kept : w'.kept = w.kept
  thrown : ∀ t ∈ w'.thrown, t ∈ w.thrown ∨ (t.2 = {} ∧ APS.Spec.IsConst q t.1)

theorem Later.trans {w w1 w2 : W} (h : Later q w w1) (h' : Later q w1 w2) : Later q w w2 :=
  ⟨fun g hg => (h'.gates g hg).elim (h.gates g) Or.inr, h.grow.trans h'.grow, h'.kept.trans h.kept, fun t ht => (h'.thrown t ht).elim (h.thrown t) Or.inr⟩

theorem Later.refl (w : W) : Later q w w := ⟨fun _ h => Or.inl h, Grow.refl _ _, rfl, fun _ h => Or.inl h⟩

/-- Indices that are numbers. -/
theorem resolve_total (hq : 0 < q) {a : Nat} : ∀ {is : List Name}, (∀ w ∈ is, APS.Spec.IsLit w ∧ Nat.ofDigitChars 10 w 0 < 2 ^ 63) → ∀ (t : Name) (w : W),
    ∃ w', Later q w w' ∧ w'.m = w.m ∧ w'.s = w.s ∧ ∀ n, resolveArray (compile H q (n + 1)) a (trees (is.map .num)) t w =
      some (t ++ APS.ParseSpec.indexText ((is.map .num).map lit), w')
  | [], _, t, w => ⟨w, Later.refl w, rfl, rfl, fun n => by simp [trees, resolveArray, APS.ParseSpec.indexText]⟩
  | i :: is, h, t, w => by
    obtain ⟨⟨d1, d2⟩, hlt⟩ := h i List.mem_cons_self
    have hc : compileNum q i = some [⟨⟨true, i⟩, ((Nat.ofDigitChars 10 i 0 : Nat) : Int) % q⟩] := by
      simp only [compileNum, Fq.stringToField, parseInt_digits i d1 d2, Option.map_some]
    have hq' : (0 : Int) < q := by exact_mod_cast hq
    obtain ⟨w', h1, h2, h4, h3⟩ := resolve_total hq (a := a) (fun w hw => h w (List.mem_cons_of_mem _ hw)) (t ++ '[' :: (Nat.toDigits 10 (Nat.ofDigitChars 10 i 0) ++ [']']))
      { w with thrown := w.thrown ++ [([⟨⟨true, i⟩, ((Nat.ofDigitChars 10 i 0 : Nat) : Int) % q⟩], {})] }
    have l1 : Later q w { w with thrown := w.thrown ++ [([⟨⟨true, i⟩, ((Nat.ofDigitChars 10 i 0 : Nat) : Int) % q⟩], {})] } := by
      refine ⟨fun _ h => Or.inl h, Grow.refl _ _, rfl, fun t ht => ?_⟩
      rcases List.mem_append.mp ht with ht | ht
      · exact Or.inl ht
      · rw [List.mem_singleton.mp ht]
        exact Or.inr ⟨rfl, rfl, Int.emod_nonneg _ (by omega), Int.emod_lt_of_pos _ hq'⟩
    refine ⟨w', l1.trans h1, h2, h4, fun n => ?_⟩
    · have hn : compile H q (n + 1) a (.mk ⟨.number, i⟩ []) { w with s := {} } =
          some ({ facs := [⟨⟨true, i⟩, ((Nat.ofDigitChars 10 i 0 : Nat) : Int) % q⟩] }, { w with s := {} }) := by
        simp only [compile, compileStep, Constraint.output, hc, Option.map_some]
      have hk : (0 : Int) ≤ (Nat.ofDigitChars 10 i 0 : Nat) ∧ ((Nat.ofDigitChars 10 i 0 : Nat) : Int) < 2 ^ 63 := ⟨by positivity, by exact_mod_cast hlt⟩
      simp only [List.map_cons, trees, tree, resolveArray, hn, Option.bind_eq_bind, Option.bind_some, parseInt_digits i d1 d2, if_pos hk, Int.toNat_natCast, h3]
      simp [APS.ParseSpec.indexText, lit]

/-- A node around an expression changes nothing. -/
theorem wrap_total {n a : Nat} {t : Name} {c : Constraint} {w : W} {x : Res × W} (h : compile H q n a c w = some x) :
    compile H q (n + 1) a (.mk ⟨.unassigned, t⟩ [c]) w = some x := h

theorem _root_.APS.LangSpec.SumProd.pos {xs : List Name} {e : Ex} (he : SumProd xs e) : 1 ≤ atOnes e := by
  induction he with
  | num _ h => exact Nat.one_le_iff_ne_zero.mpr h
  | var _ => exact le_refl _
  | elem _ _ _ => exact le_refl _
  | paren _ ih => exact ih
  | add _ _ h1 h2 => simp only [atOnes, if_true]; omega
  | @mul l r _ _ h1 h2 =>
    have e : atOnes (.bin ⟨.arithmetic, ['*']⟩ l r) = atOnes l * atOnes r := by simp [atOnes]
    rw [e]
    exact Nat.mul_pos h1 h2

theorem expr_total (hH : LongHash H) {a : Nat} {xs : List Name} {e : Ex} (he : SumProd xs e) : ∀ {w : W}, (∀ x ∈ xs, HasArg w.m a x) → atOnes e < q →
    ∃ N f w', Later q w w' ∧ Sized f (atOnes e) ∧ w'.s.c.gates.length ≤ w.s.c.gates.length + muls e ∧ ∀ n, N ≤ n → compile H q n a (tree e) w = some ({ facs := f }, w') := by
  have sub : ∀ {e : Ex} {k : Constraint} {w : W} {f : Factors} {w' : W} {N : Nat}, Wrap e k →
      (∀ n, N ≤ n → compile H q n a (tree e) w = some ({ facs := f }, w')) →
      ∀ n, N + 1 ≤ n → compile H q n a k w = some ({ facs := f }, w') := by
    intro e k w f w' N hk h n hn
    rcases hk with rfl | ⟨t, rfl⟩
    · exact h n (by omega)
    · obtain ⟨n, rfl⟩ : ∃ n', n = n' + 1 := ⟨n - 1, by omega⟩
      exact wrap_total (h n (by omega))
  have wl : ∀ (l r : Ex), Wrap l (if !l.single && r.single then .mk ⟨.unassigned, APS.ParseSpec.spell (APS.ParseSpec.write l.core)⟩ [tree l] else tree l) := by
    intro l r
    split
    · exact Or.inr ⟨_, rfl⟩
    · exact Or.inl rfl
  have wr : ∀ (l r : Ex), Wrap r (if l.single && !r.single then .mk ⟨.unassigned, APS.ParseSpec.spell (APS.ParseSpec.write r.core)⟩ [tree r] else tree r) := by
    intro l r
    split
    · exact Or.inr ⟨_, rfl⟩
    · exact Or.inl rfl
  have one : ∀ x : Name, Sized [argF x 1] 1 := fun x => ⟨by simp, by simp [Pos, argF], by simp [argF]⟩
  induction he with
  | @num t h1 h2 =>
    intro w _ hlt
    obtain ⟨f, a1, a2⟩ := num_total (q := q) h1 h2 hlt
    refine ⟨1, f, w, Later.refl w, a2, Nat.le_add_right _ _, fun n hn => ?_⟩
    obtain ⟨n, rfl⟩ : ∃ n', n = n' + 1 := ⟨n - 1, by omega⟩
    simp only [tree, compile, compileStep, Constraint.output, a1, Option.map_some]
  | @var x hx =>
    intro w hw _
    obtain ⟨-, m', g, h⟩ := arg_total (H := H) (q := q) (hw x hx)
    refine ⟨4, [argF x 1], { w with m := m' }, ⟨fun _ h => Or.inl h, g, rfl, fun _ h => Or.inl h⟩, one x, Nat.le_add_right _ _, fun n hn => ?_⟩
    obtain ⟨n, rfl⟩ : ∃ n', n = n' + 4 := ⟨n - 4, by omega⟩
    exact (h n).2
  | @elem y is _ his hx =>
    intro w hw hlt
    obtain ⟨w1, g1, e1, e2, h1⟩ := resolve_total (H := H) (q := q) (a := a) (by omega) his y w
    obtain ⟨hc, m', g, h⟩ := arg_total (H := H) (q := q) (w := w1) (by rw [e1]; exact hw _ hx)
    refine ⟨4, [argF (y ++ APS.ParseSpec.indexText ((is.map .num).map lit)) 1], { w1 with m := m' }, g1.trans ⟨fun _ h => Or.inl h, g, rfl, fun _ h => Or.inl h⟩, one _, by show w1.s.c.gates.length ≤ _; rw [e2]; exact Nat.le_add_right _ _, fun n hn => ?_⟩
    obtain ⟨n, rfl⟩ : ∃ n', n = n' + 4 := ⟨n - 4, by omega⟩
    show compileStep H q (compile H q (n + 3)) a (.mk ⟨.arrayCall, y⟩ (trees (is.map .num))) w = _
    simp only [compileStep, Constraint.output, Constraint.inputs, h1 (n + 2), hc, (h n).1, Option.bind_eq_bind, Option.bind_some, Option.pure_def]
  | paren _ ih =>
    intro w hw hlt
    exact ih hw hlt
  | @add l r _ _ ihl ihr =>
    intro w hw hlt
    have e : atOnes (.bin ⟨.arithmetic, ['+']⟩ l r) = atOnes l + atOnes r := by simp [atOnes]
    rw [e] at hlt ⊢
    obtain ⟨N1, f1, w1, g1, z1, t1, c1⟩ := ihl hw (by omega)
    obtain ⟨N2, f2, w2, g2, z2, t2, c2⟩ := ihr (w := w1) (fun x hx => (hw x hx).grow g1.grow) (by omega)
    refine ⟨N1 + N2 + 2, addFactors q f1 f2, w2, g1.trans g2, z1.add z2 hlt, by simp only [muls]; omega, fun n hn => ?_⟩
    obtain ⟨n, rfl⟩ : ∃ n', n = n' + 1 := ⟨n - 1, by omega⟩
    have d1 := sub (wl l r) c1 n (by omega)
    have d2 := sub (wr l r) c2 n (by omega)
    simp only [tree, compile, compileStep, Constraint.output, Constraint.inputs, operate]
    simp only [d1, d2, Option.bind_eq_bind, Option.bind_some, Option.pure_def]
    rfl
  | @mul l r hl hr ihl ihr =>
    intro w hw hlt
    have e : atOnes (.bin ⟨.arithmetic, ['*']⟩ l r) = atOnes l * atOnes r := by simp [atOnes]
    rw [e] at hlt ⊢
    have hl1 := hl.pos
    have hr1 := hr.pos
    obtain ⟨N1, f1, w1, g1, z1, t1, c1⟩ := ihl hw (by nlinarith)
    obtain ⟨N2, f2, w2, g2, z2, t2, c2⟩ := ihr (w := w1) (fun x hx => (hw x hx).grow g1.grow) (by nlinarith)
    obtain ⟨h, s3, k1, k2⟩ := z1.mulGate hH z2 hlt w2.s
    refine ⟨N1 + N2 + 2, h, { w2 with s := s3 }, g1.trans ⟨fun g hg => (mulGate_gates k1 g hg).elim (g2.gates g) fun h => Or.inr (noSplit_mult h), g2.grow, g2.kept, g2.thrown⟩, k2, by have := mulGate_count k1; simp only [muls, if_true]; omega, fun n hn => ?_⟩
    obtain ⟨n, rfl⟩ : ∃ n', n = n' + 1 := ⟨n - 1, by omega⟩
    have d1 := sub (wl l r) c1 n (by omega)
    have d2 := sub (wr l r) c2 n (by omega)
    simp only [tree, compile, compileStep, Constraint.output, Constraint.inputs, operate]
    simp only [d1, d2, k1, Option.bind_eq_bind, Option.bind_some, Option.pure_def]
    rfl

end APS.Prog
