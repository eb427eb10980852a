import Verif.Proofs.BuildTotal

/-! Every well-formed program is turned into function objects. -/
namespace APS.Prog
open APS.Lex (Token TokenType)
open APS.Parse (Constraint marker)
open APS.Circuit
open APS.LangSpec (builtins Stm Fun isWord okEx okExs okStms declared emit emits emitFun emitFin emitPublic Program ifFrees bareEx bareExs bareFin
  plainStms)
open APS.ParseSpec (Ex indexText tree trees tuples)
open APS.ProgSpec (nestedEnd)

variable {P : List Fun}

theorem registerArg_total {m : Mem} {a j : Nat} {f : FObj} {ents : List (Name × Nat)} (h : Blk m a f j ents) {x : Name} (hx : ents.lookup x = none) :
    ∃ m', registerArg a m (.mk ⟨.argument, x⟩ []) = some m' := by
  simp only [registerArg, Constraint.output, Constraint.inputs]
  obtain ⟨b1, o1⟩ := h.update (fun f => { f with inputs := f.inputs ++ [x], cmap := put x (node .functionCall x) f.cmap }) (fun _ => rfl)
  generalize (m.update a fun f => { f with inputs := f.inputs ++ [x], cmap := put x (node .functionCall x) f.cmap }) = m1 at b1 o1 ⊢
  obtain ⟨b2, o2, c2⟩ := b1.new x none
  obtain ⟨c3, u3⟩ := c2.update (fun f => { f with tasks := [node .ret [] [.mk ⟨.argument, x⟩ []]] }) (fun _ => rfl)
  have hlt := b1.lt
  have b3 := b2.other u3 c3.ok (by omega) (by omega)
  rw [show (m1.newCircuit x none).1 = m1.objs.length from rfl, b3.own, hx]
  exact b3.set_total x _

theorem args_total {a j : Nat} : ∀ (xs : List Name) {m : Mem} {f : FObj} {ents : List (Name × Nat)}, xs.Nodup → (∀ x ∈ xs, ents.lookup x = none) →
    Blk m a f j ents → ∃ m', (xs.map fun x => Constraint.mk ⟨.argument, x⟩ []).foldlM (registerArg a) m = some m' := by
  intro xs
  induction xs with
  | nil => intro m f ents _ _ _; exact ⟨m, rfl⟩
  | cons x xs ih =>
    intro m f ents hn hx h
    rw [List.nodup_cons] at hn
    obtain ⟨m1, h1⟩ := registerArg_total h (hx x (by simp))
    obtain ⟨-, b1, -, -⟩ := registerArg_spec h h1
    obtain ⟨m', h2⟩ := ih hn.2 (fun y hy => by
      rw [put_lookup, if_neg]
      · exact hx y (List.mem_cons_of_mem _ hy)
      · rintro rfl; exact hn.1 hy) b1
    exact ⟨m', by simp only [List.map_cons, List.foldlM_cons, h1, Option.bind_eq_bind, Option.bind_some]; exact h2⟩

theorem pubs_total {cur : Nat} {cs : List Constraint} {m m' : Mem} {n : Nat} : ∀ (ps : List (Name × List Nat)),
    (ps = [] ∨ (m.objs[cur]?).map FObj.name = some "main".toList) → preCompile n m cur cs = some m' →
    preCompile (n + ps.length) m cur (ps.map emitPublic ++ cs) = some m' := by
  intro ps
  induction ps with
  | nil => intro _ h; exact h
  | cons p ps ih =>
    intro hm h
    have hm : (m.objs[cur]?).map FObj.name = some "main".toList := by
      rcases hm with hm | hm
      · cases hm
      · exact hm
    have hc : ∀ l : List Nat, contextCheck.contextCheckAll m cur (l.map fun k => .mk ⟨.number, Nat.toDigits 10 k⟩ []) = true := by
      intro l
      induction l with
      | nil => rfl
      | cons k l ih => simp only [List.map_cons, contextCheck.contextCheckAll, ih, contextCheck, Bool.and_self]
    rw [show n + (p :: ps).length = (n + ps.length) + 1 by simp; omega]
    simp only [List.map_cons, List.cons_append, emitPublic, preCompile, Constraint.output, Constraint.inputs]
    rw [if_pos hm]
    exact (if_pos (hc p.2)).trans (ih (Or.inr hm) h)

theorem scalars_names {F : Fun} {x : Name} (h : x ∈ F.scalars) : x ∈ F.names := by
  simp only [Fun.scalars, List.mem_map, List.mem_filter, List.isEmpty_iff] at h
  obtain ⟨p, ⟨hp, he⟩, rfl⟩ := h
  simp only [Fun.names, List.mem_flatMap, List.mem_map]
  exact ⟨p, hp, [], by simp [he, tuples], by simp [indexText]⟩

theorem funs_total : ∀ (Fs : List (List (Name × List Nat) × Fun)) (n : Nat) {m : Mem} {f0 : FObj} {j0 : Nat} {ents0 : List (Name × Nat)},
    Blk m 0 f0 j0 ents0 → f0.cmap = [] → (∀ x ∈ Fs, x.2.ok P ∧ x.2.plain = true ∧ (x.1 = [] ∨ x.2.name = "main".toList)) →
    (Fs.map fun x => x.2.name).Nodup → (∀ x ∈ Fs, ents0.lookup x.2.name = none) → (Fs.flatMap fun x => emitFun x.1 x.2).length < n →
    ∃ m', preCompile n m 0 (Fs.flatMap fun x => emitFun x.1 x.2) = some m' := by
  intro Fs
  induction Fs with
  | nil =>
    intro n m f0 j0 ents0 _ _ _ _ _ hl
    obtain ⟨n, rfl⟩ : ∃ n', n = n' + 1 := ⟨n - 1, by omega⟩
    exact ⟨m, by simp [preCompile]⟩
  | cons x Fs ih =>
    intro n m f0 j0 ents0 h hcm hok hnd hfr hl
    obtain ⟨pubs, F⟩ := x
    obtain ⟨n, rfl⟩ : ∃ n', n = n' + 1 := ⟨n - 1, by omega⟩
    obtain ⟨hF, hpl, hmain⟩ := hok (pubs, F) (by simp)
    simp only at hF hpl hmain
    rw [List.map_cons, List.nodup_cons] at hnd
    obtain ⟨hw, hd, hn, hdis⟩ := ok_params hF
    have hsplit := split_nested (c := .mk ⟨.functionDefine, F.name⟩ (F.names.map fun x => .mk ⟨.argument, x⟩ [])) rfl (even_fun pubs F)
      (Fs.flatMap fun x => emitFun x.1 x.2)
    have e0 : ((pubs, F) :: Fs).flatMap (fun x => emitFun x.1 x.2) =
        .mk ⟨.functionDefine, F.name⟩ (F.names.map fun x => .mk ⟨.argument, x⟩ []) :: ((pubs.map emitPublic ++ (emits F.body ++ [marker .ret [tree F.ret]])) ++
          nestedEnd :: (Fs.flatMap fun x => emitFun x.1 x.2)) := by
      simp [emitFun, nestedEnd, marker]
    rw [e0] at hl ⊢
    simp only [List.length_cons, List.length_append, List.length_map, List.length_nil] at hl
    have hlt := h.lt
    obtain ⟨b0, o0, c0⟩ := h.new F.name (some 0)
    have hpn : (F.params.map Prod.fst).Nodup := (List.nodup_append.mp hF.1).1
    obtain ⟨m1, h1⟩ := args_total F.names (names_nodup hw hpn) (fun _ _ => rfl) c0
    obtain ⟨f1, e1, c1, o1, bu1, p1⟩ := args_built F.names (fun x hx => by
      obtain ⟨_, p, hp, is, rfl⟩ := word_names hw hx
      exact isWord_notFor (hw p hp) _) c0.lt.1 c0 h1
    have b1 := b0.other o1 c1.ok (by omega) (by omega)
    obtain ⟨m2, h2⟩ := b1.set_total F.name m.objs.length
    obtain ⟨b2, o2, eo2⟩ := b1.set c1.lt.1 h2
    have c2 := c1.other o2 b2.ok (by omega) (by omega)
    obtain ⟨m3, h3⟩ := ih n b2 hcm (fun x hx => hok x (List.mem_cons_of_mem _ hx)) hnd.2 (fun x hx => by
      rw [put_lookup, if_neg]
      · exact hfr x (List.mem_cons_of_mem _ hx)
      · intro he
        exact hnd.1 (by rw [← he]; exact List.mem_map_of_mem (f := fun x : List (Name × List Nat) × Fun => x.2.name) hx)) (by omega)
    obtain ⟨ents3, L, b3, o3, -⟩ := pre_funs Fs n b2 (fun x hx => (hok x (List.mem_cons_of_mem _ hx)).1) h3
    have c3 := c2.other o3 b3.ok (by omega) (by omega)
    simp only [Fun.plain, Bool.and_eq_true] at hpl
    obtain ⟨n', rfl⟩ : ∃ n', n = n' + pubs.length := ⟨n - pubs.length, by omega⟩
    obtain ⟨m4, h4⟩ := block_total n' F.body [node .ret [] [tree F.ret]] _ _ F.scalars c3 (by
        have := bu1.nofor (fun _ _ => ⟨rfl, rfl⟩)
        exact this) hF.2.2.1 hd hn (by
        refine bu1.unused (fun k _ => ⟨rfl, rfl⟩) hd ?_ (by simp)
        intro k hk hm
        exact (List.nodup_append.mp hF.1).2.2 _ (word_names hw hk).1 _ hm rfl) hpl.1 (fun x hx => by
        refine .here ?_
        rw [c3.own]
        obtain ⟨o, ho, -⟩ := p1 x (scalars_names hx)
        rw [ho]; rfl) (Or.inr ⟨_, _, rfl, hF.2.2.2, mem_of_all hpl.2⟩) (by
        simp only [List.length_append, List.length_cons, List.length_nil]; omega)
    have h4' := pubs_total pubs (hmain.imp id fun hm => by rw [c3.obj, Option.map_some, bu1.name, ← hm]) h4
    refine ⟨m4, ?_⟩
    rw [preCompile]
    simp only [Constraint.output, Option.bind_eq_bind]
    rw [hsplit]
    have hfr0 := hfr (pubs, F) (by simp)
    simp only at hfr0
    simp only [Option.bind_some, h.own, List.drop_succ_cons, List.drop_zero, hfr0, h.obj, hcm, List.lookup_nil]
    simp only [register, Option.bind_eq_bind, Constraint.output, Constraint.inputs]
    rw [show (m.newCircuit F.name (some 0)).1 = m.objs.length from rfl, h1]
    simp only [Option.bind_some, Option.pure_def, h2, h3]
    exact h4'

/-- every well-formed program in which names without an index are no arrays becomes function objects -/
theorem program_total {p : Program} (hp : p.ok) (hpl : p.plain = true) : ∃ m, program p.emit = some m := by
  have e : p.emit = (p.before.map (fun F => (([] : List (Name × List Nat)), F)) ++ (p.pubs, p.main) :: p.after.map fun F => ([], F)).flatMap
      fun x => emitFun x.1 x.2 := by
    simp [Program.emit, List.flatMap_append, List.flatMap_map]
  unfold program
  simp only [Program.plain, List.all_cons, Bool.and_eq_true, List.all_eq_true] at hpl
  rw [e]
  have hm0 : Blk (({} : Mem).newCircuit "global".toList none).2 0 { name := "global".toList, context := none, fmap := some 0 } 0 [] :=
    ⟨rfl, rfl, rfl, newCircuit_ok (by constructor <;> simp) _ _⟩
  refine funs_total (P := p.funs) _ _ hm0 rfl ?_ ?_ (fun _ _ => rfl) (by omega)
  · intro x hx
    simp only [List.mem_append, List.mem_cons, List.mem_map] at hx
    rcases hx with ⟨F, hF, rfl⟩ | rfl | ⟨F, hF, rfl⟩
    · have hm : F ∈ p.funs := List.mem_append_left _ hF
      exact ⟨hp.ok F hm, hpl.2 F hm, Or.inl rfl⟩
    · exact ⟨hp.mainOk, hpl.1, Or.inr hp.main⟩
    · have hm : F ∈ p.funs := List.mem_append_right _ hF
      exact ⟨hp.ok F hm, hpl.2 F hm, Or.inl rfl⟩
  · have hmain : ∀ F ∈ p.funs, F.name ≠ p.main.name := by
      intro F hF he
      refine (hp.name F hF).2 ?_
      rw [he, hp.main]
      simp [builtins]
    have hn := hp.nodup
    simp only [Program.funs, List.map_append] at hn
    obtain ⟨n1, n2, n3⟩ := List.nodup_append.mp hn
    simp only [List.map_append, List.map_map, List.map_cons]
    refine List.nodup_append.mpr ⟨n1, List.nodup_cons.mpr ⟨?_, n2⟩, ?_⟩
    · intro hc
      obtain ⟨F, hF, he⟩ := List.mem_map.mp hc
      exact hmain F (List.mem_append_right _ hF) he
    · intro a ha b hb
      rcases List.mem_cons.mp hb with rfl | hb
      · obtain ⟨F, hF, he⟩ := List.mem_map.mp ha
        rw [← he]
        exact hmain F (List.mem_append_left _ hF)
      · exact n3 a ha b hb

end APS.Prog
