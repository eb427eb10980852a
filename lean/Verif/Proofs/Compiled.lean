import Verif.Proofs.BuildFun
import Verif.Proofs.SimMain
import Verif.Proofs.SymSound
import Verif.Proofs.SymComplete
import Verif.Proofs.Statement

/-! Programs with functions, loops and arrays: from the constraints of the parser to the gates. -/
namespace APS.Prog
open APS.Lex (Token TokenType)
open APS.Parse (Constraint marker)
open APS.Circuit hiding execute compile Prog
open APS.LangSpec (builtins Stm Fun isWord okEx okExs okStms declared emit emits emitFun emitPublic Program run runList runMain eval)
open APS.ParseSpec (Ex indexText tree trees tuples)
open APS.Sym (Sym complete sym_wf sym_sound sym_complete)
open APS.Spec (NoConfusion NoConstSplit GateHolds formVal)

variable {H : Name → Nat} {q : Nat}

theorem Program.progOK {p : Program} (h : p.ok) : ProgOK p.funs := ⟨h.nodup, h.name, h.ok⟩

theorem main_builtin : "main".toList ∈ builtins := by decide +kernel

/-- the frame of `main` -/
def mainFrame (p : Program) (a : Nat) : Frame := ⟨a, p.main.names ++ vars p.main.body, arrs p.main.body⟩

theorem program_built {p : Program} (hp : p.ok) {m : Mem} (h : program p.emit = some m) :
    ∃ a, m.ownFunction 0 "main".toList = some a ∧ (∃ f : FObj, m.objs[a]? = some f ∧ f.inputs = p.main.names ∧
        f.tasks = tasksFrom 0 p.main.body ++ [node .ret [] [tree p.main.ret]]) ∧
      Inv q p.funs p.main.names (initEnv p.main.names) (p.main.params.map Prod.fst) [mainFrame p a] { m := m } ∧
      Loops m (Outside [mainFrame p a]) a 0 p.main.body := by
  have hmain := hp.mainOk
  obtain ⟨h1, h2, -, -⟩ := hmain
  obtain ⟨hw, hdw, hdn, hdis⟩ := ok_params hp.mainOk
  have hnames : ∀ y ∈ p.main.top, NameOK p.funs y := fun y hy => ⟨(h2 y hy).1, (h2 y hy).2.1, (h2 y hy).2.2⟩
  have hfuns : ∀ F, F ∈ p.funs ↔ F ∈ p.before ∨ F ∈ p.after := fun F => by simp [Program.funs]
  have hinit : Blk (({} : Mem).newCircuit "global".toList none).2 0 { name := "global".toList, fmap := some 0 } 0 [] := by
    have ok0 : MemOK {} := ⟨by simp, by simp, by simp, by simp⟩
    exact ⟨rfl, rfl, rfl, newCircuit_ok ok0 _ _⟩
  have he : p.emit = (p.before.map (fun F => (([] : List (Name × List Nat)), F)) ++ (p.pubs, p.main) ::
      p.after.map (fun F => (([] : List (Name × List Nat)), F))).flatMap (fun x => emitFun x.1 x.2) := by
    simp [Program.emit, List.flatMap_map]
  unfold program at h
  rw [he] at h
  obtain ⟨ents, L, b, o, ⟨hL, hL'⟩, keep, only, at', inj⟩ := pre_funs (P := p.funs) _ _ hinit (by
    intro x hx
    simp only [List.mem_append, List.mem_map, List.mem_cons] at hx
    rcases hx with ⟨F, hF, rfl⟩ | rfl | ⟨F, hF, rfl⟩
    · exact hp.ok F ((hfuns F).2 (Or.inl hF))
    · exact hp.mainOk
    · exact hp.ok F ((hfuns F).2 (Or.inr hF))) h
  obtain ⟨a, a1, a2, a3, a4⟩ := at' (p.pubs, p.main) (by simp)
  rw [hp.main] at a1
  obtain ⟨f, i, fents, n1, n2, n3, n4, n5, n6, n7, n8, n9⟩ := a4.node
  refine ⟨a, by rw [b.own]; exact a1, ⟨f, n1, n5, n6⟩, ?_, ?_⟩
  · refine ⟨b.ok, ⟨_, _, a4.node⟩, ?_, ?_, ?_, fun y hy => hnames y (List.mem_append_left _ hy), wf_empty _, envOK_init _, fun x g hg => by rw [(lookup_initEnv _ x g hg).2]; simp⟩
    · refine ⟨_, _, _, b.obj, rfl, rfl, b.fmap, b.map, ?_, ?_⟩
      · intro k hk
        rcases only k hk with hk | ⟨x, hx, rfl⟩
        · simp at hk
        · simp only [List.mem_append, List.mem_map, List.mem_cons] at hx
          rcases hx with ⟨F, hF, rfl⟩ | rfl | ⟨F, hF, rfl⟩
          · exact Or.inr (List.mem_map_of_mem ((hfuns F).2 (Or.inl hF)))
          · exact Or.inl hp.main
          · exact Or.inr (List.mem_map_of_mem ((hfuns F).2 (Or.inr hF)))
      · intro F hF
        have hF' : (([] : List (Name × List Nat)), F) ∈ p.before.map (fun F => (([] : List (Name × List Nat)), F)) ++ (p.pubs, p.main) ::
            p.after.map (fun F => (([] : List (Name × List Nat)), F)) := by
          rcases (hfuns F).1 hF with hF | hF <;> simp [hF]
        obtain ⟨c, c1, c2, c3, c4⟩ := at' _ hF'
        refine ⟨c, c1, ?_, c4.node, ?_⟩
        · intro E hE
          rw [List.mem_singleton] at hE
          subst hE
          rintro rfl
          have := inj _ hF' (p.pubs, p.main) (by simp) _ c1 (by rw [hp.main]; exact a1)
          have hb := (hp.name F hF).2
          rw [this, hp.main] at hb
          exact hb main_builtin
        · refine loops_move ?_ (fun _ _ _ _ _ _ _ h => h) (fun _ _ _ _ _ _ _ _ _ => rfl) _ _ _ (fun _ _ => rfl) c4.loops
          intro x hx _ E hE
          rw [List.mem_singleton] at hE
          subst hE
          show a ≠ x
          omega
    · intro E hE x o' hx ho'
      rw [List.mem_singleton] at hE
      subst hE
      have ho2 : fents.lookup x = some o' := by rw [← own_eq n1 n3 n4]; exact ho'
      have hxn : x ∈ p.main.names := by
        rcases n8 x (by rw [ho2]; rfl) with hk | hk
        · rcases List.mem_append.mp hk with hk | hk
          · exact hk
          · exfalso
            simp only [vars, List.mem_flatMap] at hk
            obtain ⟨st, hst, hk⟩ := hk
            have hd : base x ∈ declared p.main.body := List.mem_flatMap.mpr ⟨st, hst, stVars_base
              (fun y hy => hdw y (List.mem_flatMap.mpr ⟨st, hst, hy⟩)) hk⟩
            exact (List.nodup_append.mp h1).2.2 _ hx _ hd rfl
        · exfalso
          have hwx := (hnames _ (List.mem_append_left _ hx)).word
          have := isWord_notFor hwx (x.dropWhile (· != '['))
          rw [base, List.takeWhile_append_dropWhile] at this
          exact this hk
      obtain ⟨o2, k1, k2⟩ := a4.params x hxn
      have ho3 : m.ownFunction a x = some o' := ho'
      rw [ho3] at k1; cases k1
      refine ⟨[argF x 1], ?_, k2⟩
      cases hl : (initEnv p.main.names).lookup x with
      | some f => rw [(lookup_initEnv _ x f hl).2]
      | none =>
        exfalso
        rw [List.lookup_eq_none_iff] at hl
        have := hl (x, [argF x 1]) (List.mem_map.mpr ⟨x, hxn, rfl⟩)
        simp at this
    · intro E hE y hy
      rw [List.mem_singleton] at hE
      subst hE
      rcases block_bases hdw hy with hy | hy
      · obtain ⟨x, hx, rfl⟩ := List.mem_map.mp hy
        exact hnames _ (List.mem_append_left _ (word_names hw hx).1)
      · exact hnames _ (List.mem_append_right _ hy)
  · refine loops_move ?_ (fun _ _ _ _ _ _ _ h => h) (fun _ _ _ _ _ _ _ _ _ => rfl) _ _ _ (fun _ _ => rfl) a4.loops
    intro x hx _ E hE
    rw [List.mem_singleton] at hE
    subst hE
    show a ≠ x
    omega

/-- an execution is a symbolic compilation of the body and of the returned expression -/
theorem execute_sym [Fact q.Prime] (hq : 2 ^ 63 ≤ q) {p : Program} (hp : p.ok) {m : Mem} (h : program p.emit = some m) {n : Nat} {f : Factors} {w : W}
    (hx : execute H q n m = some (f, w)) (hf : Fin q p.main.names w) :
    ∃ s2, Sym H q p.funs (.fn true (initEnv p.main.names) p.main.body p.main.ret {} f s2) ∧ completeFunction H f s2 = some w.s := by
  obtain ⟨a, ha, ⟨fo, ho1, -, ho2⟩, hinv, hloops⟩ := program_built (q := q) hp h
  obtain ⟨hw, hdw, hdn, hdis⟩ := ok_params hp.mainOk
  obtain ⟨h1, h2, hbody, hret⟩ := hp.mainOk
  have hnames : ∀ y ∈ p.main.top, NameOK p.funs y := fun y hy => ⟨(h2 y hy).1, (h2 y hy).2.1, (h2 y hy).2.2⟩
  simp only [execute, ha, Option.bind_eq_bind, Option.bind_some, ho1, ho2] at hx
  obtain ⟨r, hxg, rfl⟩ := execGen_true hx
  obtain ⟨hE, hD, hS, hX⟩ := sim (H := H) (q := q) (Program.progOK hp) hq n
  obtain ⟨s2, b1, b2, -, -⟩ := fn_spec (compile_mono H q n) hD hS hX
    (ret_spec fun k _ => (sim (H := H) (q := q) (Program.progOK hp) hq k).1) (outer := p.main.top) (by
      intro E hE y hy
      rw [List.mem_singleton] at hE
      subst hE
      rcases block_bases hdw hy with hy | hy
      · obtain ⟨x, hx, rfl⟩ := List.mem_map.mp hy
        exact List.mem_append_left _ (word_names hw hx).1
      · exact List.mem_append_right _ hy)
    p.main.body 0 _ _ _ _ _ hbody (fun st hst => block_cov (fun y hy => hnames y (List.mem_append_right _ hy)) hdn (fun x hx hd =>
      (List.nodup_append.mp h1).2.2 _ (word_names hw hx).1 _ hd rfl) hst)
    (fun vis1 hv => okEx_mono (fun y hy => by
      rw [hv]
      rcases List.mem_append.mp hy with hy | hy
      · exact Or.inr hy
      · exact Or.inl hy) _ hret)
    (fun y hy => List.mem_append_left _ hy) hloops hinv hxg hf
  exact ⟨s2, b1, b2⟩

theorem exec_wf [Fact q.Prime] (hq : 2 ^ 63 ≤ q) {p : Program} (hp : p.ok) {m : Mem} (h : program p.emit = some m) {n : Nat} {f : Factors} {w : W}
    (hx : execute H q n m = some (f, w)) (hf : Fin q p.main.names w) :
    WF p.main.names w.s ∧ GoodF q f ∧ KnownF (p.main.names ++ w.s.c.computed) f := by
  obtain ⟨s2, h1, h3⟩ := execute_sym hq hp h hx hf
  have r := sym_wf h1 _ (wf_empty _) (envOK_init _)
  obtain ⟨e3, w3⟩ := completeFunction_wf r.wf r.good r.known h3
  exact ⟨w3, r.good, r.known.mono (known_mono e3 r.wf w3)⟩

theorem exec_sound [Fact q.Prime] (hq : 2 ^ 63 ≤ q) {p : Program} (hp : p.ok) {m : Mem} (h : program p.emit = some m) {n : Nat} {f : Factors} {w : W}
    (hx : execute H q n m = some (f, w)) (hf : Fin q p.main.names w) {gx : ZMod q → ZMod q} {ν : Name → ZMod q} (hn : NoConfusion w.s)
    (hh : ∀ g ∈ w.s.c.gates, GateHolds gx ν g) : APS.Sym.Out (fun k => runMain gx p.funs p.main k ν) (· = formVal ν f) := by
  obtain ⟨s2, h1, h3⟩ := execute_sym hq hp h hx hf
  have r := sym_wf h1 _ (wf_empty _) (envOK_init _)
  obtain ⟨e3, w3⟩ := completeFunction_wf r.wf r.good r.known h3
  exact sym_sound gx h1 _ w.s ν _ (wf_empty _) (envOK_init _) (storeRel_init _ ν) ⟨hn, hh⟩ e3

theorem runMain_congr [Fact q.Prime] {gx : ZMod q → ZMod q} {P : List Fun} {F : Fun} {k : Nat} {ν ν' : Name → ZMod q}
    (h : ∀ n ∈ F.names, ν' n = ν n) : runMain gx P F k ν' = runMain gx P F k ν := by
  have : (fun n => if n ∈ F.names then some (ν' n) else none) = fun n => if n ∈ F.names then some (ν n) else none := by
    funext n
    split
    · rename_i hn; rw [h n hn]
    · rfl
  simp only [runMain, this]

theorem runMain_le [Fact q.Prime] (gx : ZMod q → ZMod q) (P : List Fun) (F : Fun) {n k : Nat} (h : n ≤ k) (ν : Name → ZMod q) :
    LangSpec.Le (runMain gx P F n ν) (runMain gx P F k ν) :=
  LangSpec.finishes_le gx P h _ _ _

theorem exec_models [Fact q.Prime] (hq : 2 ^ 63 ≤ q) {p : Program} (hp : p.ok) {m : Mem} (h : program p.emit = some m) {n : Nat} {f : Factors} {w : W}
    (hx : execute H q n m = some (f, w)) (hf : Fin q p.main.names w) {gx : ZMod q → ZMod q} {vals : Name → ZMod q} {k : Nat} {v : ZMod q}
    (hn : NoConfusion w.s) (hc : NoConstSplit w.s) (hd : ∀ n ∈ p.main.names, n ∉ w.s.c.computed) (hv : runMain gx p.funs p.main k vals = .ok v) :
    ∃ ν, (∀ n ∈ p.main.names, ν n = vals n) ∧ Models gx ν w.s ∧ formVal ν f = v := by
  obtain ⟨s2, h1, h3⟩ := execute_sym hq hp h hx hf
  have r := sym_wf h1 _ (wf_empty _) (envOK_init _)
  obtain ⟨e3, w3⟩ := completeFunction_wf r.wf r.good r.known h3
  have hF : Final p.main.names w.s := ⟨w3, hn, hc, hd⟩
  have hF2 := hF.of_ext r.wf e3
  obtain ⟨ν2, a2, m2⟩ := sym_complete h1 _ vals _ k v (wf_empty _) (envOK_init _) (storeRel_init _ vals) ⟨by simp, by simp, by simp⟩ hF2 hv
  obtain ⟨ν3, a3, m3⟩ := completeFunction_complete r.wf r.known h3 m2 hF
  have hag : ∀ n ∈ p.main.names, ν3 n = vals n := fun n hn => by
    rw [a3 n (List.mem_append_left _ hn), a2 n (List.mem_append_left _ hn)]
  refine ⟨ν3, hag, m3, ?_⟩
  rw [← runMain_congr hag] at hv
  exact ((exec_sound hq hp h hx hf hn m3.holds).det (fun _ _ hn => runMain_le gx _ _ hn ν3) hv).symm

end APS.Prog
