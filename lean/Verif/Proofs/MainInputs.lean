import Verif.Model.Source
import Verif.Proofs.Clean

/-! The parameters of `main` are still there after the execution. -/
namespace APS.Prog
open APS.Lex (Token TokenType)
open APS.Parse (Constraint marker)
open APS.Circuit hiding execute compile Prog
open APS.LangSpec (builtins Stm Fun isWord okEx okExs okStms declared emit emits emitFun emitPublic Program run runList runMain eval)
open APS.ParseSpec (Ex indexText tree trees tuples)
open APS.Sym (Sym complete)

variable {H : Name → Nat} {q : Nat}

theorem execute_inputs [Fact q.Prime] (hq : 2 ^ 63 ≤ q) {p : Program} (hp : p.ok) {m : Mem} (h : program p.emit = some m) {n : Nat} {f : Factors} {w : W}
    (hx : execute H q n m = some (f, w)) (hf : Fin q p.main.names w) : mainInputs w.m = some p.main.names := by
  obtain ⟨a, ha, ⟨fo, ho1, hin, ho2⟩, hinv, hloops⟩ := program_built (q := q) hp h
  have hinv0 := hinv
  obtain ⟨hw, hdw, hdn, hdis⟩ := ok_params hp.mainOk
  obtain ⟨h1, h2, hbody, hret⟩ := hp.mainOk
  have hnames : ∀ y ∈ p.main.top, NameOK p.funs y := fun y hy => ⟨(h2 y hy).1, (h2 y hy).2.1, (h2 y hy).2.2⟩
  simp only [execute, ha, Option.bind_eq_bind, Option.bind_some, ho1, ho2] at hx
  obtain ⟨r, hxg, rfl⟩ := execGen_true hx
  obtain ⟨hE, hD, hS, hX⟩ := sim (H := H) (q := q) (Program.progOK hp) hq n
  obtain ⟨s2, -, -, b4, -⟩ := fn_spec (compile_mono H q n) hD hS hX
    (ret_spec fun k _ => (sim (H := H) (q := q) (Program.progOK hp) hq k).1) (outer := p.main.top) (by
      intro E hE y hy
      rw [List.mem_singleton] at hE
      subst hE
      rcases block_bases hdw hy with hy | hy
      · obtain ⟨x, hx, rfl⟩ := List.mem_map.mp hy
        exact List.mem_append_left _ (word_names hw hx).1
      · exact List.mem_append_right _ hy)
    p.main.body 0 _ _ _ _ _ hbody (fun st hst => block_cov (fun y hy => hnames y (List.mem_append_right _ hy)) hdn (fun x hx hd =>
      (List.nodup_append.mp h1).2.2 _ (word_names hw hx).1 _ hd rfl) hst)
    (fun vis1 hv => okEx_mono (fun y hy => by
      rw [hv]
      rcases List.mem_append.mp hy with hy | hy
      · exact Or.inr hy
      · exact Or.inl hy) _ hret)
    (fun y hy => List.mem_append_left _ hy) hloops hinv hxg hf
  obtain ⟨g0, i0, e0, k1, k2, -, k4, k5, -⟩ := hinv0.glob
  obtain ⟨ins, tasks, f1, i1, e1, l1, l2, l3, -⟩ := hinv0.chain
  have hne : i0 ≠ i1 := by
    rintro rfl
    have := hinv0.ok.inj _ _ _ _ _ k1 l1 k4 l3
    rw [← this] at l1
    rw [k1] at l1
    cases l1
    rw [k2] at l2
    cases l2
  have hmap : w.m.maps[i0]? = m.maps[i0]? := by
    have hlt : i0 < m.maps.length := (List.getElem?_eq_some_iff.mp k5).1
    refine b4.grow.maps i0 hlt ?_
    rintro ⟨E, hE, g, e1, e2⟩
    rw [List.mem_singleton] at hE
    subst hE
    have e3 := l1.symm.trans e1
    cases e3
    rw [l3] at e2
    cases e2
    exact hne rfl
  have hobj : ∀ b, b < m.objs.length → w.m.objs[b]? = m.objs[b]? := fun b hb => by
    rw [b4.grow.objs b hb]
  have hown : w.m.ownFunction 0 "main".toList = some a := by
    rw [← ha]
    unfold Mem.ownFunction
    rw [hobj 0 (lt_of_obj k1), k1]
    simp only [Option.bind_eq_bind, Option.bind_some, k4, hmap]
  show mainInputs w.m = _
  unfold mainInputs
  simp only [hown, Option.bind_eq_bind, Option.bind_some, hobj a (lt_of_obj ho1), ho1, hin]
  rfl

end APS.Prog
