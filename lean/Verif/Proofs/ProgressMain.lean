import Verif.Proofs.Progress
import Verif.Proofs.SimCall

/-! The compiler finishes on a `main` that returns an expression of sums and products. -/
namespace APS.Prog
open APS.Circuit
open APS.Lex (Token TokenType)
open APS.Parse (Constraint)
open APS.ParseSpec (Ex tree trees)
open APS.LangSpec

variable {H : Name → Nat} {q : Nat}

/-- the function `main`, and its parameters, as the parser builds them -/
theorem program_args {p : Program} (hp : p.ok) {m : Mem} (h : program p.emit = some m) :
    ∃ (a : Nat) (f : FObj), m.ownFunction 0 "main".toList = some a ∧ m.objs[a]? = some f ∧
      f.tasks = tasksFrom 0 p.main.body ++ [node .ret [] [tree p.main.ret]] ∧ ∀ x ∈ p.main.names, HasArg m a x := by
  have hmain := hp.mainOk
  obtain ⟨h1, h2, -, -⟩ := hmain
  obtain ⟨hw, hdw, hdn, hdis⟩ := ok_params hp.mainOk
  have hnames : ∀ y ∈ p.main.top, NameOK p.funs y := fun y hy => ⟨(h2 y hy).1, (h2 y hy).2.1, (h2 y hy).2.2⟩
  have hfuns : ∀ F, F ∈ p.funs ↔ F ∈ p.before ∨ F ∈ p.after := fun F => by simp [Program.funs]
  have hinit : Blk (({} : Mem).newCircuit "global".toList none).2 0 { name := "global".toList, fmap := some 0 } 0 [] := by
    have ok0 : MemOK {} := ⟨by simp, by simp, by simp, by simp⟩
    exact ⟨rfl, rfl, rfl, newCircuit_ok ok0 _ _⟩
  have he : p.emit = (p.before.map (fun F => (([] : List (Name × List Nat)), F)) ++ (p.pubs, p.main) ::
      p.after.map (fun F => (([] : List (Name × List Nat)), F))).flatMap (fun x => emitFun x.1 x.2) := by
    simp [Program.emit, List.flatMap_map]
  unfold program at h
  rw [he] at h
  obtain ⟨ents, L, b, o, ⟨hL, hL'⟩, keep, only, at', inj⟩ := pre_funs (P := p.funs) _ _ hinit (by
    intro x hx
    simp only [List.mem_append, List.mem_map, List.mem_cons] at hx
    rcases hx with ⟨F, hF, rfl⟩ | rfl | ⟨F, hF, rfl⟩
    · exact hp.ok F ((hfuns F).2 (Or.inl hF))
    · exact hp.mainOk
    · exact hp.ok F ((hfuns F).2 (Or.inr hF))) h
  obtain ⟨a, a1, a2, a3, a4⟩ := at' (p.pubs, p.main) (by simp)
  rw [hp.main] at a1
  obtain ⟨f, i, fents, n1, n2, n3, n4, n5, n6, n7, n8, n9⟩ := a4.node
  refine ⟨a, f, by rw [b.own]; exact a1, n1, n6, fun x hx => ?_⟩
  obtain ⟨o1, k1, ⟨fo, j, oe, o2, -, o3, o4, o5, o6, o7⟩, fo', o8, o9, -⟩ := a4.params x hx
  rw [o2] at o8; cases o8
  obtain ⟨f', c1, c2⟩ := a4.cm
  rw [n1] at c1; cases c1
  have hc := c2 x hx
  obtain ⟨c, hc⟩ := Option.isSome_iff_exists.mp hc
  refine ⟨f, i, fents, o1, fo, j, n1, n3, n4, by rw [← own_eq n1 n3 n4]; exact k1, ?_, o2, ?_, o5, o3, by rw [o4, o7], o6, ?_⟩
  · rcases n9 x c hc with ⟨-, rfl⟩ | ⟨k, -⟩
    · exact hc
    · exact absurd (List.mem_append_left _ hx) (hdis x k)
  · rw [o9]; rfl
  · obtain ⟨-, pr, hpr, is, rfl⟩ := word_names hw hx
    exact plain_user (hnames pr.1 (List.mem_append_left _ (List.mem_map_of_mem hpr))) is

/-- The task of `equal(l, r)`. -/
theorem equal_total (hH : LongHash H) {a : Nat} {xs : List Name} {l r : Ex} (hl : SumProd xs l) (hr : SumProd xs r) {w : W} (hw : ∀ x ∈ xs, HasArg w.m a x)
    (h1 : atOnes l < q) (h2 : atOnes r < q) :
    ∃ N w', Later q w w' ∧ w'.s.c.gates.length ≤ w.s.c.gates.length + (muls l + muls r + 1) ∧ ∀ n, N ≤ n → compile H q n a (.mk ⟨.functionCall, kwEqual⟩ (trees [l, r])) w = some ({}, w') := by
  obtain ⟨N1, f1, w1, g1, -, t1, c1⟩ := expr_total hH hl hw h1
  obtain ⟨N2, f2, w2, g2, -, t2, c2⟩ := expr_total hH hr (w := w1) (fun x hx => (hw x hx).grow g1.grow) h2
  obtain ⟨s, o, hs⟩ := add_total hH w2.s { typ := .equality, left := f1, right := f2, noNew := true } id
  refine ⟨N1 + N2 + 1, { w2 with s := s }, g1.trans ⟨fun g hg => ?_, g2.grow, g2.kept, g2.thrown⟩, by have := add_count hs; show s.c.gates.length ≤ _; omega, fun n hn => ?_⟩
  · exact (add_gates (fun _ => rfl) hs g hg).elim (g2.gates g) fun h => Or.inr (noSplit_equality h)
  · obtain ⟨n, rfl⟩ : ∃ n', n = n' + 1 := ⟨n - 1, by omega⟩
    show callFunction H q (compile H q n) a kwEqual [tree l, tree r] w = _
    rw [callFunction_equal]
    simp only [c1 n (by omega), c2 n (by omega), hs, Option.bind_eq_bind, Option.bind_some, Option.pure_def]

/-- The tasks of `main`. -/
theorem tasks_total (hH : LongHash H) {a : Nat} {xs : List Name} {ret : Ex} (he : SumProd xs ret) (hlt : atOnes ret < q) : ∀ {eqs : List (Ex × Ex)},
    (∀ e ∈ eqs, (SumProd xs e.1 ∧ SumProd xs e.2) ∧ atOnes e.1 < q ∧ atOnes e.2 < q) → ∀ (i : Nat) {w : W}, (∀ x ∈ xs, HasArg w.m a x) →
    ∃ N f w', Later q w w' ∧ w'.s.c.gates.length ≤ w.s.c.gates.length + (equationsSize eqs + muls ret + 1) ∧ ∀ n, N ≤ n → executeTasks H q n a (tasksFrom i (equations eqs) ++ [node .ret [] [tree ret]]) w = some (f, w')
  | [], _, i, w, hw => by
    obtain ⟨N, f, w', g, -, t1, hN⟩ := expr_total hH he hw hlt
    obtain ⟨s2, hs⟩ := complete_total hH f w'.s
    refine ⟨N + 1, f, { w' with s := s2 }, g.trans ⟨fun g hg => ?_, Grow.refl _ _, rfl, fun _ h => Or.inl h⟩,
      by have := complete_count hs; show s2.c.gates.length ≤ _; simp only [equationsSize]; omega, fun n hn => ?_⟩
    · exact (complete_gates hs g hg).elim Or.inl fun h => Or.inr (noSplit_addition h)
    · obtain ⟨n, rfl⟩ : ∃ n', n = n' + 1 := ⟨n - 1, by omega⟩
      have hret : compile H q (n + 1) a (node .ret [] [tree ret]) w = some ({ facs := f, ret := true }, w') := by
        simp only [node, compile, compileStep, Constraint.output, Constraint.inputs]
        simp only [hN n (by omega), Option.bind_eq_bind, Option.bind_some, Option.pure_def]
      simp only [equations, List.map_nil, tasksFrom, List.nil_append, executeTasks, hret, hs, Option.bind_eq_bind, Option.bind_some, Option.pure_def, if_true]
  | e :: eqs, h, i, w, hw => by
    obtain ⟨⟨k1, k2⟩, k3, k4⟩ := h e List.mem_cons_self
    obtain ⟨N1, w1, g1, t1, c1⟩ := equal_total hH k1 k2 hw k3 k4
    obtain ⟨N2, f, w2, g2, t2, c2⟩ := tasks_total hH he hlt (fun e he => h e (List.mem_cons_of_mem _ he)) (i + width (.call kwEqual [e.1, e.2])) (w := w1)
      (fun x hx => (hw x hx).grow g1.grow)
    refine ⟨N1 + N2, f, w2, g1.trans g2, by simp only [equationsSize]; omega, fun n hn => ?_⟩
    have hz : completeFunction H ({} : Res).facs w1.s = some w1.s := rfl
    show executeTasks H q n a (.mk ⟨.functionCall, kwEqual⟩ (trees [e.1, e.2]) ::
      (tasksFrom (i + width (.call kwEqual [e.1, e.2])) (equations eqs) ++ [node .ret [] [tree ret]])) w = _
    rw [executeTasks]
    simp only [c1 n (by omega), hz, Option.bind_eq_bind, Option.bind_some]
    exact c2 n (by omega)

/-- It finishes, without having stored a form, and what it has thrown away are the numbers of indices. -/
theorem execute_total (hH : LongHash H) {p : Program} (hp : p.ok) {m : Mem} (h : program p.emit = some m) {eqs : List (Ex × Ex)} (hb : p.main.body = equations eqs)
    (hs : ∀ e ∈ eqs, (SumProd p.main.names e.1 ∧ SumProd p.main.names e.2) ∧ atOnes e.1 < q ∧ atOnes e.2 < q)
    (he : SumProd p.main.names p.main.ret) (hlt : atOnes p.main.ret < q) :
    ∃ k f w, execute H q k m = some (f, w) ∧ (∀ t ∈ w.thrown, t.2 = {} ∧ APS.Spec.IsConst q t.1) ∧ w.kept = [] ∧ (∀ g ∈ w.s.c.gates, NoSplit g) ∧
      w.s.c.gates.length ≤ equationsSize eqs + muls p.main.ret + 1 := by
  obtain ⟨a, fm, h1, h2, h3, h4⟩ := program_args hp h
  obtain ⟨N, f, w', hw, t1, hN⟩ := tasks_total hH he hlt hs 0 (w := { m := m }) h4
  refine ⟨N, f, w', ?_, fun t ht => (hw.thrown t ht).resolve_left (by simp), hw.kept, fun g hg => (hw.gates g hg).resolve_left (by simp), by simpa using t1⟩
  have := hN N (le_refl _)
  simp only [execute, h1, h2, h3, hb, Option.bind_eq_bind, Option.bind_some]
  exact this

end APS.Prog
