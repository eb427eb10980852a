import Verif.Proofs.Compiled
import Verif.Proofs.SymAtt
import Verif.Proofs.Made

/-! Programs with functions, loops and arrays: rows and witnesses. -/
namespace APS.Prog
open APS.Circuit hiding execute compile Prog
open APS.LangSpec (Fun Program runMain)
open APS.Sym (Sym sym_wf sym_att sym_inv)
open APS.Spec (NoConfusion)

variable {H : Name → Nat} {q : Nat}

theorem exec_made [Fact q.Prime] (hq : 2 ^ 63 ≤ q) {p : Program} (hp : p.ok) {m : Mem} (h : program p.emit = some m) {n : Nat} {f : Factors} {w : W}
    (hx : execute H q n m = some (f, w)) (hf : Fin q p.main.names w) : Made q p.main.names f w.s := by
  obtain ⟨hw, -, hk⟩ := exec_wf hq hp h hx hf
  obtain ⟨s2, h1, h3⟩ := execute_sym hq hp h hx hf
  have r := sym_wf h1 _ (wf_empty _) (envOK_init _)
  obtain ⟨e3, w3⟩ := completeFunction_wf r.wf r.good r.known h3
  obtain ⟨a2, b2⟩ := sym_att h1 _ (wf_empty _) (envOK_init _) (fun n f hf => by
    obtain ⟨hn, rfl⟩ := lookup_initEnv _ _ _ hf
    intro k hk
    simp at hk
    subst hk
    exact Or.inl hn) (by intro g hg; simp at hg)
  refine ⟨hw, hk, completeFunction_att b2 a2 h3, a2.mono e3, fun hn => ?_⟩
  let Q : St → Prop := fun t => t.c.computed = t.c.gates.map (·.ident) ∧ (Ext t w.s → ZoSeq (Fq.bitLen q) t.c.gates)
  have hP : StableP H Q := zoSeq_stable
  have hS : ∀ {f : Factors} {s s' : St}, splitGate H q f s = some s' → Q s → Q s' := fun h' hs => zoSeq_split hw hn h' hs
  have q2 : Q s2 := sym_inv hP hS h1 ⟨rfl, fun _ z => Or.inl rfl⟩
  exact (completeFunction_inv hP h3 q2).2 (.refl _)

end APS.Prog
