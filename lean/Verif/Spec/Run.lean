import Verif.Spec.Emit
import Verif.Spec.Source

/-! Conditions on one compilation run of a program with functions, loops and arrays; all of them can be checked on the run. -/
namespace APS.Spec
open APS.Circuit

/-- the form is one number, in canonical form -/
def IsConst (q : Nat) : Factors → Prop
  | [x] => x.tok.isNum = true ∧ 0 ≤ x.mul ∧ x.mul < q
  | _ => False

instance (q : Nat) (f : Factors) : Decidable (IsConst q f) := by unfold IsConst; split <;> infer_instance

/-- * static: the operands of loop conditions and the indices of arrays were numbers in canonical form, computed without gates
(the code puts such gates into a container that it throws away, and compares numbers as they are);
* kept: in no form that was stored does a number have the same text as a wire (the code stores the terms of a form under their
names, and a wire is named by 16 decimal digits). -/
structure CleanRun (q : Nat) (w : APS.Prog.W) : Prop where
  static : ∀ t ∈ w.thrown, t.2 = {} ∧ IsConst q t.1
  kept : ∀ f ∈ w.kept, (f.map (·.tok.ident)).Nodup

instance (q : Nat) (w : APS.Prog.W) : Decidable (CleanRun q w) :=
  decidable_of_iff ((∀ t ∈ w.thrown, t.2 = {} ∧ IsConst q t.1) ∧ ∀ f ∈ w.kept, (f.map (·.tok.ident)).Nodup)
    ⟨fun ⟨a, b⟩ => ⟨a, b⟩, fun ⟨a, b⟩ => ⟨a, b⟩⟩

/-- Further conditions on a run of the compiler on `p`, checkable on its output: no two different constraints were confused, no constant
was handed to `SPLIT`, and no public input is listed twice. -/
structure NoClash (p : APS.LangSpec.Program) (s : APS.Circuit.St) : Prop where
  conf : NoConfusion s
  const : NoConstSplit s
  publics : p.publics.Nodup

instance (p : APS.LangSpec.Program) (s : APS.Circuit.St) : Decidable (NoClash p s) :=
  decidable_of_iff (NoConfusion s ∧ NoConstSplit s ∧ p.publics.Nodup) ⟨fun ⟨a, b, c⟩ => ⟨a, b, c⟩, fun ⟨a, b, c⟩ => ⟨a, b, c⟩⟩

open APS.LangSpec (Program runMain)

/-- the program returns `v` on these inputs -/
def Returns {q : Nat} [Fact q.Prime] (gx : ZMod q → ZMod q) (p : Program) (vals : Name → ZMod q) (v : ZMod q) : Prop :=
  ∃ fuel, runMain gx p.funs p.main fuel vals = .ok v

/-- the program stops with the error on these inputs -/
def Stops {q : Nat} [Fact q.Prime] (gx : ZMod q → ZMod q) (p : Program) (vals : Name → ZMod q) (e : APS.LangSpec.Err) : Prop :=
  e ≠ .outOfFuel ∧ ∃ fuel, runMain gx p.funs p.main fuel vals = .error e

end APS.Spec
