import Verif.Spec.Lang

/-! Loops as in Go, over the integers (C47). -/
namespace APS.LangSpec
open APS.Circuit (Name)

/-- Go's comparison of integers -/
def goHolds (op : Name) (x y : Int) : Prop :=
  (op = ['=', '='] ∧ x = y) ∨ (op = ['!', '='] ∧ x ≠ y) ∨ (op = ['>'] ∧ x > y) ∨ (op = ['>', '='] ∧ x ≥ y) ∨
  (op = ['<'] ∧ x < y) ∨ (op = ['<', '='] ∧ x ≤ y)

/-- `for ; cond(i); i = step(i) { body }` with an integer `i`, from the value `i` and the state `s` to the value `j` and
the state `t`; the body may read `i` but does not write it -/
inductive GoLoop {σ : Type} (cond : Int → Prop) (step : Int → Int) (body : Int → σ → σ → Prop) : Int → σ → Int → σ → Prop
  | done {i s} : ¬ cond i → GoLoop cond step body i s i s
  | next {i s s' j t} : cond i → body i s s' → GoLoop cond step body (step i) s' j t → GoLoop cond step body i s j t

/-- the values that the counter takes -/
inductive Counts (cond : Int → Prop) (step : Int → Int) (i : Int) : Int → Prop
  | start : Counts cond step i i
  | next {k} : Counts cond step i k → cond k → Counts cond step i (step k)

mutual
/-- the variables that a statement writes; of arrays, the name of the array -/
def Stm.writes : Stm → List Name
  | .decl x _ => [x]
  | .declArr a _ => [a]
  | .assign x _ _ => [x]
  | .call _ _ => []
  | .loop _ _ _ x _ body => x :: writesAll body
  | .cond _ _ _ body _ => writesAll body
def writesAll : List Stm → List Name
  | [] => []
  | st :: sts => st.writes ++ writesAll sts
end

variable {q : Nat} [Fact q.Prime]

/-- the statement ends and leads from one store to the other -/
def Runs (gx : ZMod q → ZMod q) (P : List Fun) (st : Stm) (ρ ρ' : Store q) : Prop := ∃ n, run gx P n ρ st = .ok ρ'

/-- the block ends and leads from one store to the other -/
def RunsAll (gx : ZMod q → ZMod q) (P : List Fun) (sts : List Stm) (ρ ρ' : Store q) : Prop :=
  ∃ n, runList (run gx P n) ρ sts = .ok ρ'

end APS.LangSpec
