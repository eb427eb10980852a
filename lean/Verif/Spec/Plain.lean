import Verif.Spec.Emit

/-! Programs in which a name without an index is never an array. -/
namespace APS.LangSpec
open APS.ParseSpec (Ex)
open APS.Circuit (Name)

mutual
/-- the names used without an index in an expression -/
def bareEx : Ex → List Name
  | .num _ => []
  | .var x => [x]
  | .paren e => bareEx e
  | .bin _ l r => bareEx l ++ bareEx r
  | .arr _ idx => bareExs idx
  | .call _ args => bareExs args
def bareExs : List Ex → List Name
  | [] => []
  | e :: es => bareEx e ++ bareExs es
end

/-- the variables, not arrays, declared by a statement -/
def Stm.scalars : Stm → List Name
  | .decl x _ => [x]
  | _ => []

/-- the names an optional `return` uses without an index -/
def bareFin : Option Ex → List Name
  | none => []
  | some e => bareEx e

mutual
/-- what a statement uses without an index is in `sc` or a variable declared before -/
def Stm.plain (sc : List Name) : Stm → Bool
  | .decl _ e => (bareEx e).all (sc.contains ·)
  | .declArr _ es => (bareExs es).all (sc.contains ·)
  | .assign x idx e => (idx ≠ [] || sc.contains x) && (bareExs idx).all (sc.contains ·) && (bareEx e).all (sc.contains ·)
  | .call _ args => (bareExs args).all (sc.contains ·)
  | .loop l _ r x step body =>
    (bareEx l ++ bareEx r ++ x :: bareEx step).all (sc.contains ·) && plainStms sc body
  | .cond l _ r body fin => (bareEx l ++ bareEx r ++ bareFin fin).all (sc.contains ·) && plainStms sc body
/-- statements in sequence -/
def plainStms (sc : List Name) : List Stm → Bool
  | [] => true
  | st :: sts => st.plain sc && plainStms (st.scalars ++ sc) sts
end

/-- the parameters that are no arrays -/
def Fun.scalars (F : Fun) : List Name := (F.params.filter fun p => p.2.isEmpty).map Prod.fst

/-- a function in which a name without an index is never an array -/
def Fun.plain (F : Fun) : Bool :=
  plainStms F.scalars F.body && (bareEx F.ret).all ((F.body.flatMap Stm.scalars ++ F.scalars).contains ·)

/-- a program in which a name without an index is never an array -/
def Program.plain (p : Program) : Bool := (p.main :: p.funs).all Fun.plain

end APS.LangSpec
