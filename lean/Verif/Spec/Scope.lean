import Verif.Spec.Plain

/-! Which names of a program are declared where they are used, and which are declared only once. -/
namespace APS.LangSpec
open APS.ParseSpec (Ex)
open APS.Circuit (Name)

/-- the words among `xs` are in `vis` -/
def AllIn (vis xs : List Name) : Prop := ∀ x ∈ xs, isWord x = true → x ∈ vis

mutual
/-- What a statement uses without an index is in `vis`.  A block inside the statement also sees `later`, what is declared after the
statement in the block around it.  The conditions of `for` and `if` and the step of a `for` are left out: they are not checked. -/
def Stm.scoped (later vis : List Name) : Stm → Prop
  | .decl x e => AllIn (x :: vis) (bareEx e)
  | .declArr a es => AllIn (a :: vis) (bareExs es)
  | .assign x idx e => (idx = [] → AllIn vis [x]) ∧ AllIn vis (bareExs idx) ∧ AllIn vis (bareEx e)
  | .call _ args => AllIn vis (bareExs args)
  | .loop _ _ _ _ _ body => scopedStms (later ++ vis) body
  | .cond _ _ _ body fin => scopedStms (later ++ vis) body ∧ AllIn (declared body ++ (later ++ vis)) (bareFin fin)
/-- statements in sequence -/
def scopedStms (vis : List Name) : List Stm → Prop
  | [] => True
  | st :: sts => st.scoped (declared sts) vis ∧ scopedStms (st.declares ++ vis) sts
end

mutual
/-- a statement declares no variable of `vars` and no array of `names`; its blocks start anew -/
def Stm.once (vars names : List Name) : Stm → Prop
  | .decl x _ => x ∉ vars
  | .declArr a _ => a ∉ names
  | .assign .. => True
  | .call .. => True
  | .loop _ _ _ _ _ body => onceStms [] [] body
  | .cond _ _ _ body _ => onceStms [] [] body
/-- statements in sequence: no variable is declared again as a variable, nothing is declared again as an array -/
def onceStms (vars names : List Name) : List Stm → Prop
  | [] => True
  | st :: sts => st.once vars names ∧ onceStms (st.scalars ++ vars) (st.declares ++ names) sts
end

/-- the functions of a program in the order of the text, each with the names after `public` -/
def Program.all (p : Program) : List (List (Name × List Nat) × Fun) := p.before.map (([], ·)) ++ ((p.pubs, p.main) :: p.after.map (([], ·)))

/-- a function uses, without an index, only its parameters, what it declared in a block around, and the functions `fs` -/
def Fun.scoped (fs : List Name) (F : Fun) : Prop :=
  scopedStms (F.names ++ fs) F.body ∧ AllIn (declared F.body ++ (F.names ++ fs)) (bareEx F.ret)

/-- the parameters of a function are different, and nothing is declared twice in a block -/
def Fun.once (F : Fun) : Prop := F.names.Nodup ∧ onceStms F.names F.names F.body

end APS.LangSpec
