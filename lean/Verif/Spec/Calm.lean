import Verif.Spec.Emit

/-!
Programs that subtract only what they compute on the spot (C39): the right operand of every `-` is a literal, a product, a
quotient, or a sum or difference of such operands; never a bare variable, array element or call.  A program that does not
subtract is such a program; `x - c` can be written `x - c*1`.
-/
namespace APS.LangSpec
open APS.ParseSpec (Ex)

/-- computed on the spot -/
def computed : Ex → Bool
  | .num _ => true
  | .paren e => computed e
  | .bin op l r => op.type == .arithmetic &&
      (op.text == ['*'] || op.text == ['/'] || ((op.text == ['+'] || op.text == ['-']) && computed l && computed r))
  | _ => false

mutual
/-- what the expression subtracts is computed on the spot -/
def Ex.calm : Ex → Bool
  | .num _ => true
  | .var _ => true
  | .paren e => Ex.calm e
  | .bin op l r => (op.text != ['-'] || computed r) && Ex.calm l && Ex.calm r
  | .call _ args => calmExs args
  | .arr _ idx => calmExs idx
/-- the same for a list -/
def calmExs : List Ex → Bool
  | [] => true
  | e :: es => Ex.calm e && calmExs es
end

mutual
/-- what the statement subtracts is computed on the spot -/
def Stm.calm : Stm → Bool
  | .decl _ e => Ex.calm e
  | .declArr _ es => calmExs es
  | .assign _ idx e => calmExs idx && Ex.calm e
  | .call _ args => calmExs args
  | .loop l _ r _ step body => Ex.calm l && Ex.calm r && Ex.calm step && calmStms body
  | .cond l _ r body fin => Ex.calm l && Ex.calm r && calmStms body && (match fin with | none => true | some e => Ex.calm e)
/-- the same for a block -/
def calmStms : List Stm → Bool
  | [] => true
  | s :: ss => Stm.calm s && calmStms ss
end

/-- what the function subtracts is computed on the spot -/
def Fun.calm (F : Fun) : Bool := calmStms F.body && Ex.calm F.ret

/-- what the program subtracts is computed on the spot -/
def Program.calm (p : Program) : Bool := (p.before ++ p.main :: p.after).all Fun.calm

end APS.LangSpec
