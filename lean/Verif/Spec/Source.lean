import Verif.Spec.Circuit
import Verif.Model.Compile
import Mathlib.Algebra.Field.ZMod

/-! Source-level meaning of straight-line programs, independent of the compiler: expressions denote field elements. -/
namespace APS.Spec
open APS.Circuit

/-- the text is a decimal literal -/
def IsLit (t : Name) : Prop := t ≠ [] ∧ ∀ c ∈ t, c.isDigit = true

/-- ways in which a program has no result -/
inductive Err where
  | undeclared
  | divByZero
  | assertionFailed
deriving DecidableEq

/-- Value of an expression over the field when the variables have the values `ρ`. -/
def evalExpr {q : Nat} [Fact q.Prime] (gx : ZMod q → ZMod q) (ρ : Name → Option (ZMod q)) :
    Expr → Except Err (ZMod q)
  | .num t => .ok ((Nat.ofDigitChars 10 t 0 : Nat) : ZMod q)
  | .var n => match ρ n with
    | some v => .ok v
    | none => .error .undeclared
  | .add a b => do return (← evalExpr gx ρ a) + (← evalExpr gx ρ b)
  | .sub a b => do return (← evalExpr gx ρ a) - (← evalExpr gx ρ b)
  | .mul a b => do return (← evalExpr gx ρ a) * (← evalExpr gx ρ b)
  | .div a b => do
    let x ← evalExpr gx ρ a
    let y ← evalExpr gx ρ b
    if y = 0 then .error .divByZero else .ok (x / y)
  | .baseMul a => do return gx (← evalExpr gx ρ a)
  | .addGate a b => do return (← evalExpr gx ρ a) + (← evalExpr gx ρ b)

/-- all literals are decimal, and the expression does not use `addGateConstraint` (whose compilation is wrong, C68) -/
def ExprOK : Expr → Prop
  | .num t => IsLit t
  | .var _ => True
  | .add a b | .sub a b | .mul a b | .div a b => ExprOK a ∧ ExprOK b
  | .baseMul a => ExprOK a
  | .addGate _ _ => False

/-- all expressions of a statement are `ExprOK` -/
def StmtOK : Stmt → Prop
  | .assign _ e | .split e | .expr e => ExprOK e
  | .equal a b => ExprOK a ∧ ExprOK b

/-- all expressions of a program are `ExprOK` -/
def ProgOK (p : Prog) : Prop := (∀ st ∈ p.body, StmtOK st) ∧ ExprOK p.ret

instance (t : Name) : Decidable (IsLit t) := by unfold IsLit; infer_instance
instance ExprOK.dec : (e : Expr) → Decidable (ExprOK e)
  | .num t => by unfold ExprOK; infer_instance
  | .var _ => isTrue trivial
  | .add a b | .sub a b | .mul a b | .div a b =>
    have := ExprOK.dec a; have := ExprOK.dec b; by unfold ExprOK; infer_instance
  | .baseMul a => have := ExprOK.dec a; by unfold ExprOK; infer_instance
  | .addGate _ _ => isFalse id
instance (st : Stmt) : Decidable (StmtOK st) := by cases st <;> unfold StmtOK <;> infer_instance
instance (p : Prog) : Decidable (ProgOK p) := by unfold ProgOK; infer_instance

/-- store: values of the variables -/
abbrev Store (q : Nat) := Name → Option (ZMod q)

/-- Meaning of one statement: the store afterwards, or the error. -/
def evalStmt {q : Nat} [Fact q.Prime] (gx : ZMod q → ZMod q) (ρ : Store q) : Stmt → Except Err (Store q)
  | .assign x e => do
    let v ← evalExpr gx ρ e
    .ok (Function.update ρ x (some v))
  | .equal a b => do
    let x ← evalExpr gx ρ a
    let y ← evalExpr gx ρ b
    if x = y then .ok ρ else .error .assertionFailed
  | .split e => do
    let _ ← evalExpr gx ρ e
    .ok ρ
  | .expr e => do
    let _ ← evalExpr gx ρ e
    .ok ρ

/-- Meaning of a statement list. -/
def evalBody {q : Nat} [Fact q.Prime] (gx : ZMod q → ZMod q) : Store q → List Stmt → Except Err (Store q)
  | ρ, [] => .ok ρ
  | ρ, st :: rest => do
    let ρ' ← evalStmt gx ρ st
    evalBody gx ρ' rest

/-- Meaning of a program: the returned value for the given values of the inputs, or the error. -/
def evalProg {q : Nat} [Fact q.Prime] (gx : ZMod q → ZMod q) (p : Prog) (vals : Name → ZMod q) :
    Except Err (ZMod q) := do
  let ρ ← evalBody gx (fun n => if n ∈ p.inputs then some (vals n) else none) p.body
  evalExpr gx ρ p.ret

/-- `g'` imposes the same constraint as `g`: identical, or a product / equality with its two sides exchanged -/
def SameGate (g' g : Gate) : Prop :=
  g' = g ∨ ((g.typ = .mult ∨ g.typ = .equality) ∧ g' = { g with left := g.right, right := g.left })

/-- No two different constraints were confused during the run: each gate that was discarded because its identifier was
already present is the same constraint as a gate that was kept.  (This is what collision-freeness of the 16-digit
identifiers means for one run; it can be checked on the output.) -/
def NoConfusion (s : St) : Prop := ∀ g ∈ s.dropped, ∃ g' ∈ s.c.gates, SameGate g' g

instance (g' g : Gate) : Decidable (SameGate g' g) := by unfold SameGate; infer_instance
instance (s : St) : Decidable (NoConfusion s) := by unfold NoConfusion; infer_instance

/-- no constant was handed to `SPLIT` (checkable on the output) -/
def NoConstSplit (s : St) : Prop :=
  ∀ g ∈ s.c.gates, (g.typ = .sumCheck ∨ g.typ = .zeroOrOne) → g.arith.isNum = false

instance (s : St) : Decidable (NoConstSplit s) := by unfold NoConstSplit; infer_instance

/-- the name of the constant wire (circuitcompiler/Programm.go:93) -/
def oneName : Name := ['1']

/-- Conditions on one compilation run of a program with the main inputs `I` and the public inputs `P`, all of which can be checked on its output: no two different constraints were
confused, no constant was handed to `SPLIT`, and the names in use (constant wire, public inputs, main inputs, gate
outputs, randomizer wires) are distinct where they have to be. -/
structure RunOK (I P : List Name) (rand : Bool) (s : St) : Prop where
  conf : NoConfusion s
  const : NoConstSplit s
  publics : (oneName :: P).Nodup
  one : oneName ∉ I ∧ oneName ∉ s.c.computed
  disj : ∀ n ∈ I, n ∉ s.c.computed
  rnd : rand = true → ∀ n ∈ [randIn, randOut], n ∉ oneName :: P ∧ n ∉ I ∧ n ∉ s.c.computed

instance (I P : List Name) (rand : Bool) (s : St) : Decidable (RunOK I P rand s) :=
  decidable_of_iff (NoConfusion s ∧ NoConstSplit s ∧ (oneName :: P).Nodup ∧ (oneName ∉ I ∧ oneName ∉ s.c.computed) ∧
      (∀ n ∈ I, n ∉ s.c.computed) ∧
      (rand = true → ∀ n ∈ [randIn, randOut], n ∉ oneName :: P ∧ n ∉ I ∧ n ∉ s.c.computed))
    ⟨fun ⟨a, b, c, d, e, f⟩ => ⟨a, b, c, d, e, f⟩, fun ⟨a, b, c, d, e, f⟩ => ⟨a, b, c, d, e, f⟩⟩

/-- `b 0, …, b (N-1)` are bits of `x`, N the bit length of the modulus -/
def SplitOK (q N : Nat) (x : ZMod q) (b : Nat → ZMod q) : Prop :=
  (∀ i < N, b i = 0 ∨ b i = 1) ∧ ∑ i ∈ Finset.range N, (2 : ZMod q) ^ i * b i = x

end APS.Spec
