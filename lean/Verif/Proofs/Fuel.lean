import Verif.Model.Program

/-! More fuel does not change a result of `compile` and `Execute`. -/
namespace APS.Prog
open APS.Circuit hiding execute compile Prog
open APS.Parse (Constraint)
open APS.Lex (Token TokenType)

/-- every result of `a` is one of `b` -/
def Le {α} (a b : Option α) : Prop := ∀ x, a = some x → b = some x

theorem Le.rfl' {α} (a : Option α) : Le a a := fun _ h => h
theorem Le.none {α} (b : Option α) : Le Option.none b := fun _ h => by cases h

theorem Le.bind {α β} {a b : Option α} {f g : α → Option β} (h : Le a b) (h2 : ∀ x, Le (f x) (g x)) : Le (a >>= f) (b >>= g) := by
  intro y hy
  obtain ⟨x, hx, hf⟩ := Option.bind_eq_some_iff.mp hy
  exact Option.bind_eq_some_iff.mpr ⟨x, h x hx, h2 x y hf⟩

theorem Le.bind2 {α β γ} {a b : Option (α × β)} {f g : α × β → Option γ} (h : Le a b) (h2 : ∀ x y, Le (f (x, y)) (g (x, y))) : Le (a >>= f) (b >>= g) :=
  h.bind fun x => h2 x.1 x.2

theorem Le.ite {α} {c : Prop} [Decidable c] {a b a' b' : Option α} (h : c → Le a a') (h2 : ¬ c → Le b b') :
    Le (if c then a else b) (if c then a' else b') := by
  split
  · exact h ‹_›
  · exact h2 ‹_›

/-- more fuel -/
def More (f g : Comp) : Prop := ∀ cur k w, Le (f cur k w) (g cur k w)

variable {H : Name → Nat} {q : Nat} {f g : Comp}

theorem execTasks_le (h : More f g) (cur : Nat) : ∀ ts w, Le (execTasks f cur ts w) (execTasks g cur ts w)
  | [], w => .rfl' _
  | t :: ts, w => by
    unfold execTasks
    exact (h _ _ _).bind2 fun r w => .ite (fun _ => .rfl' _) fun _ => execTasks_le h cur ts w

theorem execFunction_le (h : More f g) (a : Nat) (w : W) : Le (execFunction f a w) (execFunction g a w) :=
  (Le.rfl' _).bind fun _ => execTasks_le h _ _ _

theorem checkStatic_le (h : More f g) (cur : Nat) (c : Constraint) (w : W) : Le (checkStatic f cur c w) (checkStatic g cur c w) := by
  unfold checkStatic
  rcases c.inputs with _ | ⟨op, _ | ⟨l, _ | ⟨r, rest⟩⟩⟩
  · exact .rfl' _
  · exact .rfl' _
  · exact .rfl' _
  · exact (h _ _ _).bind2 fun a w1 => (h _ _ _).bind2 fun b w2 => .rfl' _

theorem resolveArray_le (h : More f g) (cur : Nat) : ∀ is n w, Le (resolveArray f cur is n w) (resolveArray g cur is n w)
  | [], n, w => .rfl' _
  | i :: is, n, w => by
    unfold resolveArray
    refine (h _ _ _).bind2 fun r w1 => ?_
    dsimp only
    rcases r.facs with _ | ⟨x, _ | ⟨y, ys⟩⟩
    · exact .rfl' _
    · dsimp only
      rcases x.tok.isNum with _ | _ <;> rcases parseInt x.tok.ident with _ | k
      · exact .rfl' _
      · exact .rfl' _
      · exact .rfl' _
      · exact .ite (fun _ => resolveArray_le h cur is _ _) fun _ => .rfl' _
    · exact .rfl' _

theorem callArgs_le (h : More f g) (cur : Nat) : ∀ is w, Le (callArgs q f cur is w) (callArgs q g cur is w)
  | [], w => .rfl' _
  | v :: vs, w => by
    unfold callArgs
    refine (h _ _ _).bind2 fun r w => .ite (fun _ => ?_) fun _ => (Le.rfl' _).bind2 fun a m => ?_
    · exact (callArgs_le h cur vs _).bind2 fun _ _ => .rfl' _
    · exact (callArgs_le h cur vs _).bind2 fun _ _ => .rfl' _

theorem callUser_le (h : More f g) (cur : Nat) (name : Name) (args : List Constraint) (w : W) :
    Le (callUser q f cur name args w) (callUser q g cur name args w) := by
  unfold callUser
  refine (Le.rfl' _).bind fun _ => (Le.rfl' _).bind2 fun _ _ => (callArgs_le h _ _ _).bind2 fun _ _ => (Le.rfl' _).bind2 fun _ _ => ?_
  exact .ite (fun _ => (execFunction_le h _ _).bind2 fun _ _ => .rfl' _) fun _ => .rfl' _

theorem operate_le (h : More f g) (cur : Nat) (isRet : Bool) (is : List Constraint) (w : W) :
    Le (operate H q f cur isRet is w) (operate H q g cur isRet is w) := by
  rcases is with _ | ⟨op, _ | ⟨l, _ | ⟨r, _ | ⟨x, xs⟩⟩⟩⟩
  · exact .rfl' _
  · exact .rfl' _
  · exact .rfl' _
  · unfold operate
    refine .ite (fun _ => .ite (fun _ => ?_) fun _ => .ite (fun _ => ?_) fun _ => .ite (fun _ => ?_) fun _ => .ite (fun _ => ?_) fun _ => .rfl' _) fun _ => .rfl' _
    all_goals exact (h _ _ _).bind2 fun _ _ => (h _ _ _).bind2 fun _ _ => .rfl' _
  · exact .rfl' _

theorem breakArgs_le (h : More f g) (cur : Nat) : ∀ is w, Le (breakArgs f cur is w) (breakArgs g cur is w)
  | [], w => .rfl' _
  | v :: vs, w => by
    unfold breakArgs
    exact (h _ _ _).bind2 fun _ w => breakArgs_le h cur vs w

theorem callFunction_le (h : More f g) (cur : Nat) (name : Name) (is : List Constraint) (w : W) :
    Le (callFunction H q f cur name is w) (callFunction H q g cur name is w) := by
  unfold callFunction
  refine .ite (fun _ => ?_) fun _ => .ite (fun _ => ?_) fun _ => .ite (fun _ => ?_) fun _ => .ite (fun _ => ?_) fun _ => .ite (fun _ => ?_) fun _ =>
    .ite (fun _ => ?_) fun _ => callUser_le h _ _ _ _
  · exact (breakArgs_le h _ _ _).bind fun _ => .rfl' _
  · rcases is with _ | ⟨a, _ | ⟨b, xs⟩⟩
    · exact .rfl' _
    · exact (h _ _ _).bind2 fun _ _ => .rfl' _
    · exact .rfl' _
  · exact .rfl' _
  · rcases is with _ | ⟨a, _ | ⟨b, _ | ⟨c, xs⟩⟩⟩
    · exact .rfl' _
    · exact .rfl' _
    · exact (h _ _ _).bind2 fun _ _ => (h _ _ _).bind2 fun _ _ => .rfl' _
    · exact .rfl' _
  · rcases is with _ | ⟨a, _ | ⟨b, xs⟩⟩
    · exact .rfl' _
    · exact (h _ _ _).bind2 fun _ _ => .rfl' _
    · exact .rfl' _
  · rcases is with _ | ⟨a, _ | ⟨b, _ | ⟨c, xs⟩⟩⟩
    · exact .rfl' _
    · exact .rfl' _
    · exact (h _ _ _).bind2 fun _ _ => (h _ _ _).bind2 fun _ _ => .rfl' _
    · exact .rfl' _

theorem targetName_le (h : More f g) (cur : Nat) (x : Constraint) (w : W) : Le (targetName f cur x w) (targetName g cur x w) := by
  unfold targetName
  exact .ite (fun _ => resolveArray_le h _ _ _ _) fun _ => .rfl' _

theorem compileStep_le (h : More f g) (cur : Nat) (k : Constraint) (w : W) : Le (compileStep H q f cur k w) (compileStep H q g cur k w) := by
  unfold compileStep
  cases k.output.type <;> dsimp only
  case number => exact .rfl' _
  case argument => exact .rfl' _
  case identifier =>
    refine (Le.rfl' _).bind fun a => (Le.rfl' _).bind fun o => .ite (fun _ => .rfl' _) fun _ => .ite (fun _ => ?_) fun _ => .rfl' _
    exact (Le.rfl' _).bind fun _ => h _ _ _
  case forT =>
    rcases k.inputs with _ | ⟨c, _ | ⟨step, xs⟩⟩
    · exact .rfl' _
    · exact .rfl' _
    · refine (checkStatic_le h _ _ _).bind2 fun go w => .ite (fun _ => ?_) fun _ => .rfl' _
      exact (h _ _ _).bind2 fun r w => .ite (fun _ => .rfl' _) fun _ => (h _ _ _).bind2 fun _ w => h _ _ _
  case unassigned =>
    rcases k.inputs with _ | ⟨c, _ | ⟨d, xs⟩⟩
    · exact (Le.rfl' _).bind fun _ => (Le.rfl' _).bind fun _ => h _ _ _
    · exact h _ _ _
    · exact operate_le h _ _ _ _
  case ret =>
    rcases k.inputs with _ | ⟨c, _ | ⟨d, xs⟩⟩
    · exact .rfl' _
    · exact (h _ _ _).bind2 fun _ _ => .rfl' _
    · exact operate_le h _ _ _ _
  case varOverload =>
    rcases k.inputs with _ | ⟨c, _ | ⟨d, _ | ⟨e, xs⟩⟩⟩
    · exact .rfl' _
    · exact .rfl' _
    · exact (targetName_le h _ _ _).bind2 fun _ _ => (h _ _ _).bind2 fun _ _ => .rfl' _
    · exact .rfl' _
  case arrayCall => exact (resolveArray_le h _ _ _ _).bind2 fun _ _ => (Le.rfl' _).bind fun _ => (h _ _ _).bind2 fun _ _ => .rfl' _
  case ifT =>
    rcases k.inputs with _ | ⟨c, xs⟩
    · exact h _ _ _
    · exact (checkStatic_le h _ _ _).bind2 fun go w => .ite (fun _ => h _ _ _) fun _ => .rfl' _
  case ifFunctionCall => exact (Le.rfl' _).bind fun _ => execFunction_le h _ _
  case functionCall => exact callFunction_le h _ _ _ _
  all_goals exact operate_le h _ _ _ _

theorem compile_more : ∀ n, More (compile H q n) (compile H q (n + 1))
  | 0, _, _, _ => .none _
  | n + 1, _, _, _ => compileStep_le (compile_more n) _ _ _

theorem compile_le {n m : Nat} (hnm : n ≤ m) : More (compile H q n) (compile H q m) := by
  induction hnm with
  | refl => exact fun _ _ _ => .rfl' _
  | step _ ih => exact fun c k w x hx => compile_more _ c k w x (ih c k w x hx)

theorem executeTasks_le {n m : Nat} (hnm : n ≤ m) (main : Nat) : ∀ ts w, Le (executeTasks H q n main ts w) (executeTasks H q m main ts w)
  | [], w => .rfl' _
  | t :: ts, w => by
    unfold executeTasks
    exact (compile_le hnm _ _ _).bind2 fun r w => (Le.rfl' _).bind fun s => .ite (fun _ => .rfl' _) fun _ => executeTasks_le hnm main ts _

theorem execute_le {n k : Nat} (hnk : n ≤ k) (m : Mem) : Le (execute H q n m) (execute H q k m) :=
  (Le.rfl' _).bind fun _ => (Le.rfl' _).bind fun _ => executeTasks_le hnk _ _ _

/-- `Execute` has at most one result -/
theorem execute_det {n k : Nat} {m : Mem} {x y : Factors × W} (h1 : execute H q n m = some x) (h2 : execute H q k m = some y) : x = y := by
  have a := execute_le (Nat.le_max_left n k) m x h1
  have b := execute_le (Nat.le_max_right n k) m y h2
  rw [a] at b
  exact Option.some.inj b

end APS.Prog
