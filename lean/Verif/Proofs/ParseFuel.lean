import Verif.Proofs.Fuel
import Verif.Model.Source

/-! More fuel does not change a result of `Parse`. -/
namespace APS.Prog
open APS.Circuit hiding execute compile Prog
open APS.Parse
open APS.Lex (Token TokenType)

variable {f g : List Token → Option Sent}

theorem branch_le (h : ∀ ts, Le (f ts) (g ts)) (skip : Nat) (c : Bool) (t : TokenType) (r : List Token) : Le (branch f skip c t r) (branch g skip c t r) := by
  have key : ∀ (rest : List Token) (inputs : List Constraint), Le
      (match splitSwing rest with
        | some (some (body, rest)) => (do
          let s ← f body
          pure ((say (marker t inputs)).then (s.then (say (marker TokenType.nestedEnd))), rest) : Option (Sent × List Token))
        | _ => none)
      (match splitSwing rest with
        | some (some (body, rest)) => (do
          let s ← g body
          pure ((say (marker t inputs)).then (s.then (say (marker TokenType.nestedEnd))), rest) : Option (Sent × List Token))
        | _ => none) := by
    intro rest inputs
    rcases splitSwing rest with _ | _ | ⟨l, r⟩
    · exact .rfl' _
    · exact .rfl' _
    · exact (h _).bind fun _ => .rfl' _
  unfold branch
  dsimp only
  refine .ite (fun _ => .ite (fun _ => .rfl' _) fun _ => (Le.rfl' _).bind fun _ => (Le.rfl' _).bind fun _ => key _ _) fun _ => (Le.rfl' _).bind fun _ => key _ _

theorem elseIfs_le (h : ∀ ts, Le (f ts) (g ts)) : ∀ n has r, Le (elseIfs f n has r) (elseIfs g n has r)
  | n, has, [] => by unfold elseIfs; exact .rfl' _
  | 0, has, t :: ts => by
    unfold elseIfs
    refine .ite (fun _ => ?_) fun _ => .rfl' _
    rcases ts with _ | ⟨u, us⟩
    · exact .rfl' _
    · exact .ite (fun _ => .rfl' _) fun _ => .rfl' _
  | n + 1, has, t :: ts => by
    unfold elseIfs
    refine .ite (fun _ => ?_) fun _ => .rfl' _
    rcases ts with _ | ⟨u, us⟩
    · exact .rfl' _
    · refine .ite (fun _ => ?_) fun _ => .rfl' _
      exact (branch_le h _ _ _ _).bind2 fun s rest => (elseIfs_le h n true rest).bind fun _ => .rfl' _

theorem ifChain_le (h : ∀ ts, Le (f ts) (g ts)) (ts : List Token) : Le (ifChain f ts) (ifChain g ts) := by
  unfold ifChain
  refine (branch_le h _ _ _ _).bind2 fun s rest => (elseIfs_le h _ _ _).bind fun x => ?_
  obtain ⟨s', has, rest⟩ := x
  refine .ite (fun _ => .rfl' _) fun _ => ?_
  exact .ite (fun _ => (branch_le h _ _ _ _).bind fun _ => .rfl' _) fun _ => .rfl' _

theorem mode_le {rf rf' : List Char → Option (List Token)} (hrf : ∀ a, Le (rf a) (rf' a)) : ∀ n m, n ≤ m → ∀ ts, Le (statementMode rf n ts) (statementMode rf' m ts) := by
  intro n
  induction n with
  | zero => exact fun _ _ ts => .none _
  | succ n ih =>
    intro m hm ts0
    obtain ⟨m, rfl⟩ : ∃ m', m = m' + 1 := ⟨m - 1, by omega⟩
    replace ih := ih m (by omega)
    rw [statementMode, statementMode]
    dsimp only
    rcases removeBreaks ts0 with _ | ⟨t, ts⟩
    · exact .rfl' _
    dsimp only
    cases t.type <;> dsimp only
    case eof => exact .rfl' _
    case publicT =>
      rcases ts with _ | ⟨u, us⟩
      · exact .rfl' _
      · exact .ite (fun _ => .rfl' _) fun _ => (Le.rfl' _).bind2 fun _ _ => (ih _).bind fun _ => .rfl' _
    case imprt =>
      rcases ts with _ | ⟨u, us⟩
      · exact .rfl' _
      · exact .ite (fun _ => .rfl' _) fun _ => (hrf _).bind fun _ => ih _
    case functionDefine =>
      rcases ts with _ | ⟨u, _ | ⟨v, us⟩⟩
      · exact .rfl' _
      · exact .rfl' _
      · refine .ite (fun _ => .rfl' _) fun _ => (Le.rfl' _).bind2 fun args rest => (Le.rfl' _).bind fun params => ?_
        rcases rest with _ | ⟨o, body⟩
        · exact .rfl' _
        · refine .ite (fun _ => .rfl' _) fun _ => ?_
          rcases splitSwing body with _ | _ | ⟨l, r⟩
          · exact .rfl' _
          · exact .rfl' _
          · exact (ih _).bind fun _ => (ih _).bind fun _ => .rfl' _
    case ifT => exact (ifChain_le ih _).bind2 fun _ _ => (ih _).bind fun _ => .rfl' _
    case forT =>
      rcases ts with _ | ⟨u, us⟩
      · exact .rfl' _
      · refine .ite (fun _ => .rfl' _) fun _ => ?_
        rcases splitAtText [';'] us with ⟨l, _ | ⟨x, r⟩⟩
        · exact .rfl' _
        · refine (Le.rfl' _).bind fun cond => ?_
          rcases splitRound r with _ | _ | ⟨l, r⟩
          · exact .rfl' _
          · exact .rfl' _
          · refine .ite (fun _ => .rfl' _) fun _ => ?_
            rcases splitAtText ['='] l with ⟨ov, _ | ⟨y, ex⟩⟩
            · exact .rfl' _
            · refine (Le.rfl' _).bind fun a => (Le.rfl' _).bind fun b => ?_
              rcases removeLeadingBreaks r with _ | ⟨o, r⟩
              · exact .rfl' _
              · refine .ite (fun _ => .rfl' _) fun _ => ?_
                rcases splitSwing r with _ | _ | ⟨l, r⟩
                · exact .rfl' _
                · exact .rfl' _
                · exact (ih _).bind fun _ => (ih _).bind fun _ => .rfl' _
    case identifier =>
      refine (Le.rfl' _).bind fun a => ?_
      rcases (splitAtText ['='] (splitAtText ['\n'] (t :: ts)).1).2 with _ | ⟨y, ex⟩
      · exact .rfl' _
      · exact (Le.rfl' _).bind fun _ => (ih _).bind fun _ => .rfl' _
    case varDeclare =>
      refine .ite (fun _ => ?_) fun _ => .ite (fun _ => ?_) fun _ => .rfl' _
      · rcases ts with _ | ⟨u, _ | ⟨v, _ | ⟨x, us⟩⟩⟩
        · exact .rfl' _
        · exact .rfl' _
        · exact .rfl' _
        · exact .ite (fun _ => ih _) fun _ => (Le.rfl' _).bind fun _ => (ih _).bind fun _ => .rfl' _
      · exact (Le.rfl' _).bind2 fun _ _ => .ite (fun _ => .rfl' _) fun _ => (ih _).bind fun _ => .rfl' _
    case ret => exact .rfl' _
    case functionCall =>
      refine (Le.rfl' _).bind2 fun args rest => ?_
      rcases rest with _ | ⟨u, us⟩
      · exact (ih _).bind fun _ => .rfl' _
      · exact .ite (fun _ => .rfl' _) fun _ => (ih _).bind fun _ => .rfl' _
    all_goals exact .rfl' _

variable {H : Name → Nat} {q : Nat}

theorem Le.map {α β} {a b : Option α} (h : Le a b) (f : α → β) : Le (a.map f) (b.map f) := by
  intro x hx
  obtain ⟨y, hy, rfl⟩ := Option.map_eq_some_iff.mp hx
  rw [h y hy]; rfl

theorem Le.mapM {α β} {f g : α → Option β} (h : ∀ x, Le (f x) (g x)) : ∀ l : List α, Le (l.mapM f) (l.mapM g)
  | [] => .rfl' _
  | a :: l => by
    rw [List.mapM_cons, List.mapM_cons]
    exact (h a).bind fun _ => (Le.mapM h l).bind fun _ => .rfl' _

theorem parse_le {n m : Nat} (hnm : n ≤ m) {rf rf' : List Char → Option (List Token)} (hrf : ∀ a, Le (rf a) (rf' a)) (ts : List Token) :
    Le (parse H q n rf ts) (parse H q m rf' ts) := by
  unfold parse
  refine (mode_le hrf n m hnm ts).bind fun s => .ite (fun _ => ?_) fun _ => .rfl' _
  exact (Le.mapM (fun c => (resolveArray_le (compile_le hnm) _ _ _ _).map _) _).bind fun _ => .rfl' _

/-- `Parse` has at most one result -/
theorem parse_det {n k : Nat} {rf : List Char → Option (List Token)} {ts : List Token} {x y : List Name × Mem} (h1 : parse H q n rf ts = some x)
    (h2 : parse H q k rf ts = some y) : x = y := by
  have a := parse_le (Nat.le_max_left n k) (fun a => .rfl' (rf a)) ts x h1
  have b := parse_le (Nat.le_max_right n k) (fun a => .rfl' (rf a)) ts y h2
  rw [a] at b
  exact Option.some.inj b

/-- what is read without any file is read whatever the files are -/
theorem parse_det_files {n k : Nat} {rf : List Char → Option (List Token)} {ts : List Token} {x y : List Name × Mem}
    (h1 : parse H q n (fun _ => none) ts = some x) (h2 : parse H q k rf ts = some y) : x = y :=
  parse_det (parse_le (Nat.le_refl n) (fun _ => .none _) ts x h1) h2

end APS.Prog
