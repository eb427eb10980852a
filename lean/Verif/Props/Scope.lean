import Verif.Proofs.Scope
import Verif.Props.Accept

/-!
C102, C103: what the parser rejects.  For every program of the language of Spec/Lang.lean, well-formed or not: when `Parse` returns, every word
used without an index in a declaration, an assignment, a call or a `return` is declared where it is used (Spec/Scope.lean), nothing is declared
twice in a block, no two functions and no two parameters have one name, and `public` is in `main` only.
-/
namespace APS.Prog
open APS.Circuit hiding execute compile Prog
open APS.Lex (Token stackAllTokens)
open APS.LexSpec (TokenizesTo)
open APS.ParseSpec (Ex)
open APS.LangSpec (Fun Stm Program isWord declared bareEx bareExs AllIn scopedStms onceStms)

variable {H : Name → Nat} {q : Nat}

/-- the functions of a program, with their names after `public` -/
theorem mem_all {p : Program} {F : Fun} (hF : F ∈ p.main :: p.funs) : ∃ ps, (ps, F) ∈ p.all := by
  rcases List.mem_cons.mp hF with rfl | hF
  · exact ⟨p.pubs, by simp [LangSpec.Program.all]⟩
  · refine ⟨[], ?_⟩
    rcases List.mem_append.mp hF with hF | hF <;> simp [LangSpec.Program.all, hF]

theorem all_names {p : Program} {x : Name} (hx : x ∈ p.all.map fun y => y.2.name) : x ∈ (p.main :: p.funs).map Fun.name := by
  simp only [LangSpec.Program.all, LangSpec.Program.funs, List.map_append, List.map_cons, List.map_map, List.mem_append, List.mem_cons, List.mem_map,
    Function.comp] at hx ⊢
  rcases hx with h | h | h
  · exact Or.inr (Or.inl h)
  · exact Or.inl h
  · exact Or.inr (Or.inr h)

/-! ### C102: undeclared names -/

/-- C102: in a program the parser accepts, each function uses only declared names. -/
theorem C102_declared {p : Program} {m : Mem} (hp : program p.emit = some m) : ∀ F ∈ p.main :: p.funs, F.scoped (p.all.map fun y => y.2.name) := by
  intro F hF
  obtain ⟨ps, h⟩ := mem_all hF
  exact ((program_scope hp).1 _ h).1

/-- C102: from the text on: `Parse` panics on every text of a program with a function that uses an undeclared name. -/
theorem C102_rejected {p : Program} (hw : p.written) {src : List Char} {toks : List Token} (_ht : TokenizesTo src toks)
    (hs : p.spelled (stackAllTokens toks)) {F : Fun} (hF : F ∈ p.main :: p.funs) (hu : ¬ F.scoped (p.all.map fun y => y.2.name))
    (rf : List Char → Option (List Token)) {n : Nat} (hn : (stackAllTokens toks).length + 1 < n) : parse H q n rf (stackAllTokens toks) = none := by
  obtain ⟨n, rfl⟩ : ∃ n', n = n' + 1 := ⟨n - 1, by omega⟩
  rw [parse_spelled hw rf hs (by omega)]
  cases hm : program p.emit with
  | none => rfl
  | some m => exact absurd (C102_declared hm F hF) hu

/-- C102, in plain words: a name in the last `return` of a function that is no parameter, not declared in the body (outside its inner blocks) and no
function makes the parser panic — also when it is declared in an inner block or in another function. -/
theorem C102_undeclared_return {p : Program} {F : Fun} (hF : F ∈ p.main :: p.funs) {x : Name} (hx : x ∈ bareEx F.ret) (hw : isWord x = true)
    (h1 : x ∉ F.names) (h2 : x ∉ declared F.body) (h3 : x ∉ (p.main :: p.funs).map Fun.name) : program p.emit = none := by
  cases hm : program p.emit with
  | none => rfl
  | some m =>
    have := (C102_declared hm F hF).2 x hx hw
    simp only [List.mem_append] at this
    rcases this with h | h | h
    · exact absurd h h2
    · exact absurd h h1
    · exact absurd (all_names h) h3

theorem scoped_split {st : Stm} {after : List Stm} : ∀ (before : List Stm) {vis : List Name}, scopedStms vis (before ++ st :: after) →
    ∃ vis', st.scoped (declared after) vis' ∧ ∀ x ∈ vis', x ∈ vis ∨ x ∈ declared before := by
  intro before
  induction before with
  | nil => intro vis h; exact ⟨vis, h.1, fun x hx => Or.inl hx⟩
  | cons s before ih =>
    intro vis h
    obtain ⟨vis', h1, h2⟩ := ih h.2
    refine ⟨vis', h1, fun x hx => ?_⟩
    simp only [declared, List.flatMap_cons, List.mem_append] at h2 ⊢
    have := h2 x hx
    tauto

/-- C102, in plain words: an assignment whose right side uses a name that is not declared before it makes the parser panic; a declaration after
it does not help. -/
theorem C102_undeclared_assign {p : Program} {F : Fun} (hF : F ∈ p.main :: p.funs) {before after : List Stm} {y : Name} {idx : List Ex} {e : Ex}
    (hb : F.body = before ++ .assign y idx e :: after) {x : Name} (hx : x ∈ bareEx e) (hw : isWord x = true) (h1 : x ∉ F.names)
    (h2 : x ∉ declared before) (h3 : x ∉ (p.main :: p.funs).map Fun.name) : program p.emit = none := by
  cases hm : program p.emit with
  | none => rfl
  | some m =>
    have h := (C102_declared hm F hF).1
    rw [hb] at h
    obtain ⟨vis', k1, k2⟩ := scoped_split before h
    rcases k2 x (k1.2.2 x hx hw) with h | h
    · rcases List.mem_append.mp h with h | h
      · exact absurd h h1
      · exact absurd (all_names h) h3
    · exact absurd h h2

/-! ### C103: names declared twice -/

/-- C103: in a program the parser accepts, the functions have different names. -/
theorem C103_functions {p : Program} {m : Mem} (hp : program p.emit = some m) : (p.all.map fun x => x.2.name).Nodup := (program_scope hp).2

/-- C103: the parameters of a function are different, and in a block no variable is declared again as a variable and nothing again as an array. -/
theorem C103_once {p : Program} {m : Mem} (hp : program p.emit = some m) : ∀ F ∈ p.main :: p.funs, F.once := by
  intro F hF
  obtain ⟨ps, h⟩ := mem_all hF
  exact ((program_scope hp).1 _ h).2.1

/-- C103: `public` is accepted in `main` only. -/
theorem C103_public {p : Program} {m : Mem} (hp : program p.emit = some m) (hne : p.pubs ≠ []) : p.main.name = "main".toList :=
  ((program_scope hp).1 (p.pubs, p.main) (by simp [LangSpec.Program.all])).2.2 hne

/-- C103: from the text on: `Parse` panics on every text of a program that breaks one of these rules. -/
theorem C103_rejected {p : Program} (hw : p.written) {src : List Char} {toks : List Token} (_ht : TokenizesTo src toks)
    (hs : p.spelled (stackAllTokens toks))
    (hu : ¬ (p.all.map fun x => x.2.name).Nodup ∨ (∃ F ∈ p.main :: p.funs, ¬ F.once) ∨ (p.pubs ≠ [] ∧ p.main.name ≠ "main".toList))
    (rf : List Char → Option (List Token)) {n : Nat} (hn : (stackAllTokens toks).length + 1 < n) : parse H q n rf (stackAllTokens toks) = none := by
  obtain ⟨n, rfl⟩ : ∃ n', n = n' + 1 := ⟨n - 1, by omega⟩
  rw [parse_spelled hw rf hs (by omega)]
  cases hm : program p.emit with
  | none => rfl
  | some m =>
    rcases hu with h | ⟨F, hF, h⟩ | ⟨h, h'⟩
    · exact absurd (C103_functions hm) h
    · exact absurd (C103_once hm F hF) h
    · exact absurd (C103_public hm h) h'

theorem once_split {st : Stm} {after : List Stm} : ∀ (before : List Stm) {vars names : List Name}, onceStms vars names (before ++ st :: after) →
    ∃ vars' names', st.once vars' names' ∧ (∀ x, x ∈ vars ∨ x ∈ before.flatMap Stm.scalars → x ∈ vars') ∧ ∀ x, x ∈ names ∨ x ∈ declared before → x ∈ names' := by
  intro before
  induction before with
  | nil => intro vars names h; exact ⟨vars, names, h.1, by simp, by simp [declared]⟩
  | cons s before ih =>
    intro vars names h
    obtain ⟨vars', names', h1, h2, h3⟩ := ih h.2
    refine ⟨vars', names', h1, fun x hx => h2 x ?_, fun x hx => h3 x ?_⟩
    · simp only [List.flatMap_cons, List.mem_append] at hx ⊢
      tauto
    · simp only [declared, List.flatMap_cons, List.mem_append] at hx ⊢
      tauto

/-- C103, in plain words: declaring a variable again, or one named like a parameter, makes the parser panic. -/
theorem C103_var_twice {p : Program} {F : Fun} (hF : F ∈ p.main :: p.funs) {before after : List Stm} {x : Name} {e : Ex}
    (hb : F.body = before ++ .decl x e :: after) (hx : x ∈ F.names ∨ ∃ e', .decl x e' ∈ before) : program p.emit = none := by
  cases hm : program p.emit with
  | none => rfl
  | some m =>
    have h := (C103_once hm F hF).2
    rw [hb] at h
    obtain ⟨vars', names', k1, k2, -⟩ := once_split before h
    refine absurd (k2 x ?_) k1
    rcases hx with hx | ⟨e', hx⟩
    · exact Or.inl hx
    · exact Or.inr (List.mem_flatMap.mpr ⟨_, hx, by simp [Stm.scalars]⟩)

/-- C103, in plain words: declaring an array with the name of a variable, an array or a parameter makes the parser panic. -/
theorem C103_array_twice {p : Program} {F : Fun} (hF : F ∈ p.main :: p.funs) {before after : List Stm} {a : Name} {es : List Ex}
    (hb : F.body = before ++ .declArr a es :: after) (hx : a ∈ F.names ∨ a ∈ declared before) : program p.emit = none := by
  cases hm : program p.emit with
  | none => rfl
  | some m =>
    have h := (C103_once hm F hF).2
    rw [hb] at h
    obtain ⟨vars', names', k1, -, k3⟩ := once_split before h
    exact absurd (k3 a hx) k1

/-! ### examples -/

namespace Reject
open APS.LangSpec

/-- a program of `main(x)` only -/
def only (body : List Stm) (ret : Ex) : Program := ⟨[], [], ⟨"main".toList, [(['x'], [])], body, ret⟩, []⟩

def mul (l r : Ex) : Ex := .bin ⟨.arithmetic, ['*']⟩ l r

/-- `func main(x){ return x*z }` -/
def undeclared : Program := only [] (mul (.var ['x']) (.var ['z']))
/-- `func main(x){ var y = x  y = z  var z = 1  return y }` -/
def late : Program := only [.decl ['y'] (.var ['x']), .assign ['y'] [] (.var ['z']), .decl ['z'] (.num ['1'])] (.var ['y'])
/-- `func main(x){ for (x < 3; x = x+1) { var z = 1 }  return x*z }` -/
def inner : Program := only [.loop (.var ['x']) ['<'] (.num ['3']) ['x'] (.num ['4']) [.decl ['z'] (.num ['1'])]] (mul (.var ['x']) (.var ['z']))
/-- `func f(z){ return z } func main(x){ return x*z }` -/
def elsewhere : Program := ⟨[⟨['f'], [(['z'], [])], [], .var ['z']⟩], [], ⟨"main".toList, [(['x'], [])], [], mul (.var ['x']) (.var ['z'])⟩, []⟩
/-- `func main(x){ var y = 1  var y = 2  return x*y }` -/
def twice : Program := only [.decl ['y'] (.num ['1']), .decl ['y'] (.num ['2'])] (mul (.var ['x']) (.var ['y']))
/-- `func main(x){ var y = 1  for (x < 3; x = 4) { var y = 2  x = y }  return x*y }` -/
def shadow : Program := only [.decl ['y'] (.num ['1']),
  .loop (.var ['x']) ['<'] (.num ['3']) ['x'] (.num ['4']) [.decl ['y'] (.num ['2']), .assign ['x'] [] (.var ['y'])]] (mul (.var ['x']) (.var ['y']))
/-- `func main(x){ for (z < 3; z = z*z) { x = x }  return x }` -/
def condition : Program := only [.loop (.var ['z']) ['<'] (.num ['3']) ['z'] (mul (.var ['z']) (.var ['z'])) [.assign ['x'] [] (.var ['x'])]] (.var ['x'])
/-- `func main(x){ return x * f(x) * z[0] }` -/
def calls : Program := only [] (mul (mul (.var ['x']) (.call ['f'] [.var ['x']])) (.arr ['z'] [.num ['0']]))
/-- `func main(x){ var a = {1, 2}  var a = 3  return x*a }` -/
def arrayVar : Program := only [.declArr ['a'] [.num ['1'], .num ['2']], .decl ['a'] (.num ['3'])] (mul (.var ['x']) (.var ['a']))

end Reject

/-- C102, C103: concrete programs that are rejected by these theorems; the check of the model agrees. -/
theorem C102_examples : program Reject.undeclared.emit = none ∧ program Reject.late.emit = none ∧ program Reject.inner.emit = none ∧
    program Reject.elsewhere.emit = none := by
  refine ⟨C102_undeclared_return (x := ['z']) (List.mem_cons_self ..) ?_ ?_ ?_ ?_ ?_,
    C102_undeclared_assign (x := ['z']) (before := [.decl ['y'] (.var ['x'])]) (after := [.decl ['z'] (.num ['1'])]) (List.mem_cons_self ..) rfl ?_ ?_ ?_ ?_ ?_,
    C102_undeclared_return (x := ['z']) (List.mem_cons_self ..) ?_ ?_ ?_ ?_ ?_,
    C102_undeclared_return (x := ['z']) (List.mem_cons_self ..) ?_ ?_ ?_ ?_ ?_⟩ <;> decide +kernel

theorem C103_examples : program Reject.twice.emit = none :=
  C103_var_twice (x := ['y']) (before := [.decl ['y'] (.num ['1'])]) (after := []) (List.mem_cons_self ..) rfl (Or.inr ⟨_, List.mem_cons_self ..⟩)

/-- the hypothesis of C102_declared and C103_once is met by the demonstration program and by one that declares a name again in an inner block -/
theorem C103_accepted : (program Demo.prog.emit).isSome = true ∧ (program Reject.shadow.emit).isSome = true := by
  refine ⟨?_, ?_⟩ <;> decide +kernel

/-- C102, what is NOT checked: an undeclared name in the condition or the step of a loop, an undeclared array with an index and a call of an
undeclared function are accepted by the parser. -/
theorem C102_unchecked : (program Reject.condition.emit).isSome = true ∧ (program Reject.calls.emit).isSome = true := by
  refine ⟨?_, ?_⟩ <;> decide +kernel

/-- C103, what is NOT checked: a variable declared with the name of an array of the same block is accepted. -/
theorem C103_array_then_var : (program Reject.arrayVar.emit).isSome = true := by decide +kernel

end APS.Prog
