import Verif.Spec.Write
import Verif.Spec.Lexer

/-! A text for every program: the texts of its tokens with a blank after each, except between the name and the `(` of a call. -/
namespace APS.LangSpec
open APS.Lex (Token TokenType)
open APS.LexSpec (keywords operators Digit Punct)

/-- a word that is not reserved -/
def FreeWord (w : List Char) : Prop := isWord w = true ∧ ∀ t, (w, t) ∉ keywords

/-- the text of the token is one of its type: decimal digits for a number, a mark, an operator, a reserved word, a free word -/
def Readable (t : Token) : Prop :=
  match t.type with
  | .number => t.text ≠ [] ∧ ∀ c ∈ t.text, Digit c
  | .identifier | .functionCall => FreeWord t.text
  | .syntax => ∃ c, Punct c ∧ t.text = [c]
  | _ => (t.text, t.type) ∈ operators ∨ (t.text, t.type) ∈ keywords

/-- the text of a list of tokens -/
def render : List Token → List Char
  | [] => []
  | [t] => t.text
  | t :: ts => t.text ++ if t.type = .functionCall then render ts else ' ' :: render ts

/-- the text of a program -/
def Program.text (p : Program) : List Char := render p.tokens

end APS.LangSpec
