import Verif.Model.Lexer

/-!
What a source text consists of, independently of how the lexer reads it.
-/
namespace APS.LexSpec
open APS.Lex (Token TokenType Outcome tokenize)

/-- characters between tokens that belong to no token -/
def Blank (c : Char) : Prop := c = ' ' ∨ c = '\t' ∨ c = '\r'
def Digit (c : Char) : Prop := '0' ≤ c ∧ c ≤ '9'
def Letter (c : Char) : Prop := ('a' ≤ c ∧ c ≤ 'z') ∨ ('A' ≤ c ∧ c ≤ 'Z')
def WordChar (c : Char) : Prop := Letter c ∨ Digit c ∨ c = '_'
def Punct (c : Char) : Prop :=
  c = '(' ∨ c = ')' ∨ c = ':' ∨ c = ',' ∨ c = ';' ∨ c = '\n' ∨ c = '{' ∨ c = '}' ∨ c = '[' ∨ c = ']'

/-- the operators of the language -/
def operators : List (List Char × TokenType) :=
  [ (['='], .assignment), (['-', '='], .assignment), (['+', '='], .assignment), (['*', '='], .assignment),
    (['/', '='], .assignment),
    (['-'], .arithmetic), (['+'], .arithmetic), (['*'], .arithmetic), (['/'], .arithmetic),
    (['|', '|'], .boolean), (['&', '&'], .boolean), (['>', '>'], .bit), (['<', '<'], .bit),
    (['=', '='], .comparator), (['!', '='], .comparator), (['>'], .comparator), (['>', '='], .comparator),
    (['<'], .comparator), (['<', '='], .comparator) ]

/-- the reserved words -/
def keywords : List (List Char × TokenType) :=
  [ ("return".toList, .ret), ("var".toList, .varDeclare), ("if".toList, .ifT), ("else".toList, .elseT),
    ("for".toList, .forT), ("func".toList, .functionDefine), ("import".toList, .imprt), ("public".toList, .publicT) ]

/-- the first character of a text satisfies `p` -/
def Starts (p : Char → Prop) (s : List Char) : Prop := ∃ c r, s = c :: r ∧ p c

/-- `t` is the type of the word `w` when the text `r` follows it -/
inductive WordType (w r : List Char) : TokenType → Prop
  | keyword {t} : (w, t) ∈ keywords → WordType w r t
  | call : (∀ t, (w, t) ∉ keywords) → Starts (· = '(') r → WordType w r .functionCall
  | name : (∀ t, (w, t) ∉ keywords) → ¬ Starts (· = '(') r → WordType w r .identifier

/-- `Piece s t r`: the text `s` begins with the token `t`, read as far as possible, and `r` is what follows it. -/
inductive Piece : List Char → Token → List Char → Prop
  /-- a maximal run of digits -/
  | number {w r} : w ≠ [] → (∀ c ∈ w, Digit c) → ¬ Starts Digit r → Piece (w ++ r) ⟨.number, w⟩ r
  /-- a punctuation mark; a line break is one -/
  | punct {c r} : Punct c → Piece (c :: r) ⟨.syntax, [c]⟩ r
  /-- quoted text: the quotes are not part of the token -/
  | quoted {w r} : '"' ∉ w → Piece ('"' :: (w ++ '"' :: r)) ⟨.identifier, w⟩ r
  /-- an operator of two characters -/
  | op2 {a b t r} : ([a, b], t) ∈ operators → Piece (a :: b :: r) ⟨t, [a, b]⟩ r
  /-- an operator of one character, which is not the beginning of one of two -/
  | op1 {a t r} : ([a], t) ∈ operators → ¬ Starts (fun b => ∃ t', ([a, b], t') ∈ operators) r →
      Piece (a :: r) ⟨t, [a]⟩ r
  /-- a comment reaches up to the end of the line -/
  | comment {w r} : '\n' ∉ w → (r = [] ∨ Starts (· = '\n') r) → Piece ('#' :: (w ++ r)) ⟨.comment, '#' :: w⟩ r
  /-- a maximal run of letters, digits and underscores that does not begin with a digit -/
  | word {w r t} : w ≠ [] → (∀ c ∈ w, WordChar c) → ¬ Starts Digit w → ¬ Starts WordChar r → WordType w r t →
      Piece (w ++ r) ⟨t, w⟩ r

/-- `Lexes s toks`: the text `s` consists of the tokens `toks`, with blanks between them.  Blanks at the very end of the
text count as one more token, an identifier without a name. -/
inductive Lexes : List Char → List Token → Prop
  | eof : Lexes [] []
  | blank {c r toks} : Blank c → r ≠ [] → Lexes r toks → Lexes (c :: r) toks
  | blankEnd {c} : Blank c → Lexes [c] [⟨.identifier, []⟩]
  | token {s t r toks} : Piece s t r → Lexes r toks → Lexes s (t :: toks)

/-- `Reads p toks r`: the text `p ++ r` begins with the tokens `toks`, with blanks between and after them; they and the
blanks make up `p`, and `r` is the rest of the text. -/
inductive Reads : List Char → List Token → List Char → Prop
  | nil {r} : Reads [] [] r
  | blank {c p toks r} : Blank c → Reads p toks r → Reads (c :: p) toks r
  | token {a p t toks r} : Piece (a ++ (p ++ r)) t (p ++ r) → Reads p toks r → Reads (a ++ p) (t :: toks) r

/-- `Spells toks s`: writing the texts of the tokens one after the other, with blanks in between wherever one likes and
quotes round a name if one likes, gives `s`. -/
inductive Spells : List Token → List Char → Prop
  | nil : Spells [] []
  | blank {toks c s} : Blank c → Spells toks s → Spells toks (c :: s)
  | plain {t toks s} : Spells toks s → Spells (t :: toks) (t.text ++ s)
  | quoted {t toks s} : t.type = .identifier → Spells toks s → Spells (t :: toks) ('"' :: (t.text ++ '"' :: s))

/-- the lexer closes its channel after handing out exactly `toks` -/
def TokenizesTo (src : List Char) (toks : List Token) : Prop := ∃ fuel, tokenize fuel src = some (.closed toks)

/-- the lexer ends, in whatever way -/
def Terminates (src : List Char) : Prop := ∃ fuel o, tokenize fuel src = some o

/-- characters that may stand anywhere outside quotes and comments -/
def ordinary (c : Char) : Bool :=
  " \t\r():,;\n{}[]=-+*/<>_".toList.contains c || ('a' ≤ c && c ≤ 'z') || ('A' ≤ c && c ≤ 'Z') || ('0' ≤ c && c ≤ '9')

inductive Mode where
  | code | quote | comment

/-- the supported texts: outside quotes and comments only ordinary characters and `&&`, `||`, `!=`; quotes are closed -/
def supportedFrom : Mode → List Char → Bool
  | .code, [] => true
  | .code, '&' :: '&' :: r => supportedFrom .code r
  | .code, '|' :: '|' :: r => supportedFrom .code r
  | .code, '!' :: '=' :: r => supportedFrom .code r
  | .code, '"' :: r => supportedFrom .quote r
  | .code, '#' :: r => supportedFrom .comment r
  | .code, c :: r => ordinary c && supportedFrom .code r
  | .quote, [] => false
  | .quote, '"' :: r => supportedFrom .code r
  | .quote, _ :: r => supportedFrom .quote r
  | .comment, [] => true
  | .comment, '\n' :: r => supportedFrom .code r
  | .comment, _ :: r => supportedFrom .comment r

def supported (src : List Char) : Bool := supportedFrom .code src

end APS.LexSpec
