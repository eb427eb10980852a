/-!
Model of the lexer: circuitcompiler/lexer.go and circuitcompiler/rune_stack.go.

* The source is a list of runes (`List Char`): valid UTF-8 only.  Positions count runes where the code counts bytes;
  `Rewind` subtracts `utf8.RuneLen r`, the width of the rune it popped, hence exactly one rune.
* A rune is `Option Char`; `none` is `EOFRune`.
* `l.tokens <- tok` appends to `out`: what the reader of the channel gets, in order (the goroutine of `Start`,
  lexer.go:207-215, only decides when).  `currentLine` only feeds panic texts and is left out.
* Two loops of the code can run forever: the one over quoted text (lexer.go:409) and `run` (347).  Both take fuel; the
  lexer terminates iff some fuel suffices.
-/
namespace APS.Lex

/-- circuitcompiler/lexer.go:95-124: the token types; `zero` is the type of `Token{}`.  The code numbers them by single
bits and tests sets of types with `&`. -/
inductive TokenType where
  | zero
  | number | syntax | comment | assignment | arithmetic | boolean | bit | comparator | eof
  | imprt | publicT | identifier | functionDefine | functionCall | ifFunctionCall | varDeclare | varOverload
  | arrayDeclare | arrayCall | unassigned | argument | ifT | elseT | forT | nestedEnd | ifElseEnd | ret
deriving DecidableEq, Repr

/-- circuitcompiler/lexer.go:24-27 `Token` -/
structure Token where
  type : TokenType
  text : List Char
deriving DecidableEq, Repr

/-- circuitcompiler/lexer.go:183-194 `Lexer`; `rewind` is the stack of rune_stack.go:8-44 -/
structure Lexer where
  src : List Char
  start : Nat
  pos : Nat
  rewind : List (Option Char)
  out : List Token
deriving DecidableEq, Repr

/-- circuitcompiler/lexer.go:196-204 `New` -/
def new (src : List Char) : Lexer := ⟨src, 0, 0, [], []⟩

/-- circuitcompiler/lexer.go:40 `numberTokens` -/
def numberTokens : List Char := "0123456789".toList
/-- circuitcompiler/lexer.go:41 `syntaxTokens` -/
def syntaxTokens : List Char := "():,;\n{}[]".toList

/-- circuitcompiler/lexer.go:45-72: the map `operationMap` filled by `init`; later assignments win -/
def operationMap : List Char → Option TokenType
  | ['='] => some .assignment
  | ['-', '='] => some .assignment
  | ['+', '='] => some .assignment
  | ['*', '='] => some .assignment
  | ['/', '='] => some .assignment
  | ['-'] => some .arithmetic
  | ['+'] => some .arithmetic
  | ['*'] => some .arithmetic
  | ['/'] => some .arithmetic
  | ['|', '|'] => some .boolean
  | ['&', '&'] => some .boolean
  | ['>', '>'] => some .bit
  | ['<', '<'] => some .bit
  | ['=', '='] => some .comparator
  | ['!', '='] => some .comparator
  | ['>'] => some .comparator
  | ['>', '='] => some .comparator
  | ['<'] => some .comparator
  | ['<', '='] => some .comparator
  | _ => none

/-- circuitcompiler/lexer.go:76-85 `keyWordMap` -/
def keyWordMap (w : List Char) : Option TokenType :=
  if w = "return".toList then some .ret
  else if w = "var".toList then some .varDeclare
  else if w = "if".toList then some .ifT
  else if w = "else".toList then some .elseT
  else if w = "for".toList then some .forT
  else if w = "func".toList then some .functionDefine
  else if w = "import".toList then some .imprt
  else if w = "public".toList then some .publicT
  else none

/-- circuitcompiler/lexer.go:228-230 `Current` -/
def Lexer.current (l : Lexer) : List Char := (l.src.drop l.start).take (l.pos - l.start)

/-- circuitcompiler/lexer.go:234-242 `Emit` -/
def Lexer.emit (l : Lexer) (t : TokenType) : Lexer :=
  { l with out := l.out ++ [⟨t, l.current⟩], start := l.pos, rewind := [] }

/-- circuitcompiler/lexer.go:247-250 `Ignore` -/
def Lexer.ignore (l : Lexer) : Lexer := { l with rewind := [], start := l.pos }

/-- circuitcompiler/lexer.go:290-308 `Next` -/
def Lexer.next (l : Lexer) : Option Char × Lexer :=
  match l.src.drop l.pos with
  | [] => (none, { l with rewind := none :: l.rewind })
  | c :: _ => (some c, { l with pos := l.pos + 1, rewind := some c :: l.rewind })

/-- circuitcompiler/lexer.go:274-286 `Rewind`, with `pop` (rune_stack.go:31-39: an empty stack gives `EOFRune`) -/
def Lexer.rewindOne (l : Lexer) : Lexer :=
  match l.rewind with
  | [] => l
  | none :: rs => { l with rewind := rs }
  | some _ :: rs => { l with rewind := rs, pos := if l.pos - 1 < l.start then l.start else l.pos - 1 }

/-- circuitcompiler/lexer.go:254-259 `Peek` -/
def Lexer.peek (l : Lexer) : Option Char × Lexer := (l.next.1, l.next.2.rewindOne)

/-- circuitcompiler/lexer.go:263-268 `PeekTwo`.  The code builds a string; `string(EOFRune)` is U+FFFD, which occurs in
no key of `operationMap`, so the model keeps the two runes. -/
def Lexer.peekTwo (l : Lexer) : (Option Char × Option Char) × Lexer :=
  ((l.next.1, l.next.2.next.1), l.next.2.next.2.rewindOne.rewindOne)

/-- circuitcompiler/lexer.go:314-320 `Take`, 379-386 `readIdent`, 387-393 `readCommentLine`: call `Next` while the rune
satisfies `p`, then `Rewind`.  The loop passes one rune a turn and no `p` used accepts `EOFRune`, so it ends before the
fuel `length of the source + 1` is used up. -/
def Lexer.takeLoop (p : Option Char → Bool) : Nat → Lexer → Lexer
  | 0, l => l
  | n + 1, l => if p l.next.1 then Lexer.takeLoop p n l.next.2 else l.next.2.rewindOne

/-- `strings.ContainsRune(chars, r)`; false of `EOFRune` -/
def containsRune (chars : List Char) : Option Char → Bool
  | none => false
  | some c => chars.contains c

/-- circuitcompiler/lexer.go:314-320 `Take` -/
def Lexer.take (l : Lexer) (chars : List Char) : Lexer := l.takeLoop (containsRune chars) (l.src.length + 1)

/-- circuitcompiler/lexer.go:359-361 `isWhitespace` -/
def isWhitespace (r : Option Char) : Bool := r == some ' ' || r == some '\t' || r == some '\n' || r == some '\r'

/-- circuitcompiler/lexer.go:363-365 `isLetter` -/
def isLetter (c : Char) : Bool := ('a' ≤ c && c ≤ 'z') || ('A' ≤ c && c ≤ 'Z')
/-- circuitcompiler/lexer.go:366-368 `isDigit` -/
def isDigit (c : Char) : Bool := '0' ≤ c && c ≤ '9'

/-- circuitcompiler/lexer.go:382: the loop condition of `readIdent` -/
def identRune : Option Char → Bool
  | none => false
  | some c => isLetter c || isDigit c || c == '_'

/-- circuitcompiler/lexer.go:389: the loop condition of `readCommentLine` -/
def commentRune : Option Char → Bool
  | none => false
  | some c => c != '\n'

/-- circuitcompiler/lexer.go:379-386 `readIdent` -/
def Lexer.readIdent (l : Lexer) : Lexer := l.takeLoop identRune (l.src.length + 1)

/-- circuitcompiler/lexer.go:387-393 `readCommentLine` -/
def Lexer.readCommentLine (l : Lexer) : Lexer := l.takeLoop commentRune (l.src.length + 1)

/-- the values of type `StateFunc` in the program; `stop` is `nil`, `failed` is a panic in `l.Error` -/
inductive State where
  | number | ident | probablyWhitespace | whitespace | stop | failed
deriving DecidableEq, Repr

/-- circuitcompiler/lexer.go:460-472 `ProbablyWhitespaceState` -/
def probablyWhitespaceState (l : Lexer) : Lexer × State :=
  match l.peek with
  | (none, l) => (l, .stop)
  | (some _, l) => ((l.take " \t\r".toList).ignore, .ident)

/-- circuitcompiler/lexer.go:474-490 `WhitespaceState`.  No `ErrorHandler` is ever installed, so `l.Error` panics. -/
def whitespaceState (l : Lexer) : Lexer × State :=
  match l.peek with
  | (none, l) => (l, .stop)
  | (some c, l) =>
    if !isWhitespace (some c) then (l, .failed) else ((l.take " \t\r".toList).ignore, .ident)

/-- circuitcompiler/lexer.go:373-377 `NumberState`, which calls `ProbablyWhitespaceState` itself -/
def numberState (l : Lexer) : Lexer × State :=
  probablyWhitespaceState ((l.take numberTokens).emit .number)

/-- circuitcompiler/lexer.go:409-411: `for l.Peek() != '"' { l.Next() }` -/
def quoteLoop : Nat → Lexer → Option Lexer
  | 0, _ => none
  | n + 1, l => if l.peek.1 ≠ some '"' then quoteLoop n l.peek.2.next.2 else some l.peek.2

/-- `operationMap[l.PeekTwo()]` on the two runes -/
def lookupTwo : Option Char × Option Char → Option TokenType
  | (some a, some b) => operationMap [a, b]
  | _ => none

/-- `operationMap[string(peek)]` -/
def lookupOne : Option Char → Option TokenType
  | some a => operationMap [a]
  | none => none

/-- circuitcompiler/lexer.go:439-457: the word case at the end of `IdentState` -/
def wordState (l : Lexer) : Lexer × State :=
  let l := l.readIdent
  match keyWordMap l.current with
  | some t => (l.emit t, .probablyWhitespace)
  | none =>
    match l.peek with
    | (some '(', l) => (l.emit .functionCall, .probablyWhitespace)
    | (_, l) => (l.emit .identifier, .probablyWhitespace)

/-- circuitcompiler/lexer.go:395-458 `IdentState` -/
def identState (fuel : Nat) (l : Lexer) : Option (Lexer × State) :=
  let (peek, l) := l.peek
  if (peek.map isDigit).getD false then some (l, .number)
  else if containsRune syntaxTokens peek then
    some (l.next.2.emit .syntax, .probablyWhitespace)
  else if peek = some '"' then
    match quoteLoop fuel l.next.2.ignore with
    | none => none
    | some l => some ((l.emit .identifier).next.2.ignore, .probablyWhitespace)
  else
    let (two, l) := l.peekTwo
    match lookupTwo two with
    | some t => some (l.next.2.next.2.emit t, .probablyWhitespace)
    | none =>
      match lookupOne peek with
      | some t => some (l.next.2.emit t, .probablyWhitespace)
      | none =>
        if peek = some '#' then some (l.readCommentLine.emit .comment, .whitespace)
        else some (wordState l)

/-- the state functions -/
def step (fuel : Nat) : State → Lexer → Option (Lexer × State)
  | .number, l => some (numberState l)
  | .ident, l => identState fuel l
  | .probablyWhitespace, l => some (probablyWhitespaceState l)
  | .whitespace, l => some (whitespaceState l)
  | .stop, l => some (l, .stop)
  | .failed, l => some (l, .failed)

/-- how a run ended -/
inductive Outcome where
  /-- the channel is closed after these tokens -/
  | closed (toks : List Token)
  /-- `l.Error` panicked after these tokens -/
  | panicked (toks : List Token)
deriving DecidableEq, Repr

/-- circuitcompiler/lexer.go:346-352 `run`; `none`: still running when the fuel is used up -/
def run : Nat → State → Lexer → Option Outcome
  | _, .stop, l => some (.closed l.out)
  | _, .failed, l => some (.panicked l.out)
  | 0, _, _ => none
  | n + 1, s, l => match step n s l with
    | none => none
    | some (l', s') => run n s' l'

/-- circuitcompiler/parser.go:61-63 `New(code, ProbablyWhitespaceState)` and `Start` -/
def tokenize (fuel : Nat) (src : List Char) : Option Outcome := run fuel .probablyWhitespace (new src)

/-- circuitcompiler/lexer.go:324-338 `NextToken`, called until it reports the end; the argument is `alreadyNewline` -/
def nextTokens : Bool → List Token → List Token
  | _, [] => []
  | already, t :: ts =>
    if t.text = ['\n'] then
      if already then nextTokens true ts else t :: nextTokens true ts
    else t :: nextTokens false ts

/-- circuitcompiler/parser.go:48-58 `nextToken` drops comments; 636-648 `stackAllTokens` calls it until `EOF`, which it
appends -/
def stackAllTokens (toks : List Token) : List Token :=
  (nextTokens false toks).filter (fun t => t.type != .comment) ++ [⟨.eof, []⟩]

/-- circuitcompiler/lexer.go:217-225 `StartSync`: the capacity of the channel, half the length in bytes, at least one -/
def bufSize (src : List Char) : Nat :=
  let n := (src.map Char.utf8Size).sum / 2
  if n ≤ 0 then 1 else n

/-- circuitcompiler/lexer.go:217-225 `StartSync`: `run` in the caller's goroutine.  Nobody receives while it runs, so
the send of a token beyond the capacity blocks for ever: `none`. -/
def startSync (fuel : Nat) (src : List Char) : Option Outcome :=
  match tokenize fuel src with
  | some (.closed toks) => if toks.length ≤ bufSize src then some (.closed toks) else none
  | some (.panicked toks) => if toks.length ≤ bufSize src then some (.panicked toks) else none
  | none => none

end APS.Lex

/-!
### `Start`: lexer and reader as two goroutines

circuitcompiler/lexer.go:207-215.  The lexer goroutine, cut down to its communication: it sends the tokens it emits one
by one (a send needs a free place in the buffer), then closes the channel.  The reader receives (lexer.go:324-338,
before newlines are dropped) until it finds the channel closed and empty.  Steps interleave arbitrarily.
-/
namespace APS.Lex

structure Pipe where
  /-- tokens not yet sent -/
  todo : List Token
  buffer : List Token
  closed : Bool
  received : List Token
  /-- the reader saw the end of the channel -/
  finished : Bool
deriving DecidableEq, Repr

inductive PipeStep (cap : Nat) : Pipe → Pipe → Prop
  /-- lexer.go:239 `l.tokens <- tok` -/
  | send {t ts b r f} : b.length < cap → PipeStep cap ⟨t :: ts, b, false, r, f⟩ ⟨ts, b ++ [t], false, r, f⟩
  /-- lexer.go:351 `close(l.tokens)` -/
  | close {b r f} : PipeStep cap ⟨[], b, false, r, f⟩ ⟨[], b, true, r, f⟩
  /-- lexer.go:325 `tok, ok := <-l.tokens` with `ok` -/
  | recv {ts t b c r} : PipeStep cap ⟨ts, t :: b, c, r, false⟩ ⟨ts, b, c, r ++ [t], false⟩
  /-- the same with `!ok` -/
  | done {ts r} : PipeStep cap ⟨ts, [], true, r, false⟩ ⟨ts, [], true, r, true⟩

inductive PipeSteps (cap : Nat) : Nat → Pipe → Pipe → Prop
  | refl {s} : PipeSteps cap 0 s s
  | step {n s s' s''} : PipeSteps cap n s s' → PipeStep cap s' s'' → PipeSteps cap (n + 1) s s''

def Pipe.initial (toks : List Token) : Pipe := ⟨toks, [], false, [], false⟩

end APS.Lex
