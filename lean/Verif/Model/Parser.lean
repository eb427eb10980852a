import Verif.Model.Lexer

/-!
Model of the parser: circuitcompiler/parser.go.

* `none` is a panic: `p.error` (parser.go:24-33) panics because neither parser nor lexer has an `ErrorHandler`; an index
  or slice out of range panics too.
* `parseExpression` appends exactly one child to the constraint it is given; the model returns that child.
* `statementMode` runs in a goroutine and sends constraints to `Parse` (parser.go:69-98) over an unbuffered channel, and
  closes `done` at the `EOF` token; the model returns the list sent and whether `done` was closed.
-/
namespace APS.Parse
open APS.Lex (Token TokenType)

/-- circuitcompiler/parser.go:830-833 `Constraint` -/
inductive Constraint where
  | mk (output : Token) (inputs : List Constraint)
deriving Repr

/-- field `Output` -/
def Constraint.output : Constraint → Token
  | .mk o _ => o
/-- field `Inputs` -/
def Constraint.inputs : Constraint → List Constraint
  | .mk _ is => is

/-- circuitcompiler/lexer.go:92 `Operator` -/
def isOperator : TokenType → Bool
  | .comparator | .arithmetic | .boolean | .bit | .assignment => true
  | _ => false

/-! ### brackets -/

/-- circuitcompiler/parser.go:801-814: the loop of `splitAtClosingStringBrackets`; `acc` is the reversed part read -/
def closeScan (op cl : List Char) : Int → List Token → List Token → Option (List Token × List Token)
  | _, _, [] => none
  | ctr, acc, t :: ts =>
    let ctr := if t.text = op then ctr + 1 else ctr
    if t.text = cl then
      let ctr := ctr - 1
      if ctr = 0 then some (acc.reverse, ts) else closeScan op cl ctr (t :: acc) ts
    else closeScan op cl ctr (t :: acc) ts

/-- circuitcompiler/parser.go:793-816 `splitAtClosingStringBrackets`: `none` panic (`in[0]` of an empty list),
`some none` no success, `some (some (cutLeft, cutRight))` success -/
def splitAtClosing (op cl : List Char) : List Token → Option (Option (List Token × List Token))
  | [] => none
  | t :: ts =>
    if t.text ≠ op then some (closeScan op cl 1 [] (t :: ts))
    else some ((closeScan op cl 0 [] (t :: ts)).map fun (l, r) => (l.drop 1, r))

/-- circuitcompiler/parser.go:783-785 `splitAtClosingBrackets` -/
def splitRound := splitAtClosing ['('] [')']
/-- circuitcompiler/parser.go:786-788 `splitAtClosingSwingBrackets` -/
def splitSwing := splitAtClosing ['{'] ['}']
/-- circuitcompiler/parser.go:789-791 `splitAtClosingSquareBrackets` -/
def splitSquare := splitAtClosing ['['] [']']

/-- circuitcompiler/parser.go:766-775 `isSurroundedByBrackets` -/
def isSurrounded (ts : List Token) : Bool :=
  match splitRound ts with
  | some (some (_, [])) => true
  | _ => false

/-- circuitcompiler/parser.go:759-764 `stripOfBrackets`; the fuel is the length of the list; `in[1 : len(in)-1]` panics
on a list of one token -/
def stripLoop : Nat → List Token → Option (List Token)
  | 0, ts => some ts
  | n + 1, ts =>
    if isSurrounded ts then
      if ts.length < 2 then none else stripLoop n (ts.drop 1).dropLast
    else some ts

/-- circuitcompiler/parser.go:759-764 `stripOfBrackets` -/
def stripOfBrackets (ts : List Token) : Option (List Token) := stripLoop ts.length ts

/-! ### splitting -/

/-- circuitcompiler/parser.go:685-692 `splitTokensAtFirstString` -/
def splitAtText (s : List Char) : List Token → List Token × List Token
  | [] => ([], [])
  | t :: ts => if t.text = s then ([], t :: ts) else let (l, r) := splitAtText s ts; (t :: l, r)

/-- circuitcompiler/parser.go:695-715 `splitAtFirstHighestStringType`; `none` on the right is `nil` -/
def splitTopText (s : List Char) : Int → List Token → List Token → List Token × Option (List Token)
  | _, acc, [] => (acc.reverse, none)
  | depth, acc, t :: ts =>
    let depth := if t.text = ['('] ∨ t.text = ['['] then depth + 1 else depth
    let depth := if t.text = [')'] ∨ t.text = [']'] then depth - 1 else depth
    if t.text = s ∧ depth = 0 then (acc.reverse, if ts = [] then none else some ts)
    else splitTopText s depth (t :: acc) ts

/-- circuitcompiler/parser.go:718-744 `splitAtFirstHighestTokenType(in, Operator)`; `none`: no operator at the top -/
def splitTopOp : Int → Int → List Token → List Token → Option (List Token × Token × List Token)
  | _, _, _, [] => none
  | c1, c2, acc, t :: ts =>
    let c1 := if t.text = ['('] then c1 + 1 else c1
    let c2 := if t.text = ['['] then c2 + 1 else c2
    let c1 := if t.text = [')'] then c1 - 1 else c1
    let c2 := if t.text = [']'] then c2 - 1 else c2
    if isOperator t.type ∧ c1 = 0 ∧ c2 = 0 then some (acc.reverse, t, ts)
    else splitTopOp c1 c2 (t :: acc) ts

/-- circuitcompiler/parser.go:583-592 `removeLeadingBreaks` -/
def removeLeadingBreaks : List Token → List Token
  | [] => []
  | t :: ts => if t.text = ['\n'] then removeLeadingBreaks ts else t :: ts

/-- circuitcompiler/parser.go:570-578 `removeTrailingBreaks`: after one trailing break it goes on with LEADING breaks -/
def removeTrailingBreaks (ts : List Token) : List Token :=
  match ts.getLast? with
  | none => []
  | some t => if t.text = ['\n'] then removeLeadingBreaks ts.dropLast else ts

/-- circuitcompiler/parser.go:579-581 `removeLeadingAndTrailingBreaks` -/
def removeBreaks (ts : List Token) : List Token := removeLeadingBreaks (removeTrailingBreaks ts)

/-- circuitcompiler/parser.go:594-600 `combineString` -/
def combineString (ts : List Token) : List Char := ts.flatMap Token.text

/-! ### expressions -/

/-- circuitcompiler/parser.go:557-564: the arguments between commas.  The fuel is the length of the list. -/
def splitArgs : Nat → List Token → List (List Token)
  | 0, ts => [removeBreaks ts]
  | n + 1, ts => match splitTopText [','] 0 [] ts with
    | (a, none) => [removeBreaks a]
    | (a, some rest) => removeBreaks a :: splitArgs n rest

/-- circuitcompiler/parser.go:545-569 `argumentParse`, with the function that parses one argument as a parameter:
the children appended and the rest -/
def argumentParseWith (pe : List Token → Option Constraint)
    (split : List Token → Option (Option (List Token × List Token))) (stack : List Token) :
    Option (List Constraint × List Token) :=
  match split stack with
  | none => none
  | some none => none
  | some (some (input, rem)) =>
    if input = [] then some ([], rem)
    else ((splitArgs input.length input).mapM pe).map (·, rem)

/-- circuitcompiler/parser.go:531-536: the indices of an array access; the fuel is the length of the list.
`success` is ignored: a missing bracket gives `nil, nil`, and `parseExpression(nil)` fails. -/
def indexLoop (pe : List Token → Option Constraint) : Nat → List Token → Option (List Constraint)
  | _, [] => some []
  | 0, _ => none
  | n + 1, ts => match splitSquare ts with
    | some (some (l, r)) => do
      let c ← pe l
      let cs ← indexLoop pe n r
      pure (c :: cs)
    | _ => none

/-- circuitcompiler/parser.go:437-542 `parseExpression` -/
def parseExpr : Nat → List Token → Option Constraint
  | 0, _ => none
  | n + 1, stack0 => do
    let stack ← stripOfBrackets stack0
    match stack with
    | [] => none
    | [t] => if t.type = .number ∨ t.type = .identifier then some (.mk t []) else none
    | t0 :: t1 :: more =>
      let stack := t0 :: t1 :: more
      match splitTopOp 0 0 [] stack with
      | some (l0, op, r0) => do
        let l ← stripOfBrackets l0
        let r ← stripOfBrackets r0
        let out : Token := ⟨.unassigned, combineString stack⟩
        if l.length = 1 ∧ r.length = 1 then
          let a ← parseExpr n l
          let b ← parseExpr n r
          pure (.mk out [.mk op [], a, b])
        else if l.length = 1 then
          let a ← parseExpr n l
          let b ← parseExpr n r
          pure (.mk out [.mk op [], a, .mk ⟨.unassigned, combineString r⟩ [b]])
        else if r.length = 1 then
          let a ← parseExpr n l
          let b ← parseExpr n r
          pure (.mk out [.mk op [], .mk ⟨.unassigned, combineString l⟩ [a], b])
        else
          let a ← parseExpr n l
          let b ← parseExpr n r
          pure (.mk out [.mk op [], a, b])
      | none =>
        if t0.type = .functionCall then
          match argumentParseWith (parseExpr n) splitRound (t1 :: more) with
          | some (args, []) => some (.mk t0 args)
          | _ => none
        else if t1.text = ['['] ∧ (t0 :: t1 :: more).getLast?.map Token.text = some [']'] then
          -- parser.go:530-536: the first split starts behind the opening bracket
          match splitSquare more with
          | some (some (l, r)) => do
            let c ← parseExpr n l
            let cs ← indexLoop (parseExpr n) r.length r
            pure (.mk ⟨.arrayCall, t0.text⟩ (c :: cs))
          | _ => none
        else none

/-- circuitcompiler/parser.go:437-542 `parseExpression`: every recursive call is on a shorter list -/
def parseExpression (stack : List Token) : Option Constraint := parseExpr (stack.length + 1) stack

/-- circuitcompiler/parser.go:545-569 `argumentParse` -/
def argumentParse := argumentParseWith parseExpression

/-! ### statements -/

/-- circuitcompiler/parser.go:424-433 `ArrayStringBuild`: the strings appended to `coll` -/
def arrayStringBuild : List Nat → List Char → List (List Char)
  | [], res => [res]
  | d :: ds, res => (List.range d).flatMap fun j => arrayStringBuild ds (res ++ '[' :: (Nat.toDigits 10 j ++ [']']))

/-- `strconv.ParseInt(s, 10, 64)` on a string of digits, required to be positive (parser.go:166-169) -/
def parseDim (s : List Char) : Option Nat :=
  if s ≠ [] ∧ s.all (fun c => '0' ≤ c && c ≤ '9') then
    let n := s.foldl (fun a c => 10 * a + (c.toNat - 48)) 0
    if 0 < n ∧ n < 2 ^ 63 then some n else none
  else none

/-- circuitcompiler/parser.go:157-187: one parameter of a function header -/
def header : Constraint → Option (List Constraint)
  | .mk o is =>
    if o.type = .arrayCall then do
      let dims ← is.mapM fun i => if i.output.type = .number then parseDim i.output.text else none
      pure ((arrayStringBuild dims []).map fun post => .mk ⟨.argument, o.text ++ post⟩ [])
    else if o.type = .identifier then some [.mk ⟨.argument, o.text⟩ is]
    else none

/-- circuitcompiler/parser.go:623-634 `isVariableAssignment` -/
def isVariableAssignment : List Token → Bool
  | a :: b :: _ :: _ => a.type == .identifier && b.type == .assignment
  | _ => false

/-- circuitcompiler/parser.go:602-621 `isArrayAssignment` -/
def isArrayAssignment : List Token → Bool
  | a :: b :: c :: d :: e :: _ =>
    a.type == .identifier && b.text == ['['] && c.text == [']'] && d.type == .assignment && e.text == ['{']
  | _ => false

/-- what a run of `statementMode` did: constraints sent, `done` closed -/
structure Sent where
  sent : List Constraint
  done : Bool
deriving Repr

/-- sequential composition -/
def Sent.then (a b : Sent) : Sent := ⟨a.sent ++ b.sent, a.done || b.done⟩

/-- a single constraint sent -/
def say (c : Constraint) : Sent := ⟨[c], false⟩

/-- `&Constraint{Output: Token{Type: t}}` -/
def marker (t : TokenType) (is : List Constraint := []) : Constraint := .mk ⟨t, []⟩ is

/-- circuitcompiler/parser.go:214-227: `handeFunc`, one branch of an if chain -/
def branch (sm : List Token → Option Sent) (skip : Nat) (withCond : Bool) (typ : TokenType) (rest : List Token) :
    Option (Sent × List Token) := do
  let (cond, rest) := splitAtText ['{'] rest
  let inputs ← if withCond then
      if cond.length < skip then none else do
        let c ← parseExpression (cond.drop skip)
        pure [c]
    else pure []
  match splitSwing rest with
  | some (some (body, rest)) => do
    let s ← sm body
    pure ((say (marker typ inputs)).then (s.then (say (marker .nestedEnd))), rest)
  | _ => none

/-- circuitcompiler/parser.go:231-235: the `else if` branches; `some true` if there was one.  `rest[0]` and `rest[1]`
panic when missing. -/
def elseIfs (sm : List Token → Option Sent) : Nat → Bool → List Token → Option (Sent × Bool × List Token)
  | _, _, [] => none
  | n, has, t :: ts =>
    if t.type = .elseT then
      match ts with
      | [] => none
      | u :: _ =>
        if u.type = .ifT then
          match n with
          | 0 => none
          | n + 1 => do
            let (s, rest) ← branch sm 2 true .elseT (t :: ts)
            let (s', has', rest) ← elseIfs sm n true rest
            pure (s.then s', has', rest)
        else some (⟨[], false⟩, has, t :: ts)
    else some (⟨[], false⟩, has, t :: ts)

/-- circuitcompiler/parser.go:208-247: the case `IF` -/
def ifChain (sm : List Token → Option Sent) (tokens : List Token) : Option (Sent × List Token) := do
  let (s, rest) ← branch sm 1 true .ifT tokens
  let (s', has, rest) ← elseIfs sm rest.length false rest
  let isElse := rest.head?.map Token.type == some .elseT
  if !isElse && has then none
  else do
    let (s'', rest) ← if isElse then branch sm 1 false .elseT rest else pure (⟨[], false⟩, rest)
    pure ((s.then (s'.then s'')).then (say (marker .ifElseEnd)), rest)

/-- circuitcompiler/parser.go:100-422 `statementMode`.  `readFile` gives the tokens of an imported file
(parser.go:132-140).  The fuel bounds the nesting of calls; without imports the length of the list suffices. -/
def statementMode (readFile : List Char → Option (List Token)) : Nat → List Token → Option Sent
  | 0, _ => none
  | n + 1, tokens0 =>
    let sm := statementMode readFile n
    let tokens := removeBreaks tokens0
    match tokens with
    | [] => some ⟨[], false⟩
    | t :: ts =>
      match t.type with
      | .eof => some ⟨[], true⟩
      | .publicT => -- parser.go:113-127
        match ts with
        | [] => none
        | u :: us => if u.text ≠ ['{'] then none else do
          let (args, rest) ← argumentParse splitSwing us
          let s ← sm rest
          pure ((⟨args.map fun (.mk o is) => .mk ⟨.publicT, o.text⟩ is, false⟩ : Sent).then s)
      | .imprt => -- parser.go:128-140
        match ts with
        | [] => none
        | u :: us => if u.type ≠ .identifier then none else do
          let file ← readFile u.text
          sm (file ++ us)
      | .functionDefine => -- parser.go:141-207
        match ts with
        | name :: open1 :: us => if open1.text ≠ ['('] then none else do
          let (args, rest) ← argumentParse splitRound us
          let params ← args.mapM header
          match rest with
          | [] => none
          | open2 :: body => if open2.text ≠ ['{'] then none else
            match splitSwing body with
            | some (some (l, r)) => do
              let s ← sm l
              let s' ← sm r
              pure ((say (.mk ⟨.functionDefine, name.text⟩ params.flatten)).then
                (s.then ((say (marker .nestedEnd)).then s')))
            | _ => none
        | _ => none
      | .ifT => do
        let (s, rest) ← ifChain sm tokens
        let s' ← sm rest
        pure (s.then s')
      | .forT => -- parser.go:248-320
        match ts with
        | [] => none
        | u :: us => if u.text ≠ ['('] then none else do
          let (l, r) := splitAtText [';'] us
          match r with
          | [] => none
          | _ :: r => do
            let cond ← parseExpression l
            match splitRound r with
            | some (some (l, r)) => if !isVariableAssignment l then none else do
              let (overload, expr) := splitAtText ['='] l
              let a ← parseExpression overload
              match expr with
              | [] => none
              | _ :: expr => do
                let b ← parseExpression expr
                match removeLeadingBreaks r with
                | [] => none
                | o :: r => if o.text ≠ ['{'] then none else
                  match splitSwing r with
                  | some (some (l, r)) => do
                    let s ← sm l
                    let s' ← sm r
                    pure ((say (marker .forT [cond, marker .varOverload [a, b]])).then
                      (s.then ((say (marker .nestedEnd)).then s')))
                  | _ => none
            | _ => none
      | .identifier => do -- parser.go:321-340
        let (l, r) := splitAtText ['\n'] tokens
        let (overload, expr) := splitAtText ['='] l
        let a ← parseExpression overload
        match expr with
        | [] => none
        | _ :: expr => do
          let b ← parseExpression expr
          let s ← sm r
          pure ((say (marker .varOverload [a, b])).then s)
      | .varDeclare => do -- parser.go:341-386
        let (l, r) := splitAtText ['\n'] tokens
        if isVariableAssignment ts then
          match ts with
          | x :: _ :: rem0 :: rem =>
            if rem0.type = .functionDefine then sm (rem0 :: x :: rem)
            else do
              let e ← parseExpression (l.drop 3)
              let s ← sm r
              pure ((say (.mk ⟨.varDeclare, x.text⟩ [e])).then s)
          | _ => none
        else if isArrayAssignment (l.drop 1) then do
          let (args, rest) ← argumentParse splitSwing (l.drop 5)
          if rest ≠ [] then none else do
            let s ← sm r
            pure ((say (.mk ⟨.arrayDeclare, ((l.drop 1).head?.map Token.text).getD []⟩ args)).then s)
        else some ⟨[], false⟩
      | .ret => do -- parser.go:387-403
        let (l, r) := splitAtText ['\n'] tokens
        let inputs ← if 1 < l.length then do
            let e ← parseExpression (l.drop 1)
            pure [e]
          else pure []
        if removeBreaks r ≠ [] then none else pure (say (marker .ret inputs))
      | .functionCall => do -- parser.go:404-417
        let (args, rest) ← argumentParse splitRound ts
        match rest with
        | [] => do
          let s ← sm []
          pure ((say (.mk t args)).then s)
        | u :: _ => if u.text ≠ ['\n'] then none else do
          let s ← sm rest
          pure ((say (.mk t args)).then s)
      | _ => none

end APS.Parse
