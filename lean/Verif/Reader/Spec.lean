import Verif.Dsl.Spec
/-!
# Reading C++

A reader of the part of C++ that the spec compiler's match functions use: from characters to tokens, and from tokens
to the tree of `Dsl/Cpp.lean`.  This is a specification: it models the C++ language ([lex], [expr.prim], [stmt]), not
code of /repo.

Simplifications.
* Character literals, comments, preprocessor lines, prefixes of string literals, raw strings and exponents with a sign
  are refused or not known: the generated text holds none of them unless a symbol of the description does.
* Operators are single characters except `::` and `&&`; `>>` is two tokens, as it is at the end of template arguments.
* Expressions are those that are generated: numbers, strings and (qualified) names.  A number may have a minus sign,
  but is then not called and has no members, since the sign applies last.
-/
namespace Nbdl.Reader
open Nbdl.Dsl

/-! ### Tokens -/

/-- A token: a word (identifier or keyword), a number ("pp-number" of [lex.ppnumber]), the inside of a string literal,
an operator. -/
inductive Tok where
  | word (t : Text)
  | num (t : Text)
  | str (t : Text)
  | op (t : Text)
  deriving DecidableEq, Repr

/-- Inside which token the reader is. -/
inductive Lex where
  | idle
  | word (w : Text)
  | num (w : Text)
  | str (w : Text)
  | esc (w : Text)
  | colon
  | amp
  | dot
  deriving DecidableEq, Repr

/-- Begins an identifier. -/
def wordStart (c : Char) : Bool := c.isAlpha || c == '_'

/-- Continues an identifier. -/
def wordChar (c : Char) : Bool := c.isAlphanum || c == '_'

/-- A character at the beginning of a token. -/
def stepIdle (c : Char) : Option (List Tok × Lex) :=
  if wordStart c then some ([], .word [c])
  else if c.isDigit then some ([], .num [c])
  else if c = '"' then some ([], .str [])
  else if c = ':' then some ([], .colon)
  else if c = '&' then some ([], .amp)
  else if c = '.' then some ([], .dot)
  else if c = ' ' ∨ c = '\n' ∨ c = '\t' ∨ c = '\r' then some ([], .idle)
  else if c = '\'' ∨ c = '/' ∨ c = '#' ∨ c = '\\' then none
  else some ([.op [c]], .idle)

/-- The token before a character which does not belong to it, then the character. -/
def after (t : Tok) (c : Char) : Option (List Tok × Lex) :=
  (stepIdle c).map fun r => (t :: r.1, r.2)

/-- One character: the tokens that are finished by it.  A token is as long as can be. -/
def step : Lex → Char → Option (List Tok × Lex)
  | .idle, c => stepIdle c
  | .word w, c =>
    if wordChar c then some ([], .word (w ++ [c])) else if c = '"' then none else after (.word w) c
  | .num w, c =>
    if wordChar c ∨ c = '.' then some ([], .num (w ++ [c])) else after (.num w) c
  | .str w, c =>
    if c = '"' then some ([.str w], .idle)
    else if c = '\\' then some ([], .esc w)
    else if c = '\n' then none
    else some ([], .str (w ++ [c]))
  | .esc w, c => if c = '\n' then none else some ([], .str (w ++ ['\\', c]))
  | .colon, c => if c = ':' then some ([.op (tx "::")], .idle) else after (.op (tx ":")) c
  | .amp, c => if c = '&' then some ([.op (tx "&&")], .idle) else after (.op (tx "&")) c
  | .dot, c => if c.isDigit then some ([], .num ['.', c]) else after (.op (tx ".")) c

/-- Characters one after the other. -/
def run (s : Lex) : Text → Option (List Tok × Lex)
  | [] => some ([], s)
  | c :: cs =>
    match step s c with
    | none => none
    | some (ts, s) =>
      match run s cs with
      | none => none
      | some (us, s) => some (ts ++ us, s)

/-- The token which ends with the text. -/
def flush : Lex → Option (List Tok)
  | .idle => some []
  | .word w => some [.word w]
  | .num w => some [.num w]
  | .str _ => none
  | .esc _ => none
  | .colon => some [.op (tx ":")]
  | .amp => some [.op (tx "&")]
  | .dot => some [.op (tx ".")]

/-- The tokens of a text. -/
def lex (t : Text) : Option (List Tok) :=
  match run .idle t with
  | none => none
  | some (ts, s) => (flush s).map (ts ++ ·)

/-! ### Expressions -/

/-- The keywords of C++ ([lex.key]) except those which are expressions: `true`, `false`, `nullptr`, `this`. -/
def keywords : List Text :=
  ["alignas", "alignof", "asm", "auto", "bool", "break", "case", "catch", "char", "char8_t", "char16_t", "char32_t",
   "class", "concept", "const", "consteval", "constexpr", "constinit", "const_cast", "continue", "co_await",
   "co_return", "co_yield", "decltype", "default", "delete", "do", "double", "dynamic_cast", "else", "enum",
   "explicit", "export", "extern", "float", "for", "friend", "goto", "if", "inline", "int", "long", "mutable",
   "namespace", "new", "noexcept", "operator", "private", "protected", "public", "register", "reinterpret_cast",
   "requires", "return", "short", "signed", "sizeof", "static", "static_assert", "static_cast", "struct", "switch",
   "template", "thread_local", "throw", "try", "typedef", "typeid", "typename", "union", "unsigned", "using",
   "virtual", "void", "volatile", "wchar_t", "while", "and", "and_eq", "bitand", "bitor", "compl", "not", "not_eq",
   "or", "or_eq", "xor", "xor_eq"].map tx

/-- The generated name a word is. -/
def nameOf (w : Text) : Option Name :=
  [Kind.arg, .get, .result].findSome? fun k =>
    let x : Name := ⟨k, Nat.ofDigitChars 10 (w.drop k.text.length) 0⟩
    if x.text = w then some x else none

/-- The number a token is: decimal, without a superfluous zero (which would make it octal). -/
def natOf (t : Text) : Option Nat :=
  let n := Nat.ofDigitChars 10 t 0
  if (toString n).toList = t then some n else none

/-- The rest of a qualified name. -/
def qualified (acc : Text) : List Tok → Option (Text × List Tok)
  | .op t :: .word w :: r =>
    if t = tx "::" then
      if w ∈ keywords then none else qualified (acc ++ (tx "::" ++ w)) r
    else some (acc, .op t :: .word w :: r)
  | r => some (acc, r)

/-- A string or a name: what may be called or have members. -/
def readPrimary : List Tok → Option (CExpr × List Tok)
  | .str t :: r => some (.str t, r)
  | .word w :: r =>
    if w ∈ keywords then none else
      match qualified w r with
      | none => none
      | some (q, r) =>
        if q = w then
          match nameOf w with
          | some x => some (.name x, r)
          | none => some (.raw w, r)
        else some (.raw q, r)
  | .op t :: .word w :: r =>
    if t = tx "::" then
      if w ∈ keywords then none else (qualified (tx "::" ++ w) r).map fun q => (.raw q.1, q.2)
    else none
  | _ => none

/-- An expression. -/
def readExpr : List Tok → Option (CExpr × List Tok)
  | .num t :: r => (natOf t).map fun n => (.int n, r)
  | .op t :: .num n :: r =>
    if t = tx "-" then (natOf n).map fun n => (.int (-n), r) else none
  | r => readPrimary r

/-- One operator. -/
def expect (t : String) : List Tok → Option (List Tok)
  | .op u :: r => if u = tx t then some r else none
  | _ => none

/-- One word. -/
def expectWord (t : String) : List Tok → Option (List Tok)
  | .word u :: r => if u = tx t then some r else none
  | _ => none

/-- Several tokens. -/
def expectAll : List Tok → List Tok → Option (List Tok)
  | [], r => some r
  | t :: ts, u :: r => if t = u then expectAll ts r else none
  | _ :: _, [] => none

/-- The rest of an argument list, which holds at least one argument, up to the closing parenthesis. -/
def readArgs1 : Nat → List Tok → Option (List CExpr × List Tok)
  | 0, _ => none
  | n + 1, ts =>
    match readExpr ts with
    | none => none
    | some (e, r) =>
      match expect "," r with
      | some r => (readArgs1 n r).map fun q => (e :: q.1, q.2)
      | none => (expect ")" r).map fun r => ([e], r)

/-- An argument list after the opening parenthesis. -/
def readArgs (n : Nat) (ts : List Tok) : Option (List CExpr × List Tok) :=
  match expect ")" ts with
  | some r => some ([], r)
  | none => readArgs1 n ts

/-- A word that is no keyword. -/
def readWord : List Tok → Option (Text × List Tok)
  | .word w :: r => if w ∈ keywords then none else some (w, r)
  | _ => none

/-- A generated name, as the name of a variable. -/
def readName : List Tok → Option (Name × List Tok)
  | .word w :: r => (nameOf w).map fun x => (x, r)
  | _ => none

/-! ### Statements -/

/-- `::nbdl::get(` -/
def getToks : List Tok := [.op (tx "::"), .word (tx "nbdl"), .op (tx "::"), .word (tx "get"), .op (tx "(")]

/-- `::nbdl::match(` -/
def matchToks : List Tok := [.op (tx "::"), .word (tx "nbdl"), .op (tx "::"), .word (tx "match"), .op (tx "(")]

/-- `boost::hana::overload(` -/
def overloadToks : List Tok :=
  [.word (tx "boost"), .op (tx "::"), .word (tx "hana"), .op (tx "::"), .word (tx "overload"), .op (tx "(")]

/-- `[&]([[maybe_unused]]` -/
def lambdaToks : List Tok :=
  [.op (tx "["), .op (tx "&"), .op (tx "]"), .op (tx "("), .op (tx "["), .op (tx "["), .word (tx "maybe_unused"),
   .op (tx "]"), .op (tx "]")]

/-- `::nbdl::SameAs<` -/
def sameAsToks : List Tok := [.op (tx "::"), .word (tx "nbdl"), .op (tx "::"), .word (tx "SameAs"), .op (tx "<")]

/-- `auto&&` -/
def autoToks : List Tok := [.word (tx "auto"), .op (tx "&&")]

/-- An expression that is called, has a member or has a member called; with the name of the variable it is bound to. -/
def readCall (n : Nat) (x : Option Name) (ts : List Tok) : Option (CStmt × List Tok) :=
  match readPrimary ts with
  | none => none
  | some (o, r) =>
    match expect "(" r with
    | some r =>
      match readArgs n r with
      | none => none
      | some (as, r) => (expect ";" r).map fun r => (.call x o as, r)
    | none =>
      match expect "." r with
      | none => none
      | some r =>
        match readWord r with
        | none => none
        | some (m, r) =>
          match expect "(" r with
          | some r =>
            match readArgs n r with
            | none => none
            | some (as, r) => (expect ";" r).map fun r => (.mcall x o m as, r)
          | none =>
            match x with
            | none => none
            | some x => (expect ";" r).map fun r => (.member x o m, r)

/-- What follows `auto&& x =`. -/
def readInit (n : Nat) (x : Name) (ts : List Tok) : Option (CStmt × List Tok) :=
  match expectAll getToks ts with
  | some r =>
    match readArgs1 n r with
    | some ([o], r) => (expect ";" r).map fun r => (.get x o none, r)
    | some ([o, k], r) => (expect ";" r).map fun r => (.get x o (some k), r)
    | _ => none
  | none => readCall n (some x) ts

/-- The text of tokens, with a blank only where two words would run together. -/
def untok : List Tok → Text
  | [] => []
  | [.word w] => w
  | [.num w] => w
  | .word w :: .word v :: r => w ++ (tx " " ++ untok (.word v :: r))
  | .word w :: .num v :: r => w ++ (tx " " ++ untok (.num v :: r))
  | .num w :: .word v :: r => w ++ (tx " " ++ untok (.word v :: r))
  | .num w :: .num v :: r => w ++ (tx " " ++ untok (.num v :: r))
  | .word w :: r => w ++ untok r
  | .num w :: r => w ++ untok r
  | .str w :: r => '"' :: (w ++ ('"' :: untok r))
  | .op w :: r => w ++ untok r

/-- Template arguments up to the closing bracket; `d` brackets are open inside of them. -/
def readType (d : Nat) : List Tok → Option (List Tok × List Tok)
  | [] => none
  | t :: r =>
    if t = .op (tx ">") then
      match d with
      | 0 => some ([], r)
      | d + 1 => (readType d r).map fun q => (t :: q.1, q.2)
    else if t = .op (tx "<") then (readType (d + 1) r).map fun q => (t :: q.1, q.2)
    else (readType d r).map fun q => (t :: q.1, q.2)

/-- The constraint of a lambda's parameter, if there is one. -/
def readConstraint (ts : List Tok) : Option (Text × List Tok) :=
  match expectAll sameAsToks ts with
  | none => some ([], ts)
  | some r => (readType 0 r).map fun q => (untok q.1, q.2)

/-- The head of a lambda, up to the opening brace: type and parameter. -/
def readHead (ts : List Tok) : Option ((Text × Name) × List Tok) := do
  let r ← expectAll lambdaToks ts
  let (type, r) ← readConstraint r
  let r ← expectAll autoToks r
  let (x, r) ← readName r
  let r ← expectAll [.op (tx ")"), .op (tx "{")] r
  some ((type, x), r)

/-- A condition, from the opening parenthesis to the opening brace. -/
def readCond (ts : List Tok) : Option (CExpr × List Tok) := do
  let r ← expect "(" ts
  let (c, r) ← readExpr r
  let r ← expectAll [.op (tx ")"), .op (tx "{")] r
  some (c, r)

/-- Store and key of a match, up to the comma before the visitor, which begins with a bracket or with
`boost::hana::overload(`. -/
def readMatched (ts : List Tok) : Option ((CExpr × Option CExpr) × List Tok) := do
  let (s, r) ← readExpr ts
  let r ← expect "," r
  if (expect "[" r).isSome ∨ (expectAll overloadToks r).isSome then some ((s, none), r)
  else
    let (k, r) ← readExpr r
    let r ← expect "," r
    some ((s, some k), r)

mutual
/-- A statement. -/
def readStmt : Nat → List Tok → Option (CStmt × List Tok)
  | 0, _ => none
  | n + 1, ts =>
    match expectAll matchToks ts with
    | some r => do
      let ((s, k), r) ← readMatched r
      match expectAll overloadToks r with
      | some r =>
        let (ls, r) ← readLambdas n r
        let r ← expectAll [.op (tx ")"), .op (tx ";")] r
        some (.matchAll s k ls, r)
      | none =>
        let (l, r) ← readLambda n r
        let r ← expectAll [.op (tx ")"), .op (tx ";")] r
        some (.matchOne s k l, r)
    | none =>
      match expectWord "if" ts with
      | some r => do
        let (c, r) ← readCond r
        let (t, r) ← readStmts n r
        let r ← expectWord "else" r
        let (e, r) ← readElse n r
        some (.ite c t e, r)
      | none =>
        match expectAll autoToks ts with
        | some r => do
          let (x, r) ← readName r
          let r ← expect "=" r
          readInit n x r
        | none =>
          match expectAll [.op (tx "("), .word (tx "void"), .op (tx ")")] ts with
          | some r => do
            let (e, r) ← readExpr r
            let r ← expect ";" r
            some (.void e, r)
          | none => readCall n none ts

/-- What follows `else`. -/
def readElse : Nat → List Tok → Option (CElse × List Tok)
  | 0, _ => none
  | n + 1, ts =>
    match expectWord "if" ts with
    | some r => do
      let (c, r) ← readCond r
      let (t, r) ← readStmts n r
      let r ← expectWord "else" r
      let (e, r) ← readElse n r
      some (.chain c t e, r)
    | none => do
      let r ← expect "{" ts
      let (b, r) ← readStmts n r
      some (.block b, r)

/-- Statements up to the closing brace. -/
def readStmts : Nat → List Tok → Option (List CStmt × List Tok)
  | 0, _ => none
  | n + 1, ts =>
    match expect "}" ts with
    | some r => some ([], r)
    | none => do
      let (s, r) ← readStmt n ts
      let (ss, r) ← readStmts n r
      some (s :: ss, r)

/-- A lambda. -/
def readLambda : Nat → List Tok → Option (Lambda × List Tok)
  | 0, _ => none
  | n + 1, ts => do
    let ((type, x), r) ← readHead ts
    let (b, r) ← readStmts n r
    some (.mk type x b, r)

/-- Lambdas with commas, up to the closing parenthesis. -/
def readLambdas : Nat → List Tok → Option (List Lambda × List Tok)
  | 0, _ => none
  | n + 1, ts => do
    let (l, r) ← readLambda n ts
    match expect "," r with
    | some r =>
      let (ls, r) ← readLambdas n r
      some (l :: ls, r)
    | none =>
      let r ← expect ")" r
      some ([l], r)
end

/-- Parameters up to the closing parenthesis. -/
def readParams : Nat → List Tok → Option (List Name × List Tok)
  | 0, _ => none
  | n + 1, ts => do
    let r ← expectAll autoToks ts
    let (x, r) ← readName r
    match expect "," r with
    | some r =>
      let (xs, r) ← readParams n r
      some (x :: xs, r)
    | none =>
      let r ← expect ")" r
      some ([x], r)

/-- A function, which ends with its tokens. -/
def readFuncToks (n : Nat) (ts : List Tok) : Option CFunc := do
  let r ← expectWord "void" ts
  let (f, r) ← readWord r
  let r ← expect "(" r
  let (xs, r) ← readParams n r
  let r ← expect "{" r
  let (b, r) ← readStmts n r
  match r with
  | [] => some ⟨f, xs, b⟩
  | _ => none

/-- The function a text is in C++; `none` if it is none, as far as this reader knows.  (No part of the text nests deeper
than it has tokens.) -/
def readFunc (t : Text) : Option CFunc :=
  match lex t with
  | none => none
  | some ts => readFuncToks (ts.length + 1) ts

/-! ### Descriptions which can be read -/

/-- A name that is no keyword. -/
def plainWord (t : Text) : Prop := identifier t = true ∧ t ∉ keywords

/-- No quote, backslash or line end. -/
def plainString (s : Text) : Prop := ∀ c ∈ s, c ≠ '"' ∧ c ≠ '\\' ∧ c ≠ '\n'

/-- A symbol which is a name, or names with `::` between them, possibly with `::` before them; not one of the names
`arg_0`, `get_1`, … that are made up for variables, and not `::nbdl::get` or `::nbdl::match`. -/
def plainSymbol (t : Text) : Prop :=
  ∃ (lead : Bool) (w : Text) (ws : List Text), plainWord w ∧ (∀ v ∈ ws, plainWord v) ∧
    t = (if lead then tx "::" else []) ++ separated (tx "::") (w :: ws) ∧
    (lead = false → ws = [] → nameOf w = none) ∧ t ≠ tx "::nbdl::get" ∧ t ≠ tx "::nbdl::match"

/-- The type of a clause: nothing (`else`), or tokens with blanks only where needed, in which angle brackets are
balanced. -/
def plainType (t : Text) : Prop :=
  t = [] ∨ ∃ ts, lex t = some ts ∧ untok ts = t ∧ readType 0 (ts ++ [.op (tx ">")]) = some (ts, [])

mutual
/-- An expression all of whose parts can be read.  What is called, and what has a member called, is no number. -/
def plainExpr : Expr → Prop
  | .var _ => True
  | .sym t =>
    match memberName t with
    | some m => plainWord m
    | none => plainSymbol t
  | .num _ => True
  | .str s => plainString s
  | .path _ keys => plainExprs keys
  | .visit callee args =>
    plainExpr callee ∧ plainExprs args ∧ (∀ i, callee ≠ .num i) ∧
      ((calleeMember callee).isSome = true → ∀ i, args.head? ≠ some (.num i))

/-- Several expressions. -/
def plainExprs : List Expr → Prop
  | [] => True
  | e :: es => plainExpr e ∧ plainExprs es
end

mutual
/-- A statement all of whose parts can be read. -/
def plainStmt : Stmt → Prop
  | .call args => plainExprs args
  | .visit callee args => plainExpr (.visit callee args)
  | .matchPath path clauses => plainExpr path ∧ plainClauses clauses
  | .matchIf cond thn els => plainExpr cond ∧ plainStmts thn ∧ plainStmts els
  | .noop _ => True

/-- Several statements. -/
def plainStmts : List Stmt → Prop
  | [] => True
  | s :: ss => plainStmt s ∧ plainStmts ss

/-- The clauses of a match. -/
def plainClauses : List Clause → Prop
  | [] => True
  | .mk type _ body :: cs => plainType type ∧ plainStmts body ∧ plainClauses cs
end

/-- A function all of whose parts can be read. -/
def plainFn (f : Fn) : Prop := plainWord f.name ∧ plainStmts f.body

end Nbdl.Reader
