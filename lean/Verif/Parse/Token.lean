import Verif.Exec

/-!
# `tokenize` (`src/lib/compiler/parse.c:185-440`)

The cursor is represented by the text that is left.  A token carries its text, which the parser reads
through `ctx->src + token->offset`.  Simplifications: memory does not run out; the text is shorter than
2^31 bytes; characters beyond ASCII are neither letters nor digits nor spaces; the error messages and
offsets are left out.  `past` is the byte after the end of the text: NUL for files and not set for
`Source_FromString`.
-/

namespace Noja.Parse

def isAlpha (c : UInt8) : Bool := (65 ≤ c && c ≤ 90) || (97 ≤ c && c ≤ 122)
def isDigit (c : UInt8) : Bool := 48 ≤ c && c ≤ 57
def isSpace (c : UInt8) : Bool := (9 ≤ c && c ≤ 13) || c == 32

/-- parse.c:151-159 `isoper`: `+ - * / < > ! = , | %` -/
def isOper (c : UInt8) : Bool :=
  c == 43 || c == 45 || c == 42 || c == 47 || c == 60 || c == 62 || c == 33 || c == 61 || c == 44 || c == 124 || c == 37

/-- parse.c:226 -/
def identChar (c : UInt8) : Bool := isAlpha c || isDigit c || c == 95

/-- parse.c:221 -/
def identStart (c : UInt8) : Bool := isAlpha c || c == 95

/-- parse.c:69-123 `TokenKind`; a kind that is a character is `ch`. -/
inductive Kind where
  | ch (c : UInt8)
  | done | int | float | string | ident
  | kwIf | kwFun | kwNot | kwAnd | kwOr | kwElse | kwNone | kwTrue | kwFalse | kwReturn | kwWhile | kwBreak | kwDo
  | eql | nql | leq | geq | arw
deriving DecidableEq, Repr

/-- parse.c:126-130 `Token`. -/
structure Token where
  kind : Kind
  off : Int
  text : List UInt8
deriving DecidableEq, Repr

def Token.len (t : Token) : Int := t.text.length

def bytes (s : String) : List UInt8 := s.toList.map fun c => c.toNat.toUInt8

/-- parse.c:237-251 `kwords`. -/
def kwords : List (List UInt8 × Kind) :=
  [(bytes "if", .kwIf), (bytes "fun", .kwFun), (bytes "not", .kwNot), (bytes "and", .kwAnd), (bytes "or", .kwOr),
    (bytes "else", .kwElse), (bytes "none", .kwNone), (bytes "true", .kwTrue), (bytes "false", .kwFalse),
    (bytes "return", .kwReturn), (bytes "while", .kwWhile), (bytes "break", .kwBreak), (bytes "do", .kwDo)]

/-- parse.c:339-355 `optable`. -/
def optable : List (List UInt8 × Kind) :=
  [(bytes "+", .ch 43), (bytes "-", .ch 45), (bytes "*", .ch 42), (bytes "/", .ch 47), (bytes "==", .eql),
    (bytes "!=", .nql), (bytes "<", .ch 60), (bytes "<=", .leq), (bytes ">", .ch 62), (bytes ">=", .geq),
    (bytes "=", .ch 61), (bytes ",", .ch 44), (bytes "|", .ch 124), (bytes "%", .ch 37), (bytes "->", .arw)]

/-- parse.c:199-211: whitespace and comments. -/
def skipBlank : Nat → List UInt8 → Exec (List UInt8)
  | 0, _ => .diverge
  | n + 1, t =>
    match t with
    | [] => .ok []
    | c :: _ =>
      if isSpace c || c == 35 then
        match t.dropWhile isSpace with
        | 35 :: r => skipBlank n (r.dropWhile (· != 10))
        | r => skipBlank n r
      else .ok t

/-- parse.c:293-316: a string literal after the opening quote `f`; the text after the closing quote.
At the end of the text line 298 reads the byte beyond it. -/
def scanString (past f : UInt8) : Nat → List UInt8 → Exec (List UInt8)
  | 0, _ => .diverge
  | n + 1, t =>
    match t.dropWhile fun c => c != 92 && c != f with
    | [] => if past = 92 then .ub else .err
    | c :: r =>
      if c = 92 then
        match r with
        | [] => scanString past f n []
        | d :: r' => if d = 39 || d = 34 || d = 92 then scanString past f n r' else scanString past f n r
      else .ok r

/-- What follows digits: a fraction, if there is a dot and a digit (parse.c:268-276). -/
def afterDigits (t : List UInt8) : Kind × List UInt8 :=
  match t.dropWhile isDigit with
  | 46 :: d :: r => if isDigit d then (.float, (d :: r).dropWhile isDigit) else (.int, 46 :: d :: r)
  | r => (.int, r)

/-- parse.c:221-390: one token at the start of a text: its kind and the text after it. -/
def lexOne (past : UInt8) (t : List UInt8) : Exec (Kind × List UInt8) :=
  match t with
  | [] => .ub
  | c :: r =>
    if identStart c then
      .ok ((kwords.lookup (t.takeWhile identChar)).getD .ident, t.dropWhile identChar)
    else if isDigit c then .ok (afterDigits t)
    else if c = 39 || c = 34 then do
      let r ← scanString past c (r.length + 2) r
      .ok (.string, r)
    else if isOper c then
      match optable.lookup (t.takeWhile isOper) with
      | some k => .ok (k, t.dropWhile isOper)
      | none => .ok (.ch c, r)
    else .ok (.ch c, r)

/-- parse.c:196-410: the main loop; `size` is the length of the whole text. -/
def tokenizeLoop (past : UInt8) (size : Nat) : Nat → List UInt8 → Exec (List Token)
  | 0, _ => .diverge
  | n + 1, t => do
    let t ← skipBlank (t.length + 1) t
    match t with
    | [] => .ok [⟨.done, size, []⟩]
    | c :: r => do
      let (k, r') ← lexOne past (c :: r)
      let ts ← tokenizeLoop past size n r'
      .ok (⟨k, (size : Int) - (c :: r).length, (c :: r).take ((c :: r).length - r'.length)⟩ :: ts)

/-- parse.c:185-408 `tokenize`. -/
def tokenize (past : UInt8) (t : List UInt8) : Exec (List Token) :=
  tokenizeLoop past t.length (t.length + 1) t

example : (tokenize 0 (bytes "x <= 12.5; # c\n f('a\\'b')->g")) =
    .ok [⟨.ident, 0, bytes "x"⟩, ⟨.leq, 2, bytes "<="⟩, ⟨.float, 5, bytes "12.5"⟩, ⟨.ch 59, 9, bytes ";"⟩,
      ⟨.ident, 16, bytes "f"⟩, ⟨.ch 40, 17, bytes "("⟩, ⟨.string, 18, bytes "'a\\'b'"⟩, ⟨.ch 41, 24, bytes ")"⟩,
      ⟨.arw, 25, bytes "->"⟩, ⟨.ident, 27, bytes "g"⟩, ⟨.done, 28, []⟩] := by decide +kernel

end Noja.Parse
