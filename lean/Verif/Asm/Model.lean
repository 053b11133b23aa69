import Verif.Exe.Builder
import Verif.Util.Labels

/-!
# `src/lib/assembler/assemble.c`

The cursor is represented by the text that is left.  Simplifications: memory does not run out; which
error is reported and where is left out, except that "Missing opcode" is reported without stopping;
characters beyond ASCII are neither letters nor digits nor spaces; the value of a floating-point
literal is a parameter (`flt`), and so is the byte after the end of the text (`past`), which is NUL
for files and not set for `Source_FromString`.
-/

namespace Noja.Asm

open Exe (Opcode Opd Builder Executable)

def isAlpha (c : UInt8) : Bool := (65 ≤ c && c ≤ 90) || (97 ≤ c && c ≤ 122)
def isDigit (c : UInt8) : Bool := 48 ≤ c && c ≤ 57
def isSpace (c : UInt8) : Bool := (9 ≤ c && c ≤ 13) || c == 32

/-- assemble.c:19. -/
def identChar (c : UInt8) : Bool := isAlpha c || isDigit c || c == 95

/-- The first character of an identifier. -/
def identStart (c : UInt8) : Bool := isAlpha c || c == 95

/-- assemble.c:17-21 `skipIdentifier`. -/
def skipIdentifier (t : List UInt8) : List UInt8 := t.dropWhile identChar

/-- The text `skipIdentifier` passes over. -/
def identifier (t : List UInt8) : List UInt8 := t.takeWhile identChar

/-- assemble.c:23-27 `skipSpaces`. -/
def skipSpaces (t : List UInt8) : List UInt8 := t.dropWhile isSpace

/-- What `parseLabelAndOpcode` returns: the label, the opcode, the text from the opcode on, the text
after it, and whether an error was reported. -/
structure Head where
  label : Option (List UInt8)
  opcode : List UInt8
  start : List UInt8
  rest : List UInt8
  occurred : Bool

/-- assemble.c:34-100 `parseLabelAndOpcode`; the text is not empty.  After the error of line 62 it
goes on. -/
def parseLabelAndOpcode (t : List UInt8) : Exec Head :=
  match t with
  | [] => .ub
  | c :: _ =>
    let occurred := !identStart c
    let word := identifier t
    let after := skipSpaces (skipIdentifier t)
    match after with
    | 58 :: r =>
      let start := skipSpaces r
      match start with
      | [] => .err
      | c :: _ =>
        if identStart c then
          .ok ⟨some word, identifier start, start, skipSpaces (skipIdentifier start), occurred⟩
        else .err
    | _ => .ok ⟨none, word, t, after, occurred⟩

/-- assemble.c:133-145. -/
def unescape : UInt8 → Option UInt8
  | 110 => some 10
  | 116 => some 9
  | 114 => some 13
  | 34 => some 34
  | 92 => some 92
  | _ => none

/-- assemble.c:111-157: the loop of `parseStringOperand`, after the opening quote. -/
def stringLoop : Nat → List UInt8 → List UInt8 → Exec (List UInt8 × List UInt8)
  | 0, _, _ => .diverge
  | n + 1, t, buffer =>
    let seg := t.takeWhile fun c => c != 92 && c != 34
    let r := t.dropWhile fun c => c != 92 && c != 34
    if buffer.length + seg.length > 1024 then .err
    else do
      let (buffer, r) ← (match r with
        | 92 :: r =>
          match r with
          | [] => .err
          | e :: r =>
            match unescape e with
            | none => .err
            | some c =>
              if (buffer ++ seg).length + 1 > 1024 then .err
              else .ok (buffer ++ seg ++ [c], r)
        | r => .ok (buffer ++ seg, r) : Exec (List UInt8 × List UInt8))
      match r with
      | [] => .err
      | c :: r' => if c = 34 then .ok (buffer, r') else stringLoop n r buffer

/-- assemble.c:104-184 `parseStringOperand`; the operand is a C string. -/
def parseStringOperand (t : List UInt8) : Exec (Opd × List UInt8) := do
  let (s, r) ← stringLoop (t.length + 1) t.tail []
  .ok (.str (s.takeWhile (· ≠ 0)), r)

/-- assemble.c:199-215: the loop of `parseIntegerOperand`. -/
def intLoop : List UInt8 → Int → Exec (Int × List UInt8)
  | [], _ => .ub
  | c :: r, buffer =>
    let d : Int := c.toNat - 48
    if buffer > (9223372036854775807 - d) / 10 then .err
    else if (r.head?.map isDigit).getD false then intLoop r (buffer * 10 + d)
    else .ok (buffer * 10 + d, r)

/-- assemble.c:186-225 `parseIntegerOperand`. -/
def parseIntegerOperand (t : List UInt8) : Exec (Opd × List UInt8) :=
  match t with
  | 43 :: r => do
    let (v, r) ← intLoop r 0
    .ok (.int v, r)
  | 45 :: r => do
    let (v, r) ← intLoop r 0
    .ok (.int (-1 * v), r)
  | t => do
    let (v, r) ← intLoop t 0
    .ok (.int v, r)

/-- assemble.c:227-279 `parseFloatingOperand`: sign, digits, dot, digits. -/
def parseFloatingOperand (flt : Bool → List UInt8 → List UInt8 → BitVec 64) (t : List UInt8) : Exec (Opd × List UInt8) :=
  let neg := t.head? == some 45
  let t := if t.head? == some 45 || t.head? == some 43 then t.tail else t
  let frac := (t.dropWhile isDigit).tail
  .ok (.float (flt neg (t.takeWhile isDigit) (frac.takeWhile isDigit)), frac.dropWhile isDigit)

/-- assemble.c:298-319: an integer or floating-point operand. -/
def parseNumber (flt : Bool → List UInt8 → List UInt8 → BitVec 64) (t : List UInt8) : Exec (Opd × List UInt8) :=
  let signed := t.head? == some 45 || t.head? == some 43
  let k := if signed then t.tail else t
  if signed && !((k.head?.map isDigit).getD false) then .err
  else
    match k.dropWhile isDigit with
    | 46 :: c :: _ => if isDigit c then parseFloatingOperand flt t else parseIntegerOperand t
    | _ => parseIntegerOperand t

/-- assemble.c:288-346: one operand. -/
def parseOperand (flt : Bool → List UInt8 → List UInt8 → BitVec 64) (past : UInt8) (t : List UInt8) (ll : Labels.LL) :
    Exec (Opd × List UInt8 × Labels.LL) :=
  match t with
  | [] => if past = 34 || isDigit past || past = 45 || past = 43 || identStart past then .ub else .err
  | c :: _ =>
    if c = 34 then do
      let (o, r) ← parseStringOperand t
      .ok (o, r, ll)
    else if isDigit c || c = 45 || c = 43 then do
      let (o, r) ← parseNumber flt t
      .ok (o, r, ll)
    else if identStart c then do
      let (ll, p) ← Labels.getLabel ll (identifier t)
      .ok (.promise p, skipIdentifier t, ll)
    else .err

/-- assemble.c:286-371: the loop of `parseOperands`. -/
def operandLoop (flt : Bool → List UInt8 → List UInt8 → BitVec 64) (past : UInt8) :
    Nat → List UInt8 → List Opd → Labels.LL → Exec (List Opd × List UInt8 × Labels.LL)
  | 0, _, _, _ => .diverge
  | n + 1, t, opv, ll => do
    let (o, r, ll) ← parseOperand flt past t ll
    if opv.length = 8 then .err
    else
      match skipSpaces r with
      | [] => .ok (opv ++ [o], [], ll)
      | c :: r =>
        if c = 59 then .ok (opv ++ [o], c :: r, ll)
        else if c = 44 then operandLoop flt past n (skipSpaces r) (opv ++ [o]) ll
        else .err

/-- assemble.c:281-377 `parseOperands`. -/
def parseOperands (flt : Bool → List UInt8 → List UInt8 → BitVec 64) (past : UInt8) (t : List UInt8) (ll : Labels.LL) :
    Exec (List Opd × List UInt8 × Labels.LL) :=
  match t with
  | [] => .ok ([], [], ll)
  | c :: _ => if c = 59 then .ok ([], t, ll) else operandLoop flt past (t.length + 1) t [] ll

def bytes (s : String) : List UInt8 := s.toList.map fun c => c.toNat.toUInt8

/-- executable.c:80-123, the names. -/
def opName : Opcode → List UInt8
  | .NOPE => bytes "NOPE" | .POS => bytes "POS" | .NEG => bytes "NEG" | .NOT => bytes "NOT"
  | .ADD => bytes "ADD" | .SUB => bytes "SUB" | .MUL => bytes "MUL" | .DIV => bytes "DIV"
  | .MOD => bytes "MOD" | .EQL => bytes "EQL" | .NQL => bytes "NQL" | .LSS => bytes "LSS"
  | .GRT => bytes "GRT" | .LEQ => bytes "LEQ" | .GEQ => bytes "GEQ" | .NLB => bytes "NLB"
  | .STP => bytes "STP" | .ASS => bytes "ASS" | .POP => bytes "POP" | .CHECKTYPE => bytes "CHECKTYPE"
  | .CALL => bytes "CALL" | .SELECT => bytes "SELECT" | .SELECT2 => bytes "SELECT2"
  | .INSERT => bytes "INSERT" | .INSERT2 => bytes "INSERT2" | .PUSHINT => bytes "PUSHINT"
  | .PUSHFLT => bytes "PUSHFLT" | .PUSHSTR => bytes "PUSHSTR" | .PUSHVAR => bytes "PUSHVAR"
  | .PUSHTRU => bytes "PUSHTRU" | .PUSHFLS => bytes "PUSHFLS" | .PUSHNNE => bytes "PUSHNNE"
  | .PUSHFUN => bytes "PUSHFUN" | .PUSHLST => bytes "PUSHLST" | .PUSHMAP => bytes "PUSHMAP"
  | .PUSHTYP => bytes "PUSHTYP" | .PUSHNNETYP => bytes "PUSHNNETYP" | .RETURN => bytes "RETURN"
  | .EXIT => bytes "EXIT" | .JUMPIFNOTANDPOP => bytes "JUMPIFNOTANDPOP"
  | .JUMPIFANDPOP => bytes "JUMPIFANDPOP" | .JUMP => bytes "JUMP"

/-- executable.c:80-123 `instr_table`. -/
def instrTable : List Opcode :=
  [.NOPE, .POS, .NEG, .NOT, .ADD, .SUB, .MUL, .DIV, .MOD, .EQL, .NQL, .LSS, .GRT, .LEQ, .GEQ, .NLB, .STP,
    .ASS, .POP, .CHECKTYPE, .CALL, .SELECT, .SELECT2, .INSERT, .INSERT2, .PUSHINT, .PUSHFLT, .PUSHSTR, .PUSHVAR,
    .PUSHTRU, .PUSHFLS, .PUSHNNE, .PUSHFUN, .PUSHLST, .PUSHMAP, .PUSHTYP, .PUSHNNETYP, .RETURN, .EXIT,
    .JUMPIFNOTANDPOP, .JUMPIFANDPOP, .JUMP]

/-- executable.c:127-150 `Executable_GetOpcodeBinaryFromName`; `strcmp` stops at a NUL. -/
def opcodeByName (name : List UInt8) : Option Opcode :=
  if name.length ≥ 128 then none else instrTable.find? fun o => opName o == name.takeWhile (· ≠ 0)

/-- The state of the main loop: labels, builder, whether an error was reported. -/
structure St where
  ll : Labels.LL
  b : Builder
  occurred : Bool

/-- assemble.c:411-461: one round of the main loop of `assemble` on text that is not empty and does
not begin with a space; `size` is the length of the whole text. -/
def assembleOne (flt : Bool → List UInt8 → List UInt8 → BitVec 64) (past : UInt8) (size : Nat) (t : List UInt8) (s : St) :
    Exec (List UInt8 × St) := do
  let h ← parseLabelAndOpcode t
  let (ll, b) ← (match h.label with
    | none => .ok (s.ll, s.b)
    | some name => do
      let (ll, p) ← Labels.setLabel s.ll name (Exe.instrCount s.b)
      .ok (ll, Exe.resolve p (Exe.instrCount s.b) s.b) : Exec (Labels.LL × Builder))
  match opcodeByName h.opcode with
  | none => .err
  | some op => do
    let (opv, r, ll) ← parseOperands flt past h.rest ll
    match Exe.append op opv ((size : Int) - h.start.length) h.opcode.length true b with
    | (_, false) => .err
    | (b, true) => .ok (r.tail, ⟨ll, b, s.occurred || h.occurred⟩)

/-- assemble.c:404-463: the main loop. -/
def assembleLoop (flt : Bool → List UInt8 → List UInt8 → BitVec 64) (past : UInt8) (size : Nat) :
    Nat → List UInt8 → St → Exec St
  | 0, _, _ => .diverge
  | n + 1, t, s =>
    match skipSpaces t with
    | [] => .ok s
    | c :: r => do
      let (t, s) ← assembleOne flt past size (c :: r) s
      assembleLoop flt past size n t s

/-- assemble.c:379-483 `assemble`: the executable and whether an error was reported. -/
def assemble (flt : Bool → List UInt8 → List UInt8 → BitVec 64) (past : UInt8) (t : List UInt8) : Exec (Executable × Bool) := do
  let s ← assembleLoop flt past t.length (t.length + 1) t ⟨Labels.new, Exe.new, false⟩
  if Labels.unresolved s.ll > 0 then .err
  else
    match Exe.finalize s.b with
    | none => .err
    | some e => .ok (e, s.occurred)

end Noja.Asm
