import Verif.VM.Source
import Verif.VM.Names
import Verif.VM.Start.Prog
import Verif.Graph.Model
import Verif.Utf8.Spec
import Verif.CInt
import Verif.Num.Float

/-!
# The language, as a manual would describe it

A meaning of programs in terms of values: mathematical integers, floating point numbers of 64 bits,
texts as lists of code points,
functions as definitions with the scopes they see, and a store whose cells are lists, maps and
scopes.  There are no objects, no references to them, no hash tables, no names as strings, no static
objects and no integers of limited size here.

Four ways a program can go: it ends with a value (`ok`), it ends with an error (`err`), it needs more
fuel (`more`), or it leaves the part of the language described here (`off`): the result of an
operation does not fit in 64 bits, an index, a length or a number read from a text does not fit in 32
bits, or something is used that is not described (parts of buffers that share their bytes, bytes as texts that
are no text but that are not `broken`, `pow`, files, imports, the text of unions of things that are no types, texts with NUL
characters, `trim` of a text that
begins with a space, keys of maps that are not none, booleans, numbers other than 0.0 or texts, types nested more
than `typeDepth` deep).

The functions of `start.noja` are described too: as what that program, read with the same meaning,
returns.

`Verif.VM.Book.Main` proves that the interpreter does what is described here.
-/

set_option linter.unusedVariables false

namespace Noja.VM.Book

open Noja.Graph (Kind Text text)

/-- Functions of the mathematical library. -/
inductive MathFn where
  | cos | sin | tan | acos | asin | atan | exp | log | log10 | sqrt
deriving DecidableEq, Repr

/-- What is left open about floating point numbers: what their sum, difference, product and quotient
are, what functions make of them, and how they are written. -/
class Floats where
  add : BitVec 64 → BitVec 64 → BitVec 64
  sub : BitVec 64 → BitVec 64 → BitVec 64
  mul : BitVec 64 → BitVec 64 → BitVec 64
  div : BitVec 64 → BitVec 64 → BitVec 64
  fn : MathFn → BitVec 64 → BitVec 64
  atan2 : BitVec 64 → BitVec 64 → BitVec 64
  write : BitVec 64 → Text

/-- Native functions. -/
inductive Prim where
  | print | count | type | assert | error | cat | chr | ord | trim | slice | toInt | istypeof | typename | keysof
  | floor | ceil | math (f : MathFn) | atan2 | pow
  | newBuffer | sliceUp | bufferText | textBuffer
deriving DecidableEq, Repr

/-- Libraries of functions. -/
inductive Lib where
  | strings | math | buffers
deriving DecidableEq, Repr

/-- Types, apart from lists and maps of types. -/
inductive Ty where
  /-- the values of a kind -/
  | kind (k : Kind)
  | any
  /-- `a | b` -/
  | sum (a b : Ty)
  /-- `?a` -/
  | nullable (a : Ty)
  /-- in a union: a list, map or buffer -/
  | cell (a : Nat)
  /-- in a union: anything else -/
  | other
deriving DecidableEq, Repr

inductive Val where
  | none
  | bool (b : Bool)
  | int (v : Int)
  /-- a floating point number: its bits -/
  | float (x : BitVec 64)
  /-- a text: code points -/
  | str (t : List Nat)
  | type (t : Ty)
  /-- a list, a map or a buffer -/
  | ref (a : Nat)
  /-- a function and the scopes around it, from the inside out -/
  | fn (f : FunDef) (chain : List Nat)
  | prim (p : Prim)
  | lib (l : Lib)

inductive Cell where
  | list (items : List Val)
  | map (entries : List (Val × Val))
  | scope (vars : List (Name × Val))
  | buffer (bytes : List UInt8)

structure Store where
  cells : List Cell
  /-- what was written -/
  out : List UInt8

inductive R (α : Type) where
  | ok (σ : Store) (a : α)
  /-- with what was written before the error -/
  | err (out : List UInt8)
  | off
  | more

def B (α : Type) : Type := Store → R α

def B.bind {α β : Type} (x : B α) (f : α → B β) : B β := fun σ =>
  match x σ with
  | .ok σ a => f a σ
  | .err o => .err o
  | .off => .off
  | .more => .more

instance : Monad B where
  pure a := fun σ => .ok σ a
  bind := B.bind

def stop {α : Type} : B α := fun σ => .err σ.out
def leave {α : Type} : B α := fun _ => .off
def moreB {α : Type} : B α := fun _ => .more

/-! ## Texts -/

/-- Code points that can be written: no NUL. -/
def Plain (t : List Nat) : Prop := ∀ c ∈ t, 0 < c ∧ c ≤ 0x10FFFF

instance (t : List Nat) : Decidable (Plain t) := inferInstanceAs (Decidable (∀ c ∈ t, 0 < c ∧ c ≤ 0x10FFFF))

/-- The code points of UTF-8 text. -/
def readPoints : List UInt8 → List Nat
  | [] => []
  | [a] => [a.toNat]
  | [a, b] =>
    if a.toNat < 128 then a.toNat :: readPoints [b] else [(a.toNat - 192) * 64 + (b.toNat - 128)]
  | [a, b, c] =>
    if a.toNat < 128 then a.toNat :: readPoints [b, c]
    else if a.toNat < 224 then ((a.toNat - 192) * 64 + (b.toNat - 128)) :: readPoints [c]
    else [(a.toNat - 224) * 4096 + (b.toNat - 128) * 64 + (c.toNat - 128)]
  | a :: b :: c :: d :: l =>
    if a.toNat < 128 then a.toNat :: readPoints (b :: c :: d :: l)
    else if a.toNat < 224 then ((a.toNat - 192) * 64 + (b.toNat - 128)) :: readPoints (c :: d :: l)
    else if a.toNat < 240 then ((a.toNat - 224) * 4096 + (b.toNat - 128) * 64 + (c.toNat - 128)) :: readPoints (d :: l)
    else ((a.toNat - 240) * 262144 + (b.toNat - 128) * 4096 + (c.toNat - 128) * 64 + (d.toNat - 128)) :: readPoints l

/-- The text that these bytes encode, if they do (see `readText_complete`). -/
def readText (bs : List UInt8) : Option (List Nat) :=
  if Plain (readPoints bs) ∧ Utf8.Spec.encodeText (readPoints bs) = bs then some (readPoints bs) else none

/-- Whether bytes end inside a character, as its first byte tells how many it has, or a character is
too large. -/
def broken : List UInt8 → Bool
  | [] => false
  | [a] => decide (192 ≤ a.toNat)
  | [a, b] => if a.toNat < 192 then broken [b] else decide (224 ≤ a.toNat)
  | [a, b, c] =>
    if a.toNat < 192 then broken [b, c] else if a.toNat < 224 then broken [c] else decide (240 ≤ a.toNat)
  | a :: b :: c :: d :: l =>
    if a.toNat < 192 then broken (b :: c :: d :: l)
    else if a.toNat < 224 then broken (c :: d :: l)
    else if a.toNat < 240 then broken (d :: l)
    else if 0x10FFFF < a.toNat % 8 * 262144 + b.toNat % 64 * 4096 + c.toNat % 64 * 64 + d.toNat % 64 then true
    else broken l

/-- "aé" without its last byte, half of a character after "a", "aé", and the bytes of a character past the last one. -/
example : broken [0x61, 0xC3] = true ∧ broken [0x61, 0xF0, 0x9F] = true ∧ broken [0x61, 0xC3, 0xA9] = false ∧
    broken [0xF4, 0x90, 0x80, 0x80] = true := by
  decide +kernel

/-! ## Keys -/

/-- What maps and scopes have their values under; texts as bytes. -/
inductive Key where
  | none
  | bool (b : Bool)
  | int (v : Int)
  | float (x : BitVec 64)
  | text (bs : List UInt8)
deriving DecidableEq, Repr

def Val.key : Val → Option Key
  | .none => some .none
  | .bool b => some (.bool b)
  | .int v => some (.int v)
  | .float x => some (.float x)
  | .str t => some (.text (Utf8.Spec.encodeText t))
  | _ => Option.none

/-- The keys of a map. -/
def keysIn (es : List (Val × Val)) : List Key := es.filterMap (·.1.key)

/-- The names in a scope. -/
def namesIn (env : List (Name × Val)) : List Key := env.map fun p => .text p.1

/-! ## Variables -/

/-- Names that can be written in a program. -/
def goodName (n : Name) : Bool := n.all fun b => decide (0 < b.toNat ∧ b.toNat < 128)

/-- The variables of scopes; `none` if one of these is not a scope. -/
def scopesOf (σ : Store) : List Nat → Option (List (List (Name × Val)))
  | [] => some []
  | a :: as =>
    match σ.cells[a]?, scopesOf σ as with
    | some (.scope env), some envs => some (env :: envs)
    | _, _ => none

/-- The builtins that are described here. -/
def builtins : List (Name × Val) := [
  (text "print", .prim .print), (text "count", .prim .count), (text "type", .prim .type), (text "assert", .prim .assert),
  (text "error", .prim .error), (text "istypeof", .prim .istypeof), (text "typename", .prim .typename), (text "keysof", .prim .keysof),
  (text "string", .lib .strings), (text "math", .lib .math), (text "buffer", .lib .buffers), (text "any", .type .any),
  (text "int", .type (.kind .int)), (text "bool", .type (.kind .bool)), (text "float", .type (.kind .float)),
  (text "String", .type (.kind .string)), (text "List", .type (.kind .list)), (text "Map", .type (.kind .map)),
  (text "None", .type (.kind .none)), (text "Type", .type (.kind .type)), (text "Buffer", .type (.kind .buffer)),
  (text "File", .type (.kind .file)), (text "Directory", .type (.kind .dir)), (text "NullableType", .type (.kind .nullable)),
  (text "SumType", .type (.kind .sum))]

/-- The names of the others. -/
def otherNames : List Name := [
  text "net", text "files", text "random", text "import", text "input", text "getCurrentWorkingDirectory", text "getCurrentScriptDirectory",
  text "getCurrentScriptLocation"]

/-- The value of a name, seen from these scopes: the first one that has it decides. -/
def readVar (scopes : List Nat) (n : Name) : B Val := fun σ =>
  if goodName n then
    match scopesOf σ scopes with
    | none => .off
    | some envs =>
      match envs.findSome? (·.lookup n) with
      | some v => .ok σ v
      | none =>
        match builtins.lookup n with
        | some v => .ok σ v
        | none => if n ∈ otherNames then .off else .err σ.out
  else .off

def setCell (a : Nat) (c : Cell) : B Unit := fun σ => .ok { σ with cells := σ.cells.set a c } ()

def newCell (c : Cell) : B Nat := fun σ => .ok { σ with cells := σ.cells ++ [c] } σ.cells.length

/-- Gives a variable a value. A program that does this in a scope whose names are not `fine` is not
described. -/
def writeVar (fine : List Key → Bool) (scope : Nat) (n : Name) (v : Val) : B Unit := fun σ =>
  if goodName n then
    match σ.cells[scope]? with
    | some (.scope env) => if fine (namesIn env) then setCell scope (.scope ((n, v) :: env)) σ else .off
    | _ => .off
  else .off

/-! ## Operators -/

def fits64 (v : Int) : Bool := decide (-2 ^ 63 ≤ v ∧ v < 2 ^ 63)
def fits32 (v : Int) : Bool := decide (-2 ^ 31 ≤ v ∧ v < 2 ^ 31)

def retInt (v : Int) : B Val := if fits64 v then pure (.int v) else leave

/-- A value as a part of a union. -/
def Val.part : Val → Ty
  | .type t => t
  | .ref a => .cell a
  | _ => .other

def kindOf (σ : Store) : Val → Option Kind
  | .none => some .none
  | .bool _ => some .bool
  | .int _ => some .int
  | .float _ => some .float
  | .str _ => some .string
  | .type (.kind _) => some .type
  | .type .any => some .any
  | .type (.sum _ _) => some .sum
  | .type (.nullable _) => some .nullable
  | .type _ => none
  | .ref a =>
    match σ.cells[a]? with
    | some (.list _) => some .list
    | some (.map _) => some .map
    | some (.buffer _) => some .buffer
    | _ => none
  | .fn _ _ => some .func
  | .prim _ => some .nfunc
  | .lib _ => some .smap

/-- What a floating point number stands for, in units of 2⁻¹⁰⁷⁴: nothing for those that are not
numbers; infinities are beyond all others. -/
def worth (x : BitVec 64) : Option Int := if Num.isNaN x then none else some (Num.scaled x)

/-- Compares two floating point numbers. What is not a number is not less than, greater than or equal to
anything. -/
def floatRel (r : Int → Int → Bool) (x y : BitVec 64) : Bool :=
  match worth x, worth y with
  | some a, some b => r a b
  | _, _ => false

/-- Values of different types differ; lists, maps, buffers, functions and unions cannot be compared with their like. -/
def equal (x y : Val) : B Bool := fun σ =>
  match kindOf σ x, kindOf σ y with
  | some k, some k' =>
    if k ≠ k' then .ok σ false
    else
      match x, y with
      | .none, .none => .ok σ true
      | .bool a, .bool b => .ok σ (decide (a = b))
      | .int a, .int b => .ok σ (decide (a = b))
      | .float a, .float b => .ok σ (floatRel (fun m n => decide (m = n)) a b)
      | .str a, .str b => .ok σ (decide (a = b))
      | .type (.kind a), .type (.kind b) => .ok σ (decide (a = b))
      | _, _ => .err σ.out
  | _, _ => .off

/-- A number as a floating point number; whole numbers are rounded to the nearest one. -/
def floating : Val → Option (BitVec 64)
  | .int v => some (Num.ofInt v)
  | .float x => some x
  | _ => none

section
variable [Floats]

/-- Operators on numbers of which one is not whole. -/
def binaryFloat : BinOp → BitVec 64 → BitVec 64 → B Val
  | .add, x, y => pure (.float (Floats.add x y))
  | .sub, x, y => pure (.float (Floats.sub x y))
  | .mul, x, y => pure (.float (Floats.mul x y))
  | .div, x, y => if worth y = some 0 then stop else pure (.float (Floats.div x y))
  | .lss, x, y => pure (.bool (floatRel (fun m n => decide (m < n)) x y))
  | .leq, x, y => pure (.bool (floatRel (fun m n => decide (m ≤ n)) x y))
  | .grt, x, y => pure (.bool (floatRel (fun m n => decide (m > n)) x y))
  | .geq, x, y => pure (.bool (floatRel (fun m n => decide (m ≥ n)) x y))
  | _, _, _ => stop

def binary : BinOp → Val → Val → B Val
  | .eql, x, y => do
    let b ← equal x y
    pure (.bool b)
  | .nql, x, y => do
    let b ← equal x y
    pure (.bool !b)
  | .add, .int x, .int y => retInt (x + y)
  | .sub, .int x, .int y => retInt (x - y)
  | .mul, .int x, .int y => retInt (x * y)
  | .div, .int x, .int y => if y = 0 then stop else retInt (x.tdiv y)
  | .mod, .int x, .int y => if y = 0 ∨ (x = -2 ^ 63 ∧ y = -1) then leave else pure (.int (x.tmod y))
  | .lss, .int x, .int y => pure (.bool (decide (x < y)))
  | .leq, .int x, .int y => pure (.bool (decide (x ≤ y)))
  | .grt, .int x, .int y => pure (.bool (decide (x > y)))
  | .geq, .int x, .int y => pure (.bool (decide (x ≥ y)))
  | .sum, x, y => pure (.type (.sum x.part y.part))
  | op, x, y =>
    match floating x, floating y with
    | some a, some b => binaryFloat op a b
    | _, _ => stop

end

def unary : UnOp → Val → B Val
  | .pos, x => pure x
  | .nlb, x => pure (.type (.nullable x.part))
  | .neg, .int x => retInt (-x)
  | .neg, .float x => pure (.float (x ^^^ 0x8000000000000000#64))
  | .neg, _ => stop
  | .not, .bool b => pure (.bool !b)
  | .not, _ => stop

def truth : Val → B Bool
  | .bool b => pure b
  | _ => stop

/-! ## Collections -/

/-- What keys of maps may be. Floating point numbers that are zero or no numbers are not described. -/
def atom : Val → Bool
  | .none | .bool _ | .int _ | .str _ => true
  | .float x =>
    match worth x with
    | some n => decide (n ≠ 0)
    | none => false
  | _ => false

def sameAtom : Val → Val → Bool
  | .none, .none => true
  | .bool a, .bool b => decide (a = b)
  | .int a, .int b => decide (a = b)
  | .float a, .float b => floatRel (fun m n => decide (m = n)) a b
  | .str a, .str b => decide (a = b)
  | _, _ => false

/-- 1.5 may be a key and is the same as itself, but not as 2.5 or, if it were one, the whole number 1; -0 may not. -/
example : atom (.float 0x3FF8000000000000#64) = true ∧ sameAtom (.float 0x3FF8000000000000#64) (.float 0x3FF8000000000000#64) = true ∧
    sameAtom (.float 0x3FF8000000000000#64) (.float 0x4004000000000000#64) = false ∧
    sameAtom (.float 0x3FF0000000000000#64) (.int 1) = false ∧ atom (.float 0x8000000000000000#64) = false := by decide +kernel

def lookupKey (k : Val) : List (Val × Val) → Option Val
  | [] => none
  | e :: es => if sameAtom k e.1 then some e.2 else lookupKey k es

/-- Replaces the value under a key, or adds it at the end. -/
def putKey (k v : Val) : List (Val × Val) → List (Val × Val)
  | [] => [(k, v)]
  | e :: es => if sameAtom k e.1 then (e.1, v) :: es else e :: putKey k v es

def chars (s : String) : List Nat := s.toList.map (·.toNat)

/-- What is in a library. -/
def Lib.items : Lib → List (List Nat × Val)
  | .strings => [(chars "cat", .prim .cat), (chars "chr", .prim .chr), (chars "ord", .prim .ord),
    (chars "trim", .prim .trim), (chars "slice", .prim .slice), (chars "toInt", .prim .toInt)]
  | .math => [(chars "PI", .float 0x400921FB54442D18#64), (chars "E", .float 0x4005BF0A8B145769#64),
    (chars "floor", .prim .floor), (chars "ceil", .prim .ceil), (chars "cos", .prim (.math .cos)),
    (chars "sin", .prim (.math .sin)), (chars "tan", .prim (.math .tan)), (chars "acos", .prim (.math .acos)),
    (chars "asin", .prim (.math .asin)), (chars "atan", .prim (.math .atan)), (chars "atan2", .prim .atan2),
    (chars "exp", .prim (.math .exp)), (chars "log", .prim (.math .log)), (chars "log10", .prim (.math .log10)),
    (chars "pow", .prim .pow), (chars "sqrt", .prim (.math .sqrt))]
  | .buffers => [(chars "new", .prim .newBuffer), (chars "sliceUp", .prim .sliceUp),
    (chars "toString", .prim .bufferText), (chars "fromString", .prim .textBuffer)]

/-- The numbers that PI and E stand for are the floating point numbers next to π and e: in units of 2⁻⁵¹. -/
example : worth 0x400921FB54442D18#64 = some (7074237752028440 * 2 ^ 1023) ∧
    worth 0x4005BF0A8B145769#64 = some (6121026514868073 * 2 ^ 1023) := by decide +kernel

/-- What is under a key: none if there is nothing, or if the value is not a collection. -/
def select (x k : Val) : B Val := fun σ =>
  match x with
  | .ref a =>
    match σ.cells[a]? with
    | some (.list items) =>
      match k with
      | .int i =>
        if fits32 i then
          if 0 ≤ i then
            match items[i.toNat]? with
            | some v => .ok σ v
            | none => .ok σ .none
          else .ok σ .none
        else .off
      | _ => .ok σ .none
    | some (.map es) => if atom k then .ok σ ((lookupKey k es).getD .none) else .off
    | some (.buffer bs) =>
      match k with
      | .int i =>
        if fits32 i then
          if 0 ≤ i then
            match bs[i.toNat]? with
            | some b => .ok σ (.int b.toNat)
            | none => .ok σ .none
          else .ok σ .none
        else .off
      | _ => .ok σ .none
    | _ => .off
  | .str t =>
    match k with
    | .int i =>
      if fits32 i ∧ t.length < 2 ^ 31 then
        if 0 ≤ i then
          match t[i.toNat]? with
          | some c => .ok σ (.str [c])
          | none => .ok σ .none
        else .ok σ .none
      else .off
    | _ => .ok σ .none
  | .lib l =>
    match k with
    | .str n =>
      match l.items.lookup n with
      | some v => .ok σ v
      | none => if l = .math then .ok σ .none else .off
    | _ => .ok σ .none
  | _ => .ok σ .none

/-- Puts a value under a key. A program that does this in a map whose keys are not `fine` is not described. -/
def insert (fine : List Key → Bool) (x k v : Val) : B Unit := fun σ =>
  match x with
  | .ref a =>
    match σ.cells[a]? with
    | some (.list items) =>
      match k with
      | .int i =>
        if fits32 i then
          if 0 ≤ i ∧ i < items.length then setCell a (.list (items.set i.toNat v)) σ
          else if i = items.length then setCell a (.list (items ++ [v])) σ
          else .err σ.out
        else .off
      | _ => .err σ.out
    | some (.map es) => if atom k && fine (keysIn es) then setCell a (.map (putKey k v es)) σ else .off
    | some (.buffer bs) =>
      match k, v with
      | .int i, .int b =>
        if fits32 i then
          if (0 ≤ i ∧ i < bs.length) ∧ 0 ≤ b ∧ b ≤ 255 then setCell a (.buffer (bs.set i.toNat (UInt8.ofNat b.toNat))) σ
          else .err σ.out
        else .off
      | _, _ => .err σ.out
    | _ => .off
  | _ => .err σ.out

/-! ## Native functions -/

/-- The texts of values, if all have one. -/
def showAll (f : Val → Option Text) : List Val → Option (List Text)
  | [] => some []
  | v :: vs => do
    let t ← f v
    let ts ← showAll f vs
    some (t :: ts)

def showPairs (f : Val → Option Text) : List (Val × Val) → Option (List Text)
  | [] => some []
  | e :: es => do
    let t ← f e.1
    let u ← f e.2
    let ts ← showPairs f es
    some ((t ++ text ": " ++ u) :: ts)

/-- The text of a type. -/
def showTy : (fuel : Nat) → Ty → Option Text
  | 0, _ => none
  | _ + 1, .kind k => some (text k.name)
  | _ + 1, .any => some (text "<AnyType is unprintable>")
  | n + 1, .sum a b => do
    let t ← showTy n a
    let u ← showTy n b
    some (t ++ text " | " ++ u)
  | n + 1, .nullable a => do
    let t ← showTy n a
    some (text "?" ++ t)
  | _ + 1, .cell _ => none
  | _ + 1, .other => none

/-- A byte as two hexadecimal digits. -/
def showByte (b : UInt8) : Text :=
  [((text "0123456789ABCDEF")[b.toNat / 16]?).getD 0, ((text "0123456789ABCDEF")[b.toNat % 16]?).getD 0]

section
variable [Floats]

/-- The text of a value; `inside` are the lists and maps it is in. -/
def showVal (σ : Store) : (fuel : Nat) → (inside : List Nat) → Val → Option Text
  | 0, _, _ => none
  | n + 1, inside, v =>
    match v with
    | .none => some (text "none")
    | .bool b => some (text (if b then "true" else "false"))
    | .int v => some (text (toString v))
    | .float x => some (Floats.write x)
    | .str t => some (Utf8.Spec.encodeText t)
    | .type t => showTy (n + 1) t
    | .fn _ _ => some (text "<" ++ text Kind.func.name ++ text " is unprintable>")
    | .prim _ => some (text "<" ++ text Kind.nfunc.name ++ text " is unprintable>")
    | .lib _ => some (text "<" ++ text Kind.smap.name ++ text " is unprintable>")
    | .ref a =>
      if a ∈ inside then some (text "...")
      else
        match σ.cells[a]? with
        | some (.list items) =>
          (showAll (showVal σ n (a :: inside)) items).map fun ts => text "[" ++ (text ", ").intercalate ts ++ text "]"
        | some (.map es) =>
          (showPairs (showVal σ n (a :: inside)) es).map fun ts => text "{" ++ (text ", ").intercalate ts ++ text "}"
        | some (.buffer bs) => some (text "[" ++ (text ", ").intercalate (bs.map showByte) ++ text "]")
        | _ => none

/-- How deep the types are nested that can be printed, at least. -/
def printDepth : Nat := 20

def printAll : List Val → B Unit
  | [] => pure ()
  | v :: vs => fun σ =>
    match showVal σ (σ.cells.length + printDepth) [] v with
    | some t => printAll vs { σ with out := σ.out ++ t }
    | none => .off

end

def countOf (σ : Store) : Val → Option Nat
  | .str t => some t.length
  | .ref a =>
    match σ.cells[a]? with
    | some (.list items) => some items.length
    | some (.map es) => some es.length
    | some (.buffer bs) => some bs.length
    | _ => none
  | _ => none

/-- Whether values are of types, one by one; a list that is too short is not described. -/
def itemsOf (f : Val → Val → Option Bool) : List Val → List Val → Option Bool
  | [], _ => some true
  | _ :: _, [] => none
  | t :: ts, v :: vs =>
    match f t v with
    | some true => itemsOf f ts vs
    | r => r

/-- Whether the values under the keys of the first are there and of the types. -/
def entriesOf (f : Val → Val → Option Bool) : List (Val × Val) → List (Val × Val) → Option Bool
  | [], _ => some true
  | t :: ts, vs =>
    match lookupKey t.1 vs with
    | none => some false
    | some v =>
      match f t.2 v with
      | some true => entriesOf f ts vs
      | r => r

/-- Whether a value is of a type. Lists are types of lists, maps are types of maps; other things that
are not types have no values. -/
def isOf (σ : Store) : (fuel : Nat) → Val → Val → Option Bool
  | 0, _, _ => none
  | n + 1, t, v =>
    match kindOf σ v with
    | none => none
    | some k =>
      match t with
      | .type (.kind k') => some (decide (k = k'))
      | .type .any => some true
      | .type (.nullable a) => if k = .none then some true else isOf σ n (.type a) v
      | .type (.sum a b) =>
        match isOf σ n (.type a) v with
        | some false => isOf σ n (.type b) v
        | r => r
      | .type (.cell a) => isOf σ n (.ref a) v
      | .ref a =>
        match σ.cells[a]? with
        | some (.list ts) =>
          match v with
          | .ref b =>
            match σ.cells[b]? with
            | some (.list vs) => itemsOf (isOf σ n) ts vs
            | _ => some false
          | _ => some false
        | some (.map ts) =>
          match v with
          | .ref b =>
            match σ.cells[b]? with
            | some (.map vs) => entriesOf (isOf σ n) ts vs
            | _ => some false
          | _ => some false
        | some (.buffer _) => some false
        | _ => none
      | _ => some false

/-- How deep types may be nested. -/
def typeDepth : Nat := 64

def isA (t v : Val) : B Bool := fun σ =>
  match isOf σ typeDepth t v with
  | some b => .ok σ b
  | none => .off

def assertAll : List Val → B (List Val)
  | [] => pure []
  | .bool true :: vs => assertAll vs
  | _ :: _ => stop

def texts : List Val → Option (List (List Nat))
  | [] => some []
  | .str t :: vs => (texts vs).map (t :: ·)
  | _ :: _ => none

/-- How many arguments a native function wants, if it does not take any number. -/
def Prim.argc : Prim → Option Nat
  | .print | .assert | .cat => none
  | .istypeof | .atan2 => some 2
  | .slice | .sliceUp => some 3
  | _ => some 1

/-- The keys of a value: for lists, texts and buffers they are the numbers below the length. -/
def keysOf (σ : Store) : Val → Option (List Val)
  | .str t => some ((List.range t.length).map fun (i : Nat) => .int i)
  | .ref a =>
    match σ.cells[a]? with
    | some (.list items) => some ((List.range items.length).map fun (i : Nat) => .int i)
    | some (.map es) => some (es.map (·.1))
    | some (.buffer bs) => some ((List.range bs.length).map fun (i : Nat) => .int i)
    | _ => none
  | _ => none

/-- A text without the spaces at its end. -/
def stripEnd (t : List Nat) : List Nat := (t.reverse.dropWhile (· = 32)).reverse

/-- An optional whole number: a default value if there is none. -/
def orInt (d : Int) : Val → Option Int
  | .none => some d
  | .int v => some v
  | _ => none

/-- `n` bytes of a text from the byte `o` on: by default from the beginning and up to the end. They
must be a text again; that they begin inside a character and end at the end of one is not described. -/
def sliceText (t : List Nat) (o n : Val) : B (List Val) :=
  if (Utf8.Spec.encodeText t).length < 2 ^ 31 then
    match orInt 0 o with
    | none => stop
    | some off =>
      match orInt ((Utf8.Spec.encodeText t).length - off) n with
      | none => stop
      | some len =>
        if fits64 off ∧ fits64 len then
          if 0 ≤ off ∧ 0 ≤ len ∧ off + len ≤ (Utf8.Spec.encodeText t).length then
            match readText (((Utf8.Spec.encodeText t).drop off.toNat).take len.toNat) with
            | some u => pure [.str u]
            | none => if broken (((Utf8.Spec.encodeText t).drop off.toNat).take len.toNat) then stop else leave
          else stop
        else leave
  else leave

/-- The number that decimal digits write. -/
def decimal (ds : List Nat) : Nat := ds.foldl (fun a d => a * 10 + (d - 48)) 0

/-- The number that a text writes; without one, none and a message. -/
def readInt (t : List Nat) : B (List Val) :=
  let ds := t.takeWhile fun c => 48 ≤ c ∧ c ≤ 57
  if ds = [] then pure [.none, .str ((text "String doesn't contain an integer").map (·.toNat))]
  else if 2 ^ 63 ≤ decimal ds then pure [.none, .str ((text "An overflow occurred").map (·.toNat))]
  else if ds ≠ t then pure [.none, .str ((text "String doesn't contain an integer").map (·.toNat))]
  else if decimal ds < 2 ^ 31 then pure [.int (decimal ds)]
  else leave

section
variable [Floats]

/-- The values returned by a native function. -/
def Prim.run : Prim → List Val → B (List Val)
  | .print, vs => do
    printAll vs
    pure []
  | .count, [v] => fun σ =>
    match countOf σ v with
    | some n => .ok σ [.int n]
    | none =>
      match kindOf σ v with
      | some _ => .err σ.out
      | none => .off
  | .type, [v] => fun σ =>
    match kindOf σ v with
    | some k => .ok σ [.type (.kind k)]
    | none => .off
  | .assert, vs => assertAll vs
  | .error, [_] => stop
  | .cat, vs =>
    match texts vs with
    | some ts => if (Utf8.Spec.encodeText ts.flatten).length < 2 ^ 31 then pure [.str ts.flatten] else leave
    | none => stop
  | .chr, [.int v] =>
    if fits32 v then
      if v = 0 then leave else if 0 < v ∧ v ≤ 0x10FFFF then pure [.str [v.toNat]] else stop
    else leave
  | .chr, [_] => stop
  | .ord, [.str (c :: _)] => pure [.int c]
  | .ord, [_] => stop
  | .trim, [.str t] =>
    if stripEnd t = [] then pure [.str []]
    else if t.head? = some 32 ∨ 2 ^ 31 ≤ (Utf8.Spec.encodeText t).length then leave
    else pure [.str (stripEnd t)]
  | .trim, [_] => stop
  | .slice, [.str t, o, n] => sliceText t o n
  | .slice, [_, _, _] => stop
  | .toInt, [.str t] => readInt t
  | .toInt, [_] => stop
  | .floor, [.float x] =>
    match worth x with
    | some n => do
      let v ← retInt (n / 2 ^ 1074)
      pure [v]
    | none => leave
  | .floor, [_] => stop
  | .ceil, [.float x] =>
    match worth x with
    | some n => do
      let v ← retInt (-(-n / 2 ^ 1074))
      pure [v]
    | none => leave
  | .ceil, [_] => stop
  | .math f, [.float x] => pure [.float (Floats.fn f x)]
  | .math _, [_] => stop
  | .atan2, [.float x, .float y] => pure [.float (Floats.atan2 x y)]
  | .atan2, [_, _] => stop
  | .newBuffer, [.int n] =>
    if 0 ≤ n ∧ n < 2 ^ 31 then do
      let a ← newCell (.buffer (List.replicate n.toNat 0))
      pure [.ref a]
    else leave
  | .newBuffer, [_] => stop
  | .bufferText, [v] => fun σ =>
    match v with
    | .ref a =>
      match σ.cells[a]? with
      | some (.buffer bs) =>
        match readText bs with
        | some t => .ok σ [.str t]
        | none =>
          if broken bs then .ok σ [.none, .str ((text "Buffer doesn't contain valid UTF-8").map (·.toNat))] else .off
      | some (.scope _) => .off
      | some _ => .err σ.out
      | none => .off
    | _ => .err σ.out
  | .textBuffer, [.str t] =>
    if (Utf8.Spec.encodeText t).length < 2 ^ 31 then do
      let a ← newCell (.buffer (Utf8.Spec.encodeText t))
      pure [.ref a]
    else leave
  | .textBuffer, [_] => stop
  | .istypeof, [t, v] => do
    let b ← isA t v
    pure [.bool b]
  | .typename, [v] => fun σ =>
    match kindOf σ v with
    | some k => .ok σ [.str ((text k.name).map (·.toNat))]
    | none => .off
  | .keysof, [v] => fun σ =>
    match keysOf σ v with
    | some ks => (do
        let a ← newCell (.list ks)
        pure [.ref a] : B (List Val)) σ
    | none =>
      match kindOf σ v with
      | some _ => .ok σ [.none]
      | none => .off
  | _, _ => leave

/-! ## Programs -/

structure Ctx where
  fuel : Nat
  call : Val → List Val → Nat → B (List Val)
  /-- the scope of the function, and those around it -/
  scope : Nat
  chain : List Nat
  /-- what the functions of `start.noja` are in, once it has run -/
  lib : List Nat
  /-- the keys that maps and scopes may have when one more is put there -/
  fine : List Key → Bool

inductive Ctl where
  | normal
  | brk
  | ret (vs : List Val)

def whileLoop : Nat → B Bool → B Ctl → B Ctl
  | 0, _, _ => moreB
  | n + 1, c, b => do
    let t ← c
    if t then do
      let r ← b
      match r with
      | .normal => whileLoop n c b
      | .brk => pure .normal
      | .ret vs => pure (.ret vs)
    else pure .normal

def doLoop : Nat → B Bool → B Ctl → B Ctl
  | 0, _, _ => moreB
  | n + 1, c, b => do
    let r ← b
    match r with
    | .normal => do
      let t ← c
      if t then doLoop n c b else pure .normal
    | .brk => pure .normal
    | .ret vs => pure (.ret vs)

/-- A missing argument has the default value, if there is one. -/
def orDefault (v : Val) (d : Option (B Val)) : B Val :=
  match v, d with
  | .none, some d => d
  | v, _ => pure v

def checkType (v : Val) (t : Option (B Val)) : B Unit :=
  match t with
  | none => pure ()
  | some t => do
    let tv ← t
    let b ← isA tv v
    if b then pure () else stop

mutual
def expr (c : Ctx) : Expr → B Val
  | .none => pure .none
  | .tru => pure (.bool true)
  | .fls => pure (.bool false)
  | .int v => retInt v
  | .float x => pure (.float x)
  | .str s =>
    match readText (s.takeWhile (· ≠ 0)) with
    | some t => pure (.str t)
    | none => if broken (s.takeWhile (· ≠ 0)) then stop else leave
  | .ident n => readVar (c.scope :: c.chain ++ c.lib) n
  | .un op a => do
    let x ← expr c a
    unary op x
  | .bin op a b => do
    let x ← expr c a
    let y ← expr c b
    binary op x y
  | .and a b => do
    let x ← expr c a
    let p ← truth x
    if p then do
      let y ← expr c b
      let q ← truth y
      pure (.bool q)
    else pure (.bool false)
  | .or a b => do
    let x ← expr c a
    let p ← truth x
    if p then pure (.bool true)
    else do
      let y ← expr c b
      let q ← truth y
      pure (.bool q)
  | .assign t e => do
    let v ← expr c e
    store c t v
    pure v
  | .massign t ts k => do
    let vs ← call c k (ts.count + 1)
    match vs with
    | v :: vs => do
      stores c ts vs
      store c t v
      pure v
    | [] => leave
  | .list items =>
    if items.count < 2 ^ 31 then do
      let vs ← exprs c items
      let a ← newCell (.list vs)
      pure (.ref a)
    else leave
  | .map items => do
    let es ← pairs c items []
    let a ← newCell (.map es)
    pure (.ref a)
  | .call k => do
    let vs ← call c k 1
    match vs with
    | [v] => pure v
    | _ => leave
  | .select s i => do
    let x ← expr c s
    let y ← expr c i
    select x y
  | .func _ f => pure (.fn f (c.scope :: c.chain))
def store (c : Ctx) : Target → Val → B Unit
  | .var n, v => writeVar c.fine c.scope n v
  | .sel s i, v => do
    let x ← expr c s
    let y ← expr c i
    insert c.fine x y v
/-- The last target is assigned first. -/
def stores (c : Ctx) : Targets → List Val → B Unit
  | .one t, [v] => store c t v
  | .cons t ts, v :: vs => do
    stores c ts vs
    store c t v
  | _, _ => leave
/-- The given number of results of a call.  Arguments are evaluated from the last to the first, which
is how they are listed, and then the function. -/
def call (c : Ctx) : Call → Nat → B (List Val)
  | .fn f args, k => do
    let vs ← exprs c args
    let g ← expr c f
    c.call g vs.reverse k
  | .method s i args, k => do
    let vs ← exprs c args
    let x ← expr c s
    let y ← expr c i
    let g ← select x y
    c.call g (x :: vs.reverse) k
def exprs (c : Ctx) : Exprs → B (List Val)
  | .nil => pure []
  | .cons e es => do
    let v ← expr c e
    let vs ← exprs c es
    pure (v :: vs)
/-- The entries of a map, added to those before. -/
def pairs (c : Ctx) : Pairs → List (Val × Val) → B (List (Val × Val))
  | .nil, es => pure es
  | .cons k v ps, es => do
    let x ← expr c k
    let y ← expr c v
    if atom x && c.fine (keysIn es) then pairs c ps (putKey x y es) else leave
/-- Parameters, from the last to the first, get their arguments. -/
def bind (c : Ctx) : Params → List Val → B Unit
  | .nil, [] => pure ()
  | .cons n d t ps, v :: vs => do
    let v ← orDefault v (opt c d)
    checkType v (opt c t)
    writeVar c.fine c.scope n v
    bind c ps vs
  | _, _ => leave
def opt (c : Ctx) : OExpr → Option (B Val)
  | .no => none
  | .yes e => some (expr c e)
def stmt (c : Ctx) : Stmt → B Ctl
  | .expr e => do
    let _ ← expr c e
    pure .normal
  | .ifElse e t f => do
    let v ← expr c e
    let b ← truth v
    if b then stmt c t else stmt c f
  | .ifOnly e t => do
    let v ← expr c e
    let b ← truth v
    if b then stmt c t else pure .normal
  | .while e s => whileLoop c.fuel (do let v ← expr c e; truth v) (stmt c s)
  | .doWhile s e => doLoop c.fuel (do let v ← expr c e; truth v) (stmt c s)
  | .comp ss => stmts c ss
  | .ret es => do
    let vs ← exprs c es
    pure (.ret vs)
  | .func n f => do
    writeVar c.fine c.scope n (.fn f (c.scope :: c.chain))
    pure .normal
  | .brk => pure .brk
def stmts (c : Ctx) : Stmts → B Ctl
  | .nil => pure .normal
  | .cons s ss => do
    let r ← stmt c s
    match r with
    | .normal => stmts c ss
    | r => pure r
end

/-- A literal that ends inside a character stops the program. -/
example (c : Ctx) (σ : Store) : expr c (.str [0x61, 0xC3]) σ = .err σ.out := by
  unfold expr
  rfl

/-- As many values as are wanted: missing ones are none, extra ones are dropped. -/
def fit (n : Nat) (vs : List Val) : List Val := vs.take n ++ List.replicate (n - vs.length) .none

/-- At most eight values can be returned at once. -/
def results (k : Nat) (vs : List Val) : B (List Val) := if 8 < min vs.length k then leave else pure (fit k vs)

/-- The body of a function on arguments. -/
def runFun (c : Ctx) : FunDef → List Val → B (List Val)
  | .mk ps b, args => do
    bind c ps args.reverse
    let r ← stmt c b
    match r with
    | .normal => pure []
    | .ret vs => pure vs
    | .brk => leave

/-- Calls nested at most `n` deep. -/
def callN (fine : List Key → Bool) (lib : List Nat) : Nat → Val → List Val → Nat → B (List Val)
  | 0, _, _, _ => moreB
  | n + 1, .fn f chain, args, k => do
    let a ← newCell (.scope [])
    let vs ← runFun ⟨n, callN fine lib n, a, chain, lib, fine⟩ f (fit f.params.count args)
    results k vs
  | n + 1, .prim p, args, k => do
    let vs ← p.run (match p.argc with | none => args | some m => fit m args)
    results k vs
  | n + 1, _, _, _ => stop

/-- A program in the scope `c.scope`: what it returns, or nothing. -/
def program (c : Ctx) (p : Stmts) : B (Option (List Val)) := do
  let r ← stmts c p
  match r with
  | .normal => pure none
  | .ret vs => pure (some vs)
  | .brk => leave

/-- A program. -/
def mean (fine : List Key → Bool) (lib : List Nat) (fuel : Nat) (p : Stmts) : B (Option (List Val)) := do
  let a ← newCell (.scope [])
  program ⟨fuel, callN fine lib fuel, a, [], lib, fine⟩ p

/-- The variables that a map stands for. -/
def varsOf : List (Val × Val) → Option (List (Name × Val))
  | [] => some []
  | (.str t, v) :: es => (varsOf es).map ((Utf8.Spec.encodeText t, v) :: ·)
  | _ :: _ => none

/-- A map becomes a scope. -/
def publish (a : Nat) : B Nat := fun σ =>
  match σ.cells[a]? with
  | some (.map es) =>
    match varsOf es with
    | some env => .ok { σ with cells := σ.cells.set a (.scope env) } a
    | none => .off
  | _ => .off

/-- What `start.noja` returns becomes the scope around all programs. -/
@[irreducible] def startUp : B Nat := do
  let r ← mean (fun _ => true) [] 1 Start.prog
  match r with
  | some [.ref a] => publish a
  | _ => leave

/-- What a program does, if the keys of its maps and the names in its scopes are always `fine`. -/
@[irreducible] def runIf (fine : List Key → Bool) (fuel : Nat) (p : Stmts) : R (Option (List Val)) :=
  (do
    let a ← startUp
    mean fine [a] fuel p : B (Option (List Val))) ⟨[], []⟩

/-- What a program does. -/
def run (fuel : Nat) (p : Stmts) : R (Option (List Val)) := runIf (fun _ => true) fuel p

end

end Noja.VM.Book
