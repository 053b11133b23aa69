import Verif.Exec
import Verif.CInt
import Verif.Hash
import Verif.Utf8.Model

/-!
# Model of `src/lib/objects/o_string.c`

A string object is its `count`, `bytes` and `body` fields.  Heap exhaustion is
not modelled here.  Lengths are `Nat` (strings longer than 2^31-2 bytes, which
overflow the C `int` fields, are not modelled).
-/

namespace Noja.Str

/-- o_string.c:38-43 `StringObject`. -/
structure Str where
  count : Nat
  bytes : Nat
  body : List UInt8
deriving Repr, DecidableEq

/-- o_string.c:137-171 `Object_FromString(src, len)` with `len ≥ 0`.  `err` is the
"Invalid UTF-8 sequence" error.  (`memcpy` reads exactly `len` bytes.) -/
def fromString (src : List UInt8) (len : Nat) : Exec Str := do
  let count ← Utf8.strlen src len
  if src.length < len then .ub
  else .ok { count := count, bytes := len, body := src.take len ++ [0] }

/-- libc `strlen` on a block: index of the first NUL, `ub` if there is none. -/
def cstrlen : List UInt8 → Exec Nat
  | [] => .ub
  | b :: l => if b = 0 then .ok 0 else do let n ← cstrlen l; .ok (n + 1)

/-- o_string.c:143-144 `Object_FromString(src, -1)`. -/
def fromCString (src : List UInt8) : Exec Str := do
  let len ← cstrlen src
  fromString src len

/-- o_string.c:79-86, the scan loop.  A failing decode would make the C code
continue with a wrong offset; it is modelled as `ub` (and proved unreachable for
strings made by `fromString`). -/
def scan (s : Str) : (idx : Nat) → (scanned : Nat) → Exec Nat
  | 0, scanned => .ok scanned
  | idx + 1, scanned =>
    match Utf8.decode s.body scanned (s.bytes - scanned) with
    | .ok (_, n) => scan s idx (scanned + n)
    | .err => .ub
    | .ub => .ub
    | .diverge => .diverge

/-- o_string.c:68-90 `char_index_to_offset`. -/
def charIndexToOffset (s : Str) (idx : Nat) : Exec Nat :=
  if s.count = s.bytes then .ok idx else scan s idx 0

/-- o_string.c:92-116 `select_`; the key is `some v` for an integer object holding
`v` (a 64-bit value, truncated to `int`) and `none` for a value of any other type.
A failing decode would pass a negative length on as "use strlen"; it is modelled
as `ub` and proved unreachable. -/
def select (s : Str) : (key : Option Int) → Exec Str
  | none => .err
  | some key =>
    let idx := toI32 key
    if idx < 0 ∨ idx ≥ s.count then .err
    else do
      let off ← charIndexToOffset s idx.toNat
      match Utf8.decode s.body off (s.bytes - off) with
      | .ok (_, n) => fromString (s.body.drop off) n
      | .err => .ub
      | .ub => .ub
      | .diverge => .diverge

/-- o_string.c:183-191 `hash`: hashes the first `count` (not `bytes`) bytes. -/
def hash (s : Str) : Exec (BitVec 32) := hashbytes s.body s.count

/-- libc `strncmp(a, b, n) == 0`, comparing from index `i`: stops after `n`
bytes, at the first difference, or at a common NUL. -/
def strncmpEq (a b : List UInt8) : (n i : Nat) → Exec Bool
  | 0, _ => .ok true
  | n + 1, i => do
    let x ← rd a i
    let y ← rd b i
    if x ≠ y then .ok false
    else if x = 0 then .ok true
    else strncmpEq a b n (i + 1)

/-- o_string.c:205-218 `op_eql`. -/
def opEql (s1 s2 : Str) : Exec Bool :=
  if s1.bytes = s2.bytes then strncmpEq s1.body s2.body s1.bytes 0 else .ok false

/-- o_string.c:220-229 `print`: `"%.*s"` writes the bytes up to the first NUL. -/
def print (s : Str) : List UInt8 := (s.body.take s.bytes).takeWhile (· ≠ 0)

end Noja.Str
