import Verif.Exec

/-!
# Model of `src/lib/utils/utf8.c`

Buffers are `List UInt8`: the bytes from the `char*` argument to the end of the
memory block it points into.  `nbytes`/`idx` are the C arguments (non-negative,
as the C code asserts, hence `Nat`; buffers of more than 2^31-1 bytes, which do
not fit the C `int`, are not modelled).  Every byte access goes through `rd`, so
an access outside the block is the outcome `ub`.  A return value of `-1` is `err`.
-/

namespace Noja.Utf8

/-- The byte stored by `utf8_data[k] = v` (conversion of `uint32_t` to `char`). -/
def byte (v : Nat) : UInt8 := UInt8.ofNat v

/-- utf8.c:60-106 `utf8_sequence_from_utf32_codepoint`.  Returns the bytes
written to `utf8_data[0..]`; the C return value is their number. -/
def encode (nbytes : Nat) (code : UInt32) : Exec (List UInt8) :=
  let c := code.toNat
  if c < 128 then
    if nbytes < 1 then .err else .ok [byte c]
  else if c < 2048 then
    if nbytes < 2 then .err
    else .ok [byte (0xc0 ||| (c >>> 6)), byte (0x80 ||| (c &&& 0x3f))]
  else if c < 65536 then
    if nbytes < 3 then .err
    else .ok [byte (0xe0 ||| (c >>> 12)), byte (0x80 ||| ((c >>> 6) &&& 0x3f)),
              byte (0x80 ||| (c &&& 0x3f))]
  else if c ≤ 0x10ffff then
    if nbytes < 4 then .err
    else .ok [byte (0xf0 ||| (c >>> 18)), byte (0x80 ||| ((c >>> 12) &&& 0x3f)),
              byte (0x80 ||| ((c >>> 6) &&& 0x3f)), byte (0x80 ||| (c &&& 0x3f))]
  else .err

/-- utf8.c:138-222 `utf8_sequence_to_utf32_codepoint(mem + off, nbytes, &code)`.
Returns the decoded code point and the number of bytes consumed. -/
def decode (mem : List UInt8) (off nbytes : Nat) : Exec (Nat × Nat) :=
  if nbytes = 0 then .err
  else do
    let b0 ← rd mem off
    let b0 := b0.toNat
    if b0 &&& 0x80 ≠ 0 then
      if b0 ≥ 0xF0 then
        if nbytes < 4 then .err
        else do
          let b1 ← rd mem (off + 1)
          let b2 ← rd mem (off + 2)
          let b3 ← rd mem (off + 3)
          let temp := ((b0 &&& 0x07) <<< 18) ||| ((b1.toNat &&& 0x3f) <<< 12)
                       ||| ((b2.toNat &&& 0x3f) <<< 6) ||| (b3.toNat &&& 0x3f)
          if temp > 0x10ffff then .err else .ok (temp, 4)
      else if b0 ≥ 0xE0 then
        if nbytes < 3 then .err
        else do
          let b1 ← rd mem (off + 1)
          let b2 ← rd mem (off + 2)
          let temp := ((b0 &&& 0x0f) <<< 12) ||| ((b1.toNat &&& 0x3f) <<< 6)
                       ||| (b2.toNat &&& 0x3f)
          if temp > 0x10ffff then .err else .ok (temp, 3)
      else if b0 ≥ 0xC0 then
        if nbytes < 2 then .err
        else do
          let b1 ← rd mem (off + 1)
          .ok (((b0 &&& 0x1f) <<< 6) ||| (b1.toNat &&& 0x3f), 2)
      else .ok (b0 &&& 0x3f, 1)
    else .ok (b0, 1)

/-- utf8.c:265-266, the "skip through ASCII" loop: the index of the first
non-ASCII byte at or after `i`, or `nbytes`.  `fuel` bounds the iterations. -/
def skipAscii (mem : List UInt8) (nbytes : Nat) : (fuel : Nat) → (i : Nat) → Exec Nat
  | 0, _ => .diverge
  | fuel + 1, i =>
    if i < nbytes then do
      let b ← rd mem i
      if b.toNat &&& 0x80 = 0 then skipAscii mem nbytes fuel (i + 1) else .ok i
    else .ok i

/-- utf8.c:257-291, the main loop of `utf8_strlen` with its locals `i` and `len`. -/
def strlenLoop (mem : List UInt8) (nbytes : Nat) : (fuel : Nat) → (i len : Nat) → Exec Nat
  | 0, _, _ => .diverge
  | fuel + 1, i, len =>
    if i < nbytes then do
      let j ← skipAscii mem nbytes (nbytes + 1) i
      let len := len + (j - i)
      if j = nbytes then .ok len
      else do
        let (_, n) ← decode mem j (nbytes - j)
        strlenLoop mem nbytes fuel (j + n) (len + 1)
    else .ok len

/-- utf8.c:249-293 `utf8_strlen`. -/
def strlen (mem : List UInt8) (nbytes : Nat) : Exec Nat :=
  strlenLoop mem nbytes (nbytes + 1) 0 0

/-- utf8.c:363-364, skip continuation bytes backwards.  The C `int idx` going
down to -1 is modelled by `i = idx + 1` going down to 0. -/
def skipAux (mem : List UInt8) : (i : Nat) → Exec Nat
  | 0 => .ok 0
  | i + 1 => do
    let b ← rd mem i
    if b.toNat &&& 0xc0 = 0x80 then skipAux mem i else .ok (i + 1)

/-- utf8.c:325-398 `utf8_prev`.  Returns the index and, if one was decoded, the
code point. -/
def prev (mem : List UInt8) (idx : Nat) : Exec (Nat × Option Nat) :=
  match idx with
  | 0 => .ok (0, none)
  | tail + 1 => do
    let b ← rd mem tail
    if b.toNat &&& 0x80 = 0 then .ok (tail, some b.toNat)
    else do
      let h ← skipAux mem (tail + 1)
      match h with
      | 0 => .err
      | head + 1 => do
        let (code, n) ← decode mem head (tail - head + 1)
        if n < tail - head + 1 then .err else .ok (head, some code)

/-- utf8.c:430-445 `utf8_next`.  Note that `nbytes`, not `nbytes - idx`, is
passed on. -/
def next (mem : List UInt8) (nbytes idx : Nat) : Exec (Nat × Nat) := do
  let (_, n) ← decode mem idx nbytes
  let (code, _) ← decode mem (idx + n) nbytes
  .ok (idx + n, code)

/-- utf8.c:447-455 `utf8_curr`. -/
def curr (mem : List UInt8) (nbytes idx : Nat) : Exec Nat := do
  let (code, _) ← decode mem idx (nbytes - idx)
  .ok code

end Noja.Utf8
