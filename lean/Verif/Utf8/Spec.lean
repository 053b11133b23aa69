/-!
# Specification of UTF-8 (RFC 3629), independent of the C code

Code points are numbers up to `0x10FFFF`.  (Like the C code, and unlike the
RFC, surrogates are not excluded; `Props.lean` also compares with Lean's own
encoder for `Char`, which does exclude them.)
-/

namespace Noja.Utf8.Spec

/-- A code point representable in UTF-8. -/
def Valid (c : Nat) : Prop := c ≤ 0x10FFFF

/-- The bytes, as numbers, of the UTF-8 form of a code point, written
arithmetically: digits in base 64 after a length-marking lead byte. -/
def encodeNat (c : Nat) : List Nat :=
  if c < 0x80 then [c]
  else if c < 0x800 then [192 + c / 64, 128 + c % 64]
  else if c < 0x10000 then [224 + c / 4096, 128 + c / 64 % 64, 128 + c % 64]
  else [240 + c / 262144, 128 + c / 4096 % 64, 128 + c / 64 % 64, 128 + c % 64]

/-- The UTF-8 form of a code point. -/
def encode (c : Nat) : List UInt8 := (encodeNat c).map UInt8.ofNat

/-- The UTF-8 form of a text. -/
def encodeText (t : List Nat) : List UInt8 := t.flatMap encode

end Noja.Utf8.Spec
