import Verif.Str.Model
import Verif.Utf8.Spec

/-! # What string values mean -/

namespace Noja.Str.Spec

/-- The bytes a string value contains, as seen by the program. -/
def contents (s : Str) : List UInt8 := s.body.take s.bytes

/-- The string value for a text (list of code points): count, byte length and bytes, and
the terminating NUL kept by the implementation. -/
def ofText (t : List Nat) : Str :=
  { count := t.length, bytes := (Utf8.Spec.encodeText t).length,
    body := Utf8.Spec.encodeText t ++ [0] }

end Noja.Str.Spec
