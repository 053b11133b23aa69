/-! C integer conversions used by the models (x86-64: `int` 32 bit, `long long` and
`size_t` 64 bit, two's complement). -/

namespace Noja

/-- Conversion of a wider signed integer to `int` (implementation defined in C;
gcc wraps modulo 2^32). -/
def toI32 (v : Int) : Int := Int.bmod v (2 ^ 32)

/-- Conversion of an integer to `long long` (wraps modulo 2^64). -/
def toI64 (v : Int) : Int := Int.bmod v (2 ^ 64)

/-- Conversion of a signed integer to `size_t` (modulo 2^64). -/
def toSize (v : Int) : Nat := (v % (2 ^ 64 : Int)).toNat

/-- Conversion of a signed integer to `uint32_t` (modulo 2^32). -/
def toU32 (v : Int) : Nat := (v % (2 ^ 32 : Int)).toNat

/-- The values of `long long`. -/
def IsI64 (v : Int) : Prop := -2 ^ 63 ≤ v ∧ v < 2 ^ 63

/-- The values of `int`. -/
def IsI32 (v : Int) : Prop := -2 ^ 31 ≤ v ∧ v < 2 ^ 31

instance (v : Int) : Decidable (IsI64 v) := inferInstanceAs (Decidable (_ ∧ _))
instance (v : Int) : Decidable (IsI32 v) := inferInstanceAs (Decidable (_ ∧ _))

theorem toI32_of_isI32 {v : Int} (h : IsI32 v) : toI32 v = v := by
  unfold toI32 IsI32 at *
  rw [Int.bmod_eq_of_le] <;> omega

theorem toI64_of_isI64 {v : Int} (h : IsI64 v) : toI64 v = v := by
  unfold toI64 IsI64 at *
  rw [Int.bmod_eq_of_le] <;> omega

end Noja
