import Verif.Exec
import Verif.CInt
import Verif.Num.Float

/-!
# `math.floor` and `math.ceil` (builtins/math.c): C99

`floor` and `ceil` are those of the C standard: the nearest whole number that is not greater, or not less.
-/

namespace Noja.Round

open Noja.Num (scaled isNaN mag ofInt)

/-! ## Model -/

/-- Neither NaN nor infinite. -/
def finite (x : BitVec 64) : Bool := decide (mag x < 2047 * 2 ^ 52)

/-- A whole number in a `double` as `long long`: undefined if it is not one. -/
def toLongLong (n : Int) : Exec Int := if -2 ^ 63 ≤ n ∧ n < 2 ^ 63 then .ok n else .ub

/-- math.c:118-137 `bin_floor`, for floats. -/
def floor (x : BitVec 64) : Exec Int := if finite x then toLongLong (scaled x / 2 ^ 1074) else .ub

/-- math.c:97-116 `bin_ceil`, for floats. -/
def ceil (x : BitVec 64) : Exec Int := if finite x then toLongLong (-(-scaled x / 2 ^ 1074)) else .ub

/-! ## C99 -/

/-- The number that the bits stand for is at least (at most) `n`. -/
def AtLeast (x : BitVec 64) (n : Int) : Prop := n * 2 ^ 1074 ≤ scaled x
def AtMost (x : BitVec 64) (n : Int) : Prop := scaled x ≤ n * 2 ^ 1074

/-- **C99**: `floor` gives the greatest whole number that is not greater than the float, `ceil` the least that is not less. -/
def C99Statement : Prop :=
  ∀ x : BitVec 64,
    (∃ n, floor x = .ok n ∧ AtLeast x n ∧ ∀ m, AtLeast x m → m ≤ n) ∧
    ∃ n, ceil x = .ok n ∧ AtMost x n ∧ ∀ m, AtMost x m → n ≤ m

theorem le_div {a b m : Int} (hb : 0 < b) : m * b ≤ a ↔ m ≤ a / b := (Int.le_ediv_iff_mul_le hb).symm

theorem pos : (0 : Int) < 2 ^ 1074 := Int.pow_pos (by decide)

/-- When `floor` is defined, and what it gives. -/
theorem C99_floor (x : BitVec 64) (hx : finite x = true) :
    (AtLeast x (-2 ^ 63) ∧ ¬ AtLeast x (2 ^ 63) → ∃ n, floor x = .ok n ∧ AtLeast x n ∧ ∀ m, AtLeast x m → m ≤ n) ∧
    (¬ AtLeast x (-2 ^ 63) ∨ AtLeast x (2 ^ 63) → floor x = .ub) := by
  unfold floor toLongLong AtLeast
  rw [if_pos hx]
  constructor
  · rintro ⟨h1, h2⟩
    rw [le_div pos] at h1 h2
    rw [if_pos ⟨h1, Int.not_le.1 h2⟩]
    exact ⟨_, rfl, (le_div pos).2 (Int.le_refl _), fun m hm => (le_div pos).1 hm⟩
  · intro h
    rw [le_div pos, le_div pos] at h
    refine if_neg fun q => ?_
    rcases h with h | h
    · exact h q.1
    · exact Int.not_lt.2 h q.2

theorem most {a m : Int} : a ≤ m * 2 ^ 1074 ↔ -(-a / 2 ^ 1074) ≤ m := by
  have := le_div (a := -a) (m := -m) pos
  rw [Int.neg_mul] at this
  generalize m * 2 ^ 1074 = y at *
  generalize -a / 2 ^ 1074 = z at *
  omega

/-- When `ceil` is defined, and what it gives. -/
theorem C99_ceil (x : BitVec 64) (hx : finite x = true) :
    (AtMost x (2 ^ 63 - 1) ∧ ¬ AtMost x (-2 ^ 63 - 1) → ∃ n, ceil x = .ok n ∧ AtMost x n ∧ ∀ m, AtMost x m → n ≤ m) ∧
    (¬ AtMost x (2 ^ 63 - 1) ∨ AtMost x (-2 ^ 63 - 1) → ceil x = .ub) := by
  unfold ceil toLongLong AtMost
  rw [if_pos hx]
  constructor
  · rintro ⟨h1, h2⟩
    rw [most] at h1 h2
    rw [if_pos ⟨(show ∀ z : Int, ¬ z ≤ -2 ^ 63 - 1 → -2 ^ 63 ≤ z from fun z h => by omega) _ h2,
      (show ∀ z : Int, z ≤ 2 ^ 63 - 1 → z < 2 ^ 63 from fun z h => by omega) _ h1⟩]
    exact ⟨_, rfl, most.2 (Int.le_refl _), fun m hm => most.1 hm⟩
  · intro h
    rw [most, most] at h
    refine if_neg fun q => ?_
    exact (show ∀ z : Int, ¬ z ≤ 2 ^ 63 - 1 ∨ z ≤ -2 ^ 63 - 1 → -2 ^ 63 ≤ z ∧ z < 2 ^ 63 → False from fun z h q => by omega) _ h q

/-- **C99, partial**: for floats between -2^63 and 2^63 - 1. -/
theorem C99_partial (x : BitVec 64) (hx : finite x = true) (h1 : AtLeast x (-2 ^ 63)) (h2 : AtMost x (2 ^ 63 - 1)) :
    (∃ n, floor x = .ok n ∧ AtLeast x n ∧ ∀ m, AtLeast x m → m ≤ n) ∧ ∃ n, ceil x = .ok n ∧ AtMost x n ∧ ∀ m, AtMost x m → n ≤ m := by
  have hp := pos
  have e1 : ((2 : Int) ^ 63 - 1) * 2 ^ 1074 = 2 ^ 63 * 2 ^ 1074 - 2 ^ 1074 := by rw [Int.sub_mul, Int.one_mul]
  have e2 : (-(2 : Int) ^ 63 - 1) * 2 ^ 1074 = -2 ^ 63 * 2 ^ 1074 - 2 ^ 1074 := by rw [Int.sub_mul, Int.one_mul]
  refine ⟨(C99_floor x hx).1 ⟨h1, ?_⟩, (C99_ceil x hx).1 ⟨h2, ?_⟩⟩
  · unfold AtLeast AtMost at *
    rw [e1] at h2
    generalize (2 : Int) ^ 63 * 2 ^ 1074 = y at *
    generalize (2 : Int) ^ 1074 = z at *
    omega
  · unfold AtLeast AtMost at *
    rw [e2]
    generalize -(2 : Int) ^ 63 * 2 ^ 1074 = y at *
    generalize (2 : Int) ^ 1074 = z at *
    omega

/-- Integers of up to 53 bits come back. -/
theorem C99_int {v : Int} (h : v.natAbs ≤ 2 ^ 53) : floor (ofInt v) = .ok v ∧ ceil (ofInt v) = .ok v := by
  have hf : finite (ofInt v) = true := by
    unfold finite
    rw [(Num.ofInt_bits (show v.natAbs ≤ 2 ^ 63 by omega)).1]
    exact decide_eq_true (Num.magOfNat_lt (by omega))
  unfold floor ceil toLongLong
  rw [if_pos hf, if_pos hf, Num.ofInt_exact h, ← Int.neg_mul, Int.mul_ediv_cancel _ (Int.ne_of_gt pos), Int.mul_ediv_cancel _ (Int.ne_of_gt pos), Int.neg_neg,
    if_pos (by omega)]
  exact ⟨rfl, rfl⟩

/-- C99 does not hold: the conversion of 2^63 is undefined … -/
theorem C99_violated : ¬ C99Statement := by
  intro h
  obtain ⟨⟨n, h1, -⟩, -⟩ := h 0x43E0000000000000#64
  have : floor 0x43E0000000000000#64 = .ub := by decide +kernel
  rw [this] at h1
  cases h1

/-- … and so is that of infinity (1.0 / 0.0 is refused, but 1e308 * 10 is not). -/
theorem C99_violated_infinite : ¬ C99Statement := by
  intro h
  obtain ⟨⟨n, h1, -⟩, -⟩ := h 0x7FF0000000000000#64
  have : floor 0x7FF0000000000000#64 = .ub := by decide +kernel
  rw [this] at h1
  cases h1

/-- -2.5, and 2^63 - 1024, the greatest float that can be rounded. -/
example : floor 0xC004000000000000#64 = .ok (-3) ∧ ceil 0xC004000000000000#64 = .ok (-2) ∧
    floor 0x43DFFFFFFFFFFFFF#64 = .ok (2 ^ 63 - 1024) ∧ ceil 0x43DFFFFFFFFFFFFF#64 = .ok (2 ^ 63 - 1024) := by decide +kernel

end Noja.Round
