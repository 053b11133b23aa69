import Verif.Exec
import Verif.CInt

/-!
# `random.generate` (builtins/random.c:21-35) and property C92

Floating point numbers are rational numbers here; every operation rounds its exact result.  All that is
known about rounding is that it is monotone and leaves numbers alone that need no rounding (`Rounding`), which
holds in all rounding modes of IEEE 754.  `rand()` returns a number up to `RAND_MAX`, which is
2147483647 in glibc.
-/

set_option linter.unusedVariables false

namespace Noja.Builtin.Random

/-- Numbers with 53 bits. -/
def Exact (x : Rat) : Prop := ∃ (m : Int) (k : Nat), m.natAbs ≤ 2 ^ 53 ∧ k ≤ 900 ∧ (x = m * 2 ^ k ∨ x * 2 ^ k = m)

structure Rounding where
  rnd : Rat → Rat
  mono : ∀ x y, x ≤ y → rnd x ≤ rnd y
  exact : ∀ x, Exact x → rnd x = x

/-! ## Model -/

def randMax : Nat := 2147483647

/-- Conversion to an integer. -/
def trunc (x : Rat) : Int := if 0 ≤ x then x.floor else x.ceil

/-- random.c:21-35 `bin_generate`, after the arguments have been looked at; `r` is what `rand()` returns.  The
result goes through `va_arg(va, int)` (utils.c:17). -/
def generate (F : Rounding) (min max : Option Int) (r : Nat) : Exec Int :=
  let lo := min.getD 0
  let hi := max.getD (2 ^ 63 - 1)
  if IsI64 (hi - lo) then
    let product := F.rnd (F.rnd ((hi - lo : Int) : Rat) * F.rnd (r : Rat))
    let quotient := F.rnd (product / F.rnd (randMax : Rat))
    let sum := F.rnd (F.rnd (lo : Rat) + quotient)
    if IsI64 (trunc sum) then .ok (toI32 (trunc sum)) else .ub
  else .ub

/-! ## Property -/

/-- **C92**: the number is between the bounds. -/
def C92Statement (F : Rounding) : Prop :=
  ∀ (lo hi : Int), IsI64 lo → IsI64 hi → lo ≤ hi → ∀ r, r ≤ randMax →
    ∃ v, generate F (some lo) (some hi) r = .ok v ∧ lo ≤ v ∧ v ≤ hi

theorem exact_int {v : Int} (h : v.natAbs ≤ 2 ^ 53) : Exact (v : Rat) := ⟨v, 0, h, by omega, .inl (by grind)⟩

theorem exact_big (m : Int) (k : Nat) (h : m.natAbs ≤ 2 ^ 53) (hk : k ≤ 900) : Exact ((m : Rat) * 2 ^ k) := ⟨m, k, h, hk, .inl rfl⟩

theorem trunc_mono_lo {x : Rat} {v : Int} (h : (v : Rat) ≤ x) : v ≤ trunc x := by
  unfold trunc
  by_cases hx : 0 ≤ x
  · rw [if_pos hx]; exact Rat.le_floor_iff.2 h
  · rw [if_neg hx]
    have := Rat.le_ceil (x := x)
    have : (v : Rat) ≤ (x.ceil : Rat) := by grind
    exact Rat.intCast_le_intCast.1 this

theorem trunc_mono_hi {x : Rat} {v : Int} (h : x ≤ v) : trunc x ≤ v := by
  unfold trunc
  by_cases hx : 0 ≤ x
  · rw [if_pos hx]
    have := Rat.floor_le (a := x)
    have : (x.floor : Rat) ≤ (v : Rat) := by grind
    exact Rat.intCast_le_intCast.1 this
  · rw [if_neg hx]; exact Rat.ceil_le_iff.2 h

theorem trunc_int (v : Int) : trunc (v : Rat) = v :=
  Int.le_antisymm (trunc_mono_hi Rat.le_refl) (trunc_mono_lo Rat.le_refl)

theorem rnd_int (F : Rounding) {v : Int} (h : v.natAbs ≤ 2 ^ 53) : F.rnd (v : Rat) = v := F.exact _ (exact_int h)

theorem rnd_max (F : Rounding) : F.rnd (randMax : Rat) = 2147483647 := by
  have := rnd_int F (v := 2147483647) (by decide)
  exact this

theorem rnd_zero (F : Rounding) : F.rnd 0 = 0 := by
  have := rnd_int F (v := 0) (by decide)
  exact this

/-- A product that is a little larger than it should be at most. -/
theorem product_hi (F : Rounding) (d : Int) (r : Nat) (h0 : 0 ≤ d) (h1 : d < 2 ^ 32) (hr : r ≤ randMax) :
    F.rnd ((d : Rat) * (r : Rat)) ≤ (d : Rat) * 2147483647 + 1024 := by
  have hm : (d * 2147483647 / 1024 + 1).natAbs ≤ 2 ^ 53 := by omega
  have he := F.exact _ (exact_big (d * 2147483647 / 1024 + 1) 10 hm (by omega))
  have hdr : d * (r : Int) ≤ d * 2147483647 := Int.mul_le_mul_of_nonneg_left (by unfold randMax at hr; omega) h0
  have hle : d * (r : Int) ≤ (d * 2147483647 / 1024 + 1) * 1024 := by omega
  have hle2 : (d * 2147483647 / 1024 + 1) * 1024 ≤ d * 2147483647 + 1024 := by omega
  have c1 : ((d * (r : Int) : Int) : Rat) ≤ (((d * 2147483647 / 1024 + 1) * 1024 : Int) : Rat) := Rat.intCast_le_intCast.2 hle
  have c2 : (((d * 2147483647 / 1024 + 1) * 1024 : Int) : Rat) ≤ ((d * 2147483647 + 1024 : Int) : Rat) := Rat.intCast_le_intCast.2 hle2
  have c3 := F.mono _ _ c1
  rw [Rat.intCast_mul] at c3
  have e : (((d * 2147483647 / 1024 + 1) * 1024 : Int) : Rat) = ((d * 2147483647 / 1024 + 1 : Int) : Rat) * 2 ^ 10 := by
    rw [Rat.intCast_mul]; rfl
  rw [e, he, ← e] at c3
  have e2 : ((d * 2147483647 + 1024 : Int) : Rat) = (d : Rat) * 2147483647 + 1024 := by
    rw [Rat.intCast_add, Rat.intCast_mul]; rfl
  rw [← e2]
  exact Rat.le_trans c3 c2

theorem exact_frac (v : Int) (h : (v * 1048576 + 1).natAbs ≤ 2 ^ 53) : Exact ((v : Rat) + 1 / 1048576) := by
  refine ⟨v * 1048576 + 1, 20, h, by omega, .inr ?_⟩
  have e : ((v * 1048576 + 1 : Int) : Rat) = (v : Rat) * 1048576 + 1 := by rw [Rat.intCast_add, Rat.intCast_mul]; rfl
  rw [e]
  grind

/-- The bounds of the product of the width and a random number. -/
theorem generate_eq (F : Rounding) {lo hi : Int} (hl : IsI32 lo) (hh : IsI32 hi) (h : lo ≤ hi) {r : Nat} (hr : r ≤ randMax) {v : Int}
    (hv : IsI32 v) (ht : trunc (F.rnd ((lo : Rat) + F.rnd (F.rnd (((hi - lo : Int) : Rat) * (r : Rat)) / 2147483647))) = v) :
    generate F (some lo) (some hi) r = .ok v := by
  unfold IsI32 at hl hh
  have e1 := rnd_int F (v := hi - lo) (by omega)
  have e2 : F.rnd (r : Rat) = r := rnd_int F (v := (r : Int)) (by unfold randMax at hr; omega)
  have e3 := rnd_int F (v := lo) (by omega)
  unfold generate
  simp only [Option.getD_some]
  rw [if_pos (show IsI64 (hi - lo) by unfold IsI64; omega), e1, e2, e3, rnd_max, ht,
    if_pos (show IsI64 v by unfold IsI64; unfold IsI32 at hv; omega), toI32_of_isI32 hv]

/-- C92 for bounds of 32 bits, if zero or some number above it is allowed. -/
theorem C92_partial (F : Rounding) (lo hi : Int) (hl : IsI32 lo) (hh : IsI32 hi) (h : lo ≤ hi) (h0 : 0 ≤ hi) (r : Nat)
    (hr : r ≤ randMax) : ∃ v, generate F (some lo) (some hi) r = .ok v ∧ lo ≤ v ∧ v ≤ hi := by
  have hl' := hl
  have hh' := hh
  unfold IsI32 at hl' hh'
  have hp := product_hi F (hi - lo) r (by omega) (by omega) hr
  have hp0 : 0 ≤ F.rnd (((hi - lo : Int) : Rat) * (r : Rat)) := by
    rw [← rnd_zero F]
    refine F.mono _ _ (Rat.mul_nonneg ?_ ?_)
    · exact Rat.intCast_le_intCast.2 (by omega : (0 : Int) ≤ hi - lo)
    · exact Rat.intCast_le_intCast.2 (by omega : (0 : Int) ≤ (r : Int))
  generalize hpe : F.rnd (((hi - lo : Int) : Rat) * (r : Rat)) = p at hp hp0
  have hq : F.rnd (p / 2147483647) ≤ ((hi - lo : Int) : Rat) + 1 / 1048576 := by
    rw [← F.exact _ (exact_frac (hi - lo) (by omega))]
    refine F.mono _ _ ?_
    grind
  have hq0 : 0 ≤ F.rnd (p / 2147483647) := by
    rw [← rnd_zero F]
    refine F.mono _ _ ?_
    grind
  generalize hqe : F.rnd (p / 2147483647) = q at hq hq0
  have es : ((hi - lo : Int) : Rat) = (hi : Rat) - (lo : Rat) := Rat.intCast_sub ..
  have hs : F.rnd ((lo : Rat) + q) ≤ (hi : Rat) + 1 / 1048576 := by
    rw [← F.exact _ (exact_frac hi (by omega))]
    refine F.mono _ _ ?_
    rw [es] at hq
    grind
  have hs0 : (lo : Rat) ≤ F.rnd ((lo : Rat) + q) := by
    rw [← rnd_int F (v := lo) (by omega)]
    conv => rhs; rw [rnd_int F (v := lo) (by omega)]
    refine F.mono _ _ ?_
    grind
  have h1 := trunc_mono_lo hs0
  have h2 : trunc (F.rnd ((lo : Rat) + q)) ≤ hi := by
    unfold trunc
    by_cases hx : 0 ≤ F.rnd ((lo : Rat) + q)
    · rw [if_pos hx]
      have := Rat.floor_le (a := F.rnd ((lo : Rat) + q))
      have h3 : ((F.rnd ((lo : Rat) + q)).floor : Rat) < ((hi + 1 : Int) : Rat) := by
        rw [Rat.intCast_add]
        have : ((1 : Int) : Rat) = 1 := rfl
        grind
      have := Rat.intCast_lt_intCast.1 h3
      omega
    · rw [if_neg hx]
      have : (F.rnd ((lo : Rat) + q)).ceil ≤ 0 := Rat.ceil_le_iff.2 (by have : ((0 : Int) : Rat) = 0 := rfl; grind)
      omega
  exact ⟨_, generate_eq F hl hh h hr (v := trunc (F.rnd ((lo : Rat) + q))) (by unfold IsI32; omega) (by rw [hpe, hqe]), h1, h2⟩

/-- C92 for bounds of 32 bits that are not too far apart; there the ends are what the smallest and the largest random number
give. -/
theorem C92_narrow_partial (F : Rounding) (lo hi : Int) (hl : IsI32 lo) (hh : IsI32 hi) (h : lo ≤ hi) (hw : hi - lo ≤ 2 ^ 22) :
    (∀ r, r ≤ randMax → ∃ v, generate F (some lo) (some hi) r = .ok v ∧ lo ≤ v ∧ v ≤ hi) ∧
    generate F (some lo) (some hi) 0 = .ok lo ∧ generate F (some lo) (some hi) randMax = .ok hi := by
  have hl' := hl
  have hh' := hh
  unfold IsI32 at hl' hh'
  have es : ((hi - lo : Int) : Rat) = (hi : Rat) - (lo : Rat) := Rat.intCast_sub ..
  have hexact : ∀ r : Nat, r ≤ randMax → F.rnd (((hi - lo : Int) : Rat) * (r : Rat)) = ((hi - lo : Int) : Rat) * (r : Rat) := by
    intro r hr
    have hdr : (hi - lo) * (r : Int) ≤ (hi - lo) * 2147483647 :=
      Int.mul_le_mul_of_nonneg_left (by unfold randMax at hr; omega) (by omega)
    have h0 : 0 ≤ (hi - lo) * (r : Int) := Int.mul_nonneg (by omega) (by omega)
    have := rnd_int F (v := (hi - lo) * (r : Int)) (by omega)
    rw [Rat.intCast_mul] at this
    exact this
  have hD : (0 : Rat) ≤ ((hi - lo : Int) : Rat) := Rat.intCast_le_intCast.2 (by omega : (0 : Int) ≤ hi - lo)
  refine ⟨fun r hr => ?_, ?_, ?_⟩
  · have hr1 : (r : Rat) ≤ 2147483647 := Rat.intCast_le_intCast.2 (by unfold randMax at hr; omega : (r : Int) ≤ 2147483647)
    have hr0 : (0 : Rat) ≤ (r : Rat) := Rat.intCast_le_intCast.2 (by omega : (0 : Int) ≤ (r : Int))
    have hm1 : ((hi - lo : Int) : Rat) * (r : Rat) ≤ ((hi - lo : Int) : Rat) * 2147483647 := Rat.mul_le_mul_of_nonneg_left hr1 hD
    have hm0 := Rat.mul_nonneg hD hr0
    have hx := hexact r hr
    generalize hpe : ((hi - lo : Int) : Rat) * (r : Rat) = p at hm1 hm0 hx
    have hq : F.rnd (p / 2147483647) ≤ ((hi - lo : Int) : Rat) := by
      conv => rhs; rw [← rnd_int F (v := hi - lo) (by omega)]
      refine F.mono _ _ ?_
      grind
    have hq0 : 0 ≤ F.rnd (p / 2147483647) := by
      rw [← rnd_zero F]
      refine F.mono _ _ ?_
      grind
    generalize hqe : F.rnd (p / 2147483647) = q at hq hq0
    have hs : F.rnd ((lo : Rat) + q) ≤ (hi : Rat) := by
      conv => rhs; rw [← rnd_int F (v := hi) (by omega)]
      refine F.mono _ _ ?_
      rw [es] at hq
      grind
    have hs0 : (lo : Rat) ≤ F.rnd ((lo : Rat) + q) := by
      conv => lhs; rw [← rnd_int F (v := lo) (by omega)]
      refine F.mono _ _ ?_
      grind
    have h1 := trunc_mono_lo hs0
    have h2 := trunc_mono_hi hs
    exact ⟨_, generate_eq F hl hh h hr (v := trunc (F.rnd ((lo : Rat) + q))) (by unfold IsI32; omega) (by rw [hpe, hx, hqe]), h1, h2⟩
  · refine generate_eq F hl hh h (Nat.zero_le _) hl ?_
    have e0 : ((0 : Nat) : Rat) = 0 := rfl
    have e1 : ((hi - lo : Int) : Rat) * ((0 : Nat) : Rat) = 0 := by rw [e0]; grind
    have e2 : (0 : Rat) / 2147483647 = 0 := by grind
    have e3 : (lo : Rat) + 0 = lo := by grind
    rw [e1, rnd_zero, e2, rnd_zero, e3, rnd_int F (by omega)]
    exact trunc_int lo
  · refine generate_eq F hl hh h (Nat.le_refl _) hh ?_
    rw [hexact _ (Nat.le_refl _)]
    have e0 : ((randMax : Nat) : Rat) = 2147483647 := rfl
    have e1 : ((hi - lo : Int) : Rat) * ((randMax : Nat) : Rat) / 2147483647 = ((hi - lo : Int) : Rat) := by rw [e0]; grind
    have e2 : (lo : Rat) + ((hi - lo : Int) : Rat) = hi := by rw [es]; grind
    rw [e1, rnd_int F (v := hi - lo) (by omega), e2, rnd_int F (v := hi) (by omega)]
    exact trunc_int hi

/-- Arithmetic that needs no rounding. -/
def noRounding : Rounding := ⟨id, fun _ _ h => h, fun _ _ => rfl⟩

/-- The numbers -3 to 10, with half of the largest random number. -/
example : generate noRounding (some (-3)) (some 10) 1073741823 = .ok 3 := by decide +kernel

/-- C92 does not hold, whatever the rounding: the result is cut to 32 bits. -/
theorem C92_violated (F : Rounding) : ¬ C92Statement F := by
  intro h
  obtain ⟨v, e, h1, h2⟩ := h 0 (2 ^ 31) (by decide) (by decide) (by decide) randMax (Nat.le_refl _)
  have e1 : F.rnd ((2147483648 : Int) : Rat) = (2147483648 : Rat) := rnd_int F (by decide)
  have e2 : F.rnd ((2147483648 : Rat) * 2147483647) = (2147483648 : Rat) * 2147483647 := by
    have := F.exact _ (exact_big 2147483647 31 (by decide) (by decide))
    have e : ((2147483647 : Int) : Rat) * 2 ^ 31 = (2147483648 : Rat) * 2147483647 := by decide +kernel
    rw [e] at this
    exact this
  have e3 : (2147483648 : Rat) * 2147483647 / 2147483647 = 2147483648 := by decide +kernel
  have e4 : F.rnd (2147483648 : Rat) = 2147483648 := e1
  have e5 : (2 ^ 31 - 0 : Int) = 2147483648 := by decide
  have e6 : F.rnd ((0 : Int) : Rat) = 0 := rnd_zero F
  have e7 : (0 : Rat) + 2147483648 = 2147483648 := by decide +kernel
  have : generate F (some 0) (some (2 ^ 31)) randMax = .ok (-2147483648) := by
    unfold generate
    simp only [Option.getD_some]
    rw [e5, if_pos (by decide), rnd_max, e1, e2, e3, e4, e6, e7, e4, if_pos (by decide +kernel)]
    decide +kernel
  rw [this] at e
  cases e
  revert h1
  decide

/-- Without arguments the largest random number gives something undefined, whatever the rounding: the sum, which is 2^63 if
2^63 - 1 is rounded up, is no integer of 64 bits. -/
theorem C92_default (F : Rounding) (hF : F.rnd ((2 ^ 63 - 1 : Int) : Rat) = 2 ^ 63) : generate F none none randMax = .ub := by
  unfold generate
  simp only [Option.getD_none]
  have e0 : F.rnd ((0 : Int) : Rat) = 0 := rnd_zero F
  have e1 : F.rnd ((2 : Rat) ^ 63 * 2147483647) = (2 : Rat) ^ 63 * 2147483647 := by
    have := F.exact _ (exact_big 2147483647 63 (by decide) (by decide))
    have e : ((2147483647 : Int) : Rat) * 2 ^ 63 = (2 : Rat) ^ 63 * 2147483647 := by decide +kernel
    rw [e] at this
    exact this
  have e2 : (2 : Rat) ^ 63 * 2147483647 / 2147483647 = 2 ^ 63 := by decide +kernel
  have e3 : F.rnd ((2 : Rat) ^ 63) = 2 ^ 63 := by
    have := F.exact _ (exact_big 1 63 (by decide) (by decide))
    have e : ((1 : Int) : Rat) * 2 ^ 63 = (2 : Rat) ^ 63 := by decide +kernel
    rw [e] at this
    exact this
  have e4 : (0 : Rat) + 2 ^ 63 = 2 ^ 63 := by decide +kernel
  have e5 : (2 ^ 63 - 1 - 0 : Int) = 2 ^ 63 - 1 := by decide
  rw [e5, if_pos (by decide), hF, rnd_max, e1, e2, e3, e0, e4, e3, if_neg (by decide +kernel)]

/-- Bounds further apart than a number of 64 bits are undefined, whatever the rounding and the random number. -/
theorem C92_apart (F : Rounding) (lo hi : Int) (h : 2 ^ 63 ≤ hi - lo) (r : Nat) : generate F (some lo) (some hi) r = .ub := by
  unfold generate
  simp only [Option.getD_some]
  rw [if_neg (by unfold IsI64; omega)]

example : IsI64 (-1) ∧ IsI64 (2 ^ 63 - 1) ∧ 2 ^ 63 ≤ (2 ^ 63 - 1 : Int) - -1 := by decide

theorem one_le_pow (k : Nat) : (1 : Rat) ≤ 2 ^ k := by
  have : (1 : Int) ≤ ((2 ^ k : Nat) : Int) := by have := Nat.one_le_two_pow (n := k); omega
  have := Rat.intCast_le_intCast.2 this
  have e : (((2 ^ k : Nat) : Int) : Rat) = 2 ^ k := by rw [Int.natCast_pow, Rat.intCast_pow]; rfl
  rw [e] at this
  exact this

/-- Arithmetic that rounds up what is between the last two integers of 64 bits. -/
def upward : Rounding where
  rnd x := if 2 ^ 63 - 1 ≤ x ∧ x ≤ 2 ^ 63 then 2 ^ 63 else x
  mono x y h := by
    by_cases h1 : (2 : Rat) ^ 63 - 1 ≤ x ∧ x ≤ 2 ^ 63 <;> by_cases h2 : (2 : Rat) ^ 63 - 1 ≤ y ∧ y ≤ 2 ^ 63 <;>
      simp only [h1, h2, and_self, if_true, if_false] <;> grind
  exact x := by
    rintro ⟨m, k, hm, hk, h | h⟩
    · by_cases h1 : (2 : Rat) ^ 63 - 1 ≤ x ∧ x ≤ 2 ^ 63
      · rw [if_pos h1]
        have e : x = ((m * 2 ^ k : Int) : Rat) := by rw [h, Rat.intCast_mul, Rat.intCast_pow]; rfl
        have c1 : (((2 : Int) ^ 63 - 1 : Int) : Rat) = 2 ^ 63 - 1 := by decide +kernel
        have c2 : (((2 : Int) ^ 63 : Int) : Rat) = 2 ^ 63 := by decide +kernel
        rw [← c1, ← c2, e] at h1
        have b1 := Rat.intCast_le_intCast.1 h1.1
        have b2 := Rat.intCast_le_intCast.1 h1.2
        have : m * 2 ^ k = 2 ^ 63 := by
          match k with
          | 0 => omega
          | k + 1 =>
            have : m * 2 ^ (k + 1) = 2 * (m * 2 ^ k) := by rw [Int.pow_succ]; grind
            omega
        rw [e, this, c2]
      · rw [if_neg h1]
    · rw [if_neg]
      rintro ⟨h1, -⟩
      have h2 := one_le_pow k
      have h3 : (2 : Rat) ^ 63 - 1 ≤ x * 2 ^ k := by
        have h0 : (0 : Rat) ≤ x := by have : (0 : Rat) ≤ 2 ^ 63 - 1 := by decide +kernel
                                      exact Rat.le_trans this h1
        have := Rat.mul_le_mul_of_nonneg_left h2 h0
        grind
      have c1 : (((2 : Int) ^ 63 - 1 : Int) : Rat) = 2 ^ 63 - 1 := by decide +kernel
      rw [h, ← c1] at h3
      have := Rat.intCast_le_intCast.1 h3
      omega

example : generate upward none none randMax = .ub := C92_default upward (by decide +kernel)

/-! ## Wide ranges of negative numbers -/

/-- Below zero the conversion to an integer rounds up, so that whatever the sum is too large counts: the largest random
number gives 0, which is not between the bounds.  The suppositions are what rounding to the nearest number, and to the even one of two,
does. -/
theorem C92_negative (F : Rounding) (h1 : F.rnd (1073742080 * 2147483647) = 1073742080 * 2147483647 + 256)
    (h2 : F.rnd ((1073742080 * 2147483647 + 256) / 2147483647) = 1073742080 + 1 / 4194304) :
    generate F (some (-1073742081)) (some (-1)) randMax = .ok 0 := by
  refine generate_eq F (by decide) (by decide) (by decide) (Nat.le_refl _) (by decide) ?_
  have e0 : (((-1 : Int) - -1073742081 : Int) : Rat) * ((randMax : Nat) : Rat) = 1073742080 * 2147483647 := by decide +kernel
  have e1 : ((-1073742081 : Int) : Rat) + (1073742080 + 1 / 4194304) = -1 + 1 / 4194304 := by decide +kernel
  have e2 : F.rnd (-1 + 1 / 4194304) = -1 + 1 / 4194304 :=
    F.exact _ ⟨-4194303, 22, by decide, by decide, .inr (by decide +kernel)⟩
  rw [e0, h1, h2, e1, e2]
  decide +kernel

/-- Arithmetic that rounds up in a place where there are no numbers of 53 bits. -/
def bump (lo hi : Rat) (h : ∀ x, Exact x → lo ≤ x → x ≤ hi → x = hi) : Rounding where
  rnd x := if lo ≤ x ∧ x ≤ hi then hi else x
  mono x y q := by
    by_cases h1 : lo ≤ x ∧ x ≤ hi <;> by_cases h2 : lo ≤ y ∧ y ≤ hi <;>
      simp only [h1, h2, and_self, if_true, if_false] <;> grind
  exact x q := by
    by_cases h1 : lo ≤ x ∧ x ≤ hi
    · rw [if_pos h1, h x q h1.1 h1.2]
    · rw [if_neg h1]

def both (F G : Rounding) : Rounding where
  rnd x := F.rnd (G.rnd x)
  mono x y q := F.mono _ _ (G.mono _ _ q)
  exact x q := by rw [G.exact x q, F.exact x q]

theorem pow_rat (k : Nat) : (((2 : Int) ^ k : Int) : Rat) = 2 ^ k := by rw [Rat.intCast_pow]; rfl

theorem rat_pow_add (i j : Nat) : (2 : Rat) ^ (i + j) = 2 ^ i * 2 ^ j := by
  rw [← pow_rat, Int.pow_add, Rat.intCast_mul, pow_rat, pow_rat]

theorem mul_pow_le {m : Int} {k n : Nat} {x : Int} (hm : m.natAbs ≤ 2 ^ 53) (hk : k ≤ n) (h : x = m * 2 ^ k) : x ≤ 2 ^ (53 + n) := by
  have h1 : m * 2 ^ k ≤ 2 ^ 53 * 2 ^ k := Int.mul_le_mul_of_nonneg_right (by omega) (Int.le_of_lt (Int.pow_pos (by decide)))
  have h2 : (2 : Int) ^ 53 * 2 ^ k = 2 ^ (53 + k) := (Int.pow_add ..).symm
  have h3 : ((2 ^ (53 + k) : Nat) : Int) ≤ ((2 ^ (53 + n) : Nat) : Int) := Int.ofNat_le.2 (Nat.pow_le_pow_right (by decide) (by omega))
  rw [Int.natCast_pow, Int.natCast_pow] at h3
  have h3 : (2 : Int) ^ (53 + k) ≤ 2 ^ (53 + n) := h3
  omega

/-- There are no numbers of 53 bits below the product. -/
theorem gap_product (x : Rat) (hx : Exact x) (h1 : 1073742080 * 2147483647 ≤ x) (h2 : x ≤ 1073742080 * 2147483647 + 256) :
    x = 1073742080 * 2147483647 + 256 := by
  have c1 : ((2305843557895765760 : Int) : Rat) = 1073742080 * 2147483647 := by decide +kernel
  have c2 : ((2305843557895766016 : Int) : Rat) = 1073742080 * 2147483647 + 256 := by decide +kernel
  rw [← c1] at h1
  rw [← c2] at h2 ⊢
  obtain ⟨m, k, hm, hk, h | h⟩ := hx
  · have e : x = ((m * 2 ^ k : Int) : Rat) := by rw [h, Rat.intCast_mul, pow_rat]
    rw [e] at h1 h2 ⊢
    have b1 := Rat.intCast_le_intCast.1 h1
    have b2 := Rat.intCast_le_intCast.1 h2
    have hk9 : 9 ≤ k := by
      refine Nat.le_of_not_lt fun q => ?_
      have := mul_pow_le (n := 8) (x := m * 2 ^ k) hm (by omega) rfl
      omega
    obtain ⟨j, rfl⟩ := Nat.exists_eq_add_of_le hk9
    have e2 : m * 2 ^ (9 + j) = 512 * (m * 2 ^ j) := by rw [Int.pow_add]; grind
    have : m * 2 ^ (9 + j) = 2305843557895766016 := by omega
    rw [this]
  · have h3 : x ≤ x * 2 ^ k := by
      have h0 : (0 : Rat) ≤ x := Rat.le_trans (by decide +kernel) h1
      have := Rat.mul_le_mul_of_nonneg_left (one_le_pow k) h0
      grind
    rw [h] at h3
    have := Rat.intCast_le_intCast.1 (Rat.le_trans h1 h3)
    omega

/-- There are no numbers of 53 bits below the quotient. -/
theorem gap_quotient (x : Rat) (hx : Exact x) (h1 : (1073742080 * 2147483647 + 256) / 2147483647 ≤ x)
    (h2 : x ≤ 1073742080 + 1 / 4194304) : x = 1073742080 + 1 / 4194304 := by
  have key : ∀ z : Int, x * 4194304 = z → x = 1073742080 + 1 / 4194304 := by
    intro z hz
    have b1 : ((4503600701112320 : Int) : Rat) < (z : Rat) := by
      have : ((4503600701112320 : Int) : Rat) < (1073742080 * 2147483647 + 256) / 2147483647 * 4194304 := by decide +kernel
      grind
    have b2 : (z : Rat) ≤ ((4503600701112321 : Int) : Rat) := by
      have : (1073742080 + 1 / 4194304) * 4194304 = ((4503600701112321 : Int) : Rat) := by decide +kernel
      grind
    have b1 := Rat.intCast_lt_intCast.1 b1
    have b2 := Rat.intCast_le_intCast.1 b2
    have : z = 4503600701112321 := by omega
    rw [this] at hz
    have c : ((4503600701112321 : Int) : Rat) = (1073742080 + 1 / 4194304) * 4194304 := by decide +kernel
    rw [c] at hz
    grind
  obtain ⟨m, k, hm, hk, h | h⟩ := hx
  · refine key (m * 2 ^ k * 4194304) ?_
    rw [Rat.intCast_mul, Rat.intCast_mul, pow_rat, h]
    rfl
  · have hk22 : k ≤ 22 := by
      refine Nat.le_of_not_lt fun q => ?_
      obtain ⟨j, rfl⟩ := Nat.exists_eq_add_of_le (show 23 ≤ k by omega)
      have h3 : x * 8388608 ≤ x * 2 ^ (23 + j) := by
        refine Rat.mul_le_mul_of_nonneg_left ?_ (Rat.le_trans (by decide +kernel) h1)
        have := one_le_pow j
        rw [rat_pow_add]
        have c : (2 : Rat) ^ 23 = 8388608 := by decide +kernel
        rw [c]
        grind
      have h4 : ((9007199254740993 : Int) : Rat) ≤ x * 8388608 := by
        have : ((9007199254740993 : Int) : Rat) ≤ (1073742080 * 2147483647 + 256) / 2147483647 * 8388608 := by decide +kernel
        grind
      rw [h] at h3
      have := Rat.intCast_le_intCast.1 (Rat.le_trans h4 h3)
      omega
    obtain ⟨j, hj⟩ := Nat.exists_eq_add_of_le hk22
    refine key (m * 2 ^ j) ?_
    rw [Rat.intCast_mul, pow_rat, ← h, Rat.mul_assoc, ← rat_pow_add, ← hj]
    have c : (2 : Rat) ^ 22 = 4194304 := by decide +kernel
    rw [c]

/-- Arithmetic that rounds as `C92_negative` supposes. -/
def nearest : Rounding := both (bump _ _ gap_product) (bump _ _ gap_quotient)

example : generate nearest (some (-1073742081)) (some (-1)) randMax = .ok 0 := C92_negative nearest (by decide +kernel) (by decide +kernel)

end Noja.Builtin.Random
