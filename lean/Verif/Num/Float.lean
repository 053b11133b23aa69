/-! # IEEE-754 binary64 as used by the code

Doubles are represented by their bits.  `<` and friends are modelled the way the bits are compared
(sign and magnitude), conversion from `long long` by rounding to nearest, ties to even. -/

namespace Noja.Num

/-- Sign bit. -/
def sign (x : BitVec 64) : Bool := decide (x.toNat ≥ 2 ^ 63)

/-- Exponent and mantissa bits, as one number. -/
def mag (x : BitVec 64) : Nat := x.toNat % 2 ^ 63

def isNaN (x : BitVec 64) : Bool := decide (mag x > 2047 * 2 ^ 52)

/-- The bits as a sign-magnitude number: its order is the order of doubles. -/
def key (x : BitVec 64) : Int := if sign x then -(mag x : Int) else (mag x : Int)

/-- C's `<` on doubles. -/
def lt (x y : BitVec 64) : Bool := !isNaN x && !isNaN y && decide (key x < key y)

/-- C's `<=` on doubles. -/
def le (x y : BitVec 64) : Bool := !isNaN x && !isNaN y && decide (key x ≤ key y)

/-- Magnitude bits of the double nearest to `n` (ties to even). -/
def magOfNat (n : Nat) : Nat :=
  if n = 0 then 0
  else
    let k := n.log2
    if k ≤ 52 then (k + 1022) * 2 ^ 52 + n * 2 ^ (52 - k)
    else
      let s := k - 52
      let q := n / 2 ^ s
      let r := n % 2 ^ s
      let up := decide (2 * r > 2 ^ s) || (decide (2 * r = 2 ^ s) && decide (q % 2 = 1))
      (k + 1022) * 2 ^ 52 + (q + if up then 1 else 0)

/-- `(double) v` for a `long long` value. -/
def ofInt (v : Int) : BitVec 64 :=
  BitVec.ofNat 64 (magOfNat v.natAbs + if v < 0 then 2 ^ 63 else 0)

/-! ## Numeric meaning -/

/-- The number a double stands for, times 2^1074 (which makes every finite double an integer). -/
def scaledMag (m : Nat) : Nat :=
  if m / 2 ^ 52 = 0 then m % 2 ^ 52 else (2 ^ 52 + m % 2 ^ 52) * 2 ^ (m / 2 ^ 52 - 1)

def scaled (x : BitVec 64) : Int :=
  if sign x then -(scaledMag (mag x) : Int) else (scaledMag (mag x) : Int)

theorem scaledMag_step (m : Nat) : scaledMag m < scaledMag (m + 1) := by
  unfold scaledMag
  have hm := Nat.div_add_mod m (2 ^ 52)
  have hm' := Nat.div_add_mod (m + 1) (2 ^ 52)
  have l := Nat.mod_lt m (show 2 ^ 52 > 0 by decide)
  have l' := Nat.mod_lt (m + 1) (show 2 ^ 52 > 0 by decide)
  generalize hq : m / 2 ^ 52 = q at *
  generalize hr : m % 2 ^ 52 = r at *
  generalize hq' : (m + 1) / 2 ^ 52 = q' at *
  generalize hr' : (m + 1) % 2 ^ 52 = r' at *
  by_cases c : r + 1 < 2 ^ 52
  · have e1 : q' = q := by omega
    have e2 : r' = r + 1 := by omega
    rw [e1, e2]
    split
    · omega
    · exact Nat.mul_lt_mul_of_pos_right (by omega) (Nat.two_pow_pos _)
  · have e1 : q' = q + 1 := by omega
    have e2 : r' = 0 := by omega
    rw [e1, e2]
    rw [if_neg (by omega : ¬ q + 1 = 0)]
    split
    · next h => subst h; simp; omega
    · next h =>
      have : 2 ^ (q + 1 - 1) = 2 ^ (q - 1) * 2 := by
        rw [← Nat.pow_succ]; congr 1; omega
      rw [this]
      have p := Nat.two_pow_pos (q - 1)
      generalize 2 ^ (q - 1) = t at *
      calc (2 ^ 52 + r) * t < (2 ^ 52 + 2 ^ 52) * t := Nat.mul_lt_mul_of_pos_right (by omega) p
        _ = (2 ^ 52 + 0) * (t * 2) := by omega

theorem scaledMag_lt {a b : Nat} : a < b ↔ scaledMag a < scaledMag b := by
  have mono : ∀ {a b}, a < b → scaledMag a < scaledMag b := by
    intro a b h
    induction b with
    | zero => omega
    | succ b ih =>
      rcases Nat.lt_succ_iff_lt_or_eq.mp h with h' | rfl
      · exact Nat.lt_trans (ih h') (scaledMag_step b)
      · exact scaledMag_step a
  constructor
  · exact mono
  · intro h
    rcases Nat.lt_trichotomy a b with q | q | q
    · exact q
    · subst q; omega
    · have := mono q; omega

theorem scaledMag_zero : scaledMag 0 = 0 := by decide

/-- The order of the bits is the order of the numbers. -/
theorem key_lt_iff (x y : BitVec 64) : key x < key y ↔ scaled x < scaled y := by
  have h1 := @scaledMag_lt (mag x) (mag y)
  have h2 := @scaledMag_lt (mag y) (mag x)
  have h3 := @scaledMag_lt 0 (mag x)
  have h4 := @scaledMag_lt 0 (mag y)
  rw [scaledMag_zero] at h3 h4
  unfold key scaled
  generalize scaledMag (mag x) = p at *
  generalize scaledMag (mag y) = q at *
  generalize mag x = a at *
  generalize mag y = b at *
  cases sign x <;> cases sign y <;> simp <;> omega

theorem key_le_iff (x y : BitVec 64) : key x ≤ key y ↔ scaled x ≤ scaled y := by
  have := key_lt_iff y x
  omega

theorem scaledMag_add (e m : Nat) (he : 0 < e) (h1 : 2 ^ 52 ≤ m) (h2 : m < 2 ^ 53) :
    scaledMag ((e - 1) * 2 ^ 52 + m) = m * 2 ^ (e - 1) := by
  unfold scaledMag
  have e1 : ((e - 1) * 2 ^ 52 + m) / 2 ^ 52 = e := by omega
  have e2 : ((e - 1) * 2 ^ 52 + m) % 2 ^ 52 = m - 2 ^ 52 := by omega
  rw [e1, e2, if_neg (by omega), show 2 ^ 52 + (m - 2 ^ 52) = m from by omega]

/-- Integers up to 2^53 are converted exactly. -/
theorem magOfNat_exact {n : Nat} (h : n ≤ 2 ^ 53) : scaledMag (magOfNat n) = n * 2 ^ 1074 := by
  unfold magOfNat
  by_cases z : n = 0
  · subst z; rw [if_pos rfl]; simp [scaledMag_zero]
  rw [if_neg z]
  simp only []
  have l1 := Nat.log2_self_le z
  have l2 : n < 2 ^ (n.log2 + 1) := Nat.lt_log2_self
  by_cases c : n.log2 ≤ 52
  · rw [if_pos c]
    have := scaledMag_add (n.log2 + 1023) (n * 2 ^ (52 - n.log2)) (by omega) ?_ ?_
    · rw [show n.log2 + 1023 - 1 = n.log2 + 1022 from by omega] at this
      rw [this, Nat.mul_assoc, ← Nat.pow_add,
        show 52 - n.log2 + (n.log2 + 1022) = 1074 from by omega]
    · calc 2 ^ 52 = 2 ^ n.log2 * 2 ^ (52 - n.log2) := by rw [← Nat.pow_add]; congr 1; omega
        _ ≤ _ := Nat.mul_le_mul_right _ l1
    · calc n * 2 ^ (52 - n.log2) < 2 ^ (n.log2 + 1) * 2 ^ (52 - n.log2) :=
            Nat.mul_lt_mul_of_pos_right l2 (Nat.two_pow_pos _)
        _ = 2 ^ 53 := by rw [← Nat.pow_add]; congr 1; omega
  · have hn : n = 2 ^ 53 := by
      have : 2 ^ 53 ≤ 2 ^ n.log2 := Nat.pow_le_pow_right (by decide) (by omega)
      omega
    subst hn
    decide +kernel

theorem magOfNat_lt {n : Nat} (h : n ≤ 2 ^ 63) : magOfNat n < 2047 * 2 ^ 52 := by
  unfold magOfNat
  by_cases z : n = 0
  · subst z; decide
  rw [if_neg z]
  simp only []
  have l1 := Nat.log2_self_le z
  have l2 : n < 2 ^ (n.log2 + 1) := Nat.lt_log2_self
  have hk : n.log2 ≤ 63 := by
    have : n < 2 ^ 64 := by omega
    have := (Nat.log2_lt z).mpr this
    omega
  by_cases c : n.log2 ≤ 52
  · rw [if_pos c]
    have : n * 2 ^ (52 - n.log2) < 2 ^ 53 := by
      calc n * 2 ^ (52 - n.log2) < 2 ^ (n.log2 + 1) * 2 ^ (52 - n.log2) :=
            Nat.mul_lt_mul_of_pos_right l2 (Nat.two_pow_pos _)
        _ = 2 ^ 53 := by rw [← Nat.pow_add]; congr 1; omega
    omega
  · rw [if_neg c]
    have hq : n / 2 ^ (n.log2 - 52) < 2 ^ 53 := by
      rw [Nat.div_lt_iff_lt_mul (Nat.two_pow_pos _), ← Nat.pow_add]
      rw [show 53 + (n.log2 - 52) = n.log2 + 1 from by omega]
      exact l2
    split <;> omega

theorem ofInt_bits {v : Int} (h : v.natAbs ≤ 2 ^ 63) :
    mag (ofInt v) = magOfNat v.natAbs ∧ sign (ofInt v) = decide (v < 0) ∧ isNaN (ofInt v) = false := by
  have l := magOfNat_lt h
  have t : (ofInt v).toNat = magOfNat v.natAbs + if v < 0 then 2 ^ 63 else 0 := by
    unfold ofInt
    rw [BitVec.toNat_ofNat]
    split <;> omega
  have m : mag (ofInt v) = magOfNat v.natAbs := by
    unfold mag; rw [t]; split <;> omega
  refine ⟨m, ?_, ?_⟩
  · unfold sign; rw [t]
    by_cases c : v < 0
    · simp [c]
    · simp [c]; omega
  · unfold isNaN; rw [m]; simp; omega

theorem ofInt_exact {v : Int} (h : v.natAbs ≤ 2 ^ 53) : scaled (ofInt v) = v * 2 ^ 1074 := by
  obtain ⟨m, s, -⟩ := ofInt_bits (show v.natAbs ≤ 2 ^ 63 by omega)
  unfold scaled
  rw [m, s, magOfNat_exact h]
  have p : ∀ a b : Nat, ((a * b : Nat) : Int) = (a : Int) * (b : Int) := fun a b => by push_cast; rfl
  rw [p]
  have : ((2 ^ 1074 : Nat) : Int) = 2 ^ 1074 := by push_cast; rfl
  rw [this]
  by_cases c : v < 0
  · simp only [c, decide_true, if_true]
    rw [← Int.neg_mul]; congr 1; omega
  · simp only [c, decide_false]
    simp only [Bool.false_eq_true, if_false]
    rw [show ((v.natAbs : Nat) : Int) = v from by omega]

/-- Conversion of larger integers is not exact. -/
theorem ofInt_rounds : scaled (ofInt (2 ^ 53 + 1)) = 2 ^ 53 * 2 ^ 1074 := by decide +kernel

end Noja.Num
