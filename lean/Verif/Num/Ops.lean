import Verif.Exec
import Verif.CInt
import Verif.Num.Float

/-! # Arithmetic and ordering instructions (run.c)

The operands of the instructions are objects; what matters here is whether they are integers,
floats or something else, which is what `Option Num` says.  The results of adding, subtracting,
multiplying and dividing doubles are those of the processor and are left abstract (`FloatArith`). -/

namespace Noja.Num

inductive Num where
  | int (v : Int)
  | float (x : BitVec 64)
deriving DecidableEq, Repr

inductive MathOp where
  | add | sub | mul | div
deriving DecidableEq, Repr

inductive RelOp where
  | lss | grt | leq | geq
deriving DecidableEq, Repr

/-- The floating point operations of the processor. -/
structure FloatArith where
  op : MathOp → BitVec 64 → BitVec 64 → BitVec 64

/-- A `long long` result: signed overflow is undefined. -/
def ret64 (v : Int) : Exec Num := if IsI64 v then .ok (.int v) else .ub

/-- run.c:343-358, `APPLY` on two integers. -/
def mathInt : MathOp → Int → Int → Exec Num
  | .add, x, y => ret64 (x + y)
  | .sub, x, y => ret64 (x - y)
  | .mul, x, y => ret64 (x * y)
  | .div, x, y => if y = 0 then .err else ret64 (x.tdiv y)

/-- A double is equal to zero. -/
def isZero (x : BitVec 64) : Bool := decide (mag x = 0)

/-- run.c:343-358, `APPLY` on two doubles. -/
def mathFloat (F : FloatArith) (op : MathOp) (x y : BitVec 64) : Exec Num :=
  if op = .div ∧ isZero y then .err else .ok (.float (F.op op x y))

/-- run.c:338-423 `do_math_op`. -/
def mathOp (F : FloatArith) (op : MathOp) : Option Num → Option Num → Exec Num
  | some (.int x), some (.int y) => mathInt op x y
  | some (.int x), some (.float y) => mathFloat F op (ofInt x) y
  | some (.float x), some (.int y) => mathFloat F op x (ofInt y)
  | some (.float x), some (.float y) => mathFloat F op x y
  | _, _ => .err

/-- run.c:630-651 `OPCODE_MOD`: no check of the divisor; a zero divisor and `LLONG_MIN % -1` are
undefined. -/
def modOp : Option Num → Option Num → Exec Num
  | some (.int x), some (.int y) =>
    if y = 0 then .ub else if x = -2 ^ 63 ∧ y = -1 then .ub else .ok (.int (x.tmod y))
  | _, _ => .err

/-- run.c:536-563 `OPCODE_NEG`. Negating a double flips the sign bit. -/
def negOp : Option Num → Exec Num
  | some (.int x) => ret64 (-x)
  | some (.float x) => .ok (.float (x ^^^ 0x8000000000000000#64))
  | none => .err

/-- run.c:430-438, `APPLY` on two integers. -/
def relInt : RelOp → Int → Int → Bool
  | .lss, x, y => decide (x < y)
  | .grt, x, y => decide (x > y)
  | .leq, x, y => decide (x ≤ y)
  | .geq, x, y => decide (x ≥ y)

/-- run.c:430-438, `APPLY` on two doubles. -/
def relFloat : RelOp → BitVec 64 → BitVec 64 → Bool
  | .lss, x, y => lt x y
  | .grt, x, y => lt y x
  | .leq, x, y => le x y
  | .geq, x, y => le y x

/-- run.c:425-493 `do_relational_op`. -/
def relOp (op : RelOp) : Option Num → Option Num → Exec Bool
  | some (.int x), some (.int y) => .ok (relInt op x y)
  | some (.int x), some (.float y) => .ok (relFloat op (ofInt x) y)
  | some (.float x), some (.int y) => .ok (relFloat op x (ofInt y))
  | some (.float x), some (.float y) => .ok (relFloat op x y)
  | _, _ => .err

/-! ## C30 -/

/-- The mathematical result of an operation; `none` for a division by zero.  Division truncates
toward zero: the quotient `q` is the integer with `|x - q*y| < |y|` and `q*y` between 0 and `x`. -/
inductive Exact : MathOp → Int → Int → Int → Prop
  | add (x y : Int) : Exact .add x y (x + y)
  | sub (x y : Int) : Exact .sub x y (x - y)
  | mul (x y : Int) : Exact .mul x y (x * y)
  | div (x y q : Int) (hy : y ≠ 0) (hr : (x - q * y).natAbs < y.natAbs)
      (ht : (q * y).natAbs ≤ x.natAbs) (hs : 0 ≤ x * (q * y)) : Exact .div x y q

theorem tdiv_exact (x y : Int) (hy : y ≠ 0) : Exact .div x y (x.tdiv y) := by
  have e := Int.tmod_add_tdiv_mul x y
  have l : (x.tmod y).natAbs < y.natAbs := by
    rw [Int.natAbs_tmod]; exact Nat.mod_lt _ (by omega)
  refine .div x y _ hy (by omega) ?_ ?_
  · rw [Int.natAbs_mul, Int.natAbs_tdiv]
    exact Nat.div_mul_le_self _ _
  · have q1 := Int.natAbs_tdiv x y
    have hq := Int.natAbs_mul (x.tdiv y) y
    have ml : (x.tmod y).natAbs ≤ x.natAbs := by rw [Int.natAbs_tmod]; exact Nat.mod_le _ _
    rcases Int.lt_trichotomy x 0 with hx | hx | hx
    · have : x.tmod y ≤ 0 := by
        have := Int.tmod_nonneg y (show (0 : Int) ≤ -x by omega)
        rw [Int.neg_tmod] at this; omega
      apply Int.mul_nonneg_of_nonpos_of_nonpos
      · omega
      · omega
    · subst hx; simp
    · have : 0 ≤ x.tmod y := Int.tmod_nonneg y (by omega)
      apply Int.mul_nonneg
      · omega
      · omega

theorem exact_unique {op : MathOp} {x y r r' : Int} (h : Exact op x y r) (h' : Exact op x y r') :
    r = r' := by
  cases h with
  | add => cases h'; rfl
  | sub => cases h'; rfl
  | mul => cases h'; rfl
  | div _ _ q hy hr ht hs =>
    cases h' with
    | div _ _ q' hy' hr' ht' hs' =>
      have key : ∀ a : Int, (x - a * y).natAbs < y.natAbs → (a * y).natAbs ≤ x.natAbs →
          0 ≤ x * (a * y) → a = x.tdiv y := by
        intro a h1 h2 h3
        obtain ⟨m, hm⟩ : ∃ m, m = x - a * y := ⟨_, rfl⟩
        have e := Int.tmod_add_tdiv_mul x y
        have l : (x.tmod y).natAbs < y.natAbs := by
          rw [Int.natAbs_tmod]; exact Nat.mod_lt _ (by omega)
        have d : (a - x.tdiv y) * y = x.tmod y - m := by
          rw [Int.sub_mul]; omega
        -- both remainders have the sign of `x`
        have sgn : (0 ≤ x → 0 ≤ m ∧ 0 ≤ x.tmod y) ∧ (x ≤ 0 → m ≤ 0 ∧ x.tmod y ≤ 0) := by
          constructor
          · intro hx
            refine ⟨?_, Int.tmod_nonneg y hx⟩
            rcases Int.lt_or_eq_of_le hx with hx | hx
            · have : 0 ≤ a * y := by
                rcases Int.lt_or_le (a * y) 0 with q | q
                · have := Int.mul_neg_of_pos_of_neg hx q; omega
                · exact q
              omega
            · omega
          · intro hx
            have t : x.tmod y ≤ 0 := by
              have := Int.tmod_nonneg y (show (0 : Int) ≤ -x by omega)
              rw [Int.neg_tmod] at this; omega
            refine ⟨?_, t⟩
            rcases Int.lt_or_eq_of_le hx with hx | hx
            · have : a * y ≤ 0 := by
                rcases Int.lt_or_le 0 (a * y) with q | q
                · have := Int.mul_neg_of_neg_of_pos hx q; omega
                · exact q
              omega
            · omega
        have small : ((a - x.tdiv y) * y).natAbs < y.natAbs := by
          rw [d]
          rcases Int.le_total 0 x with hx | hx
          · have := sgn.1 hx; omega
          · have := sgn.2 hx; omega
        rw [Int.natAbs_mul] at small
        have : (a - x.tdiv y).natAbs = 0 := by
          rcases Nat.eq_zero_or_pos (a - x.tdiv y).natAbs with q | q
          · exact q
          · have := Nat.le_mul_of_pos_left y.natAbs q; omega
        omega
      rw [key r hr ht hs, key r' hr' ht' hs']

/-- Full statement: arithmetic on two 64-bit integers gives the exact result when it fits, an error
for a division by zero and when it does not fit. -/
def C30Statement (F : FloatArith) : Prop :=
  (∀ op x y, IsI64 x → IsI64 y →
    (∀ r, Exact op x y r → mathOp F op (some (.int x)) (some (.int y)) =
      if IsI64 r then .ok (.int r) else .err) ∧
    ((¬ ∃ r, Exact op x y r) → mathOp F op (some (.int x)) (some (.int y)) = .err)) ∧
  ∀ x, IsI64 x → negOp (some (.int x)) = if IsI64 (-x) then .ok (.int (-x)) else .err

/-- The operations of the code, when the result fits in 64 bits, and the division by zero, are as
stated.  Missing: results that do not fit, which are undefined behaviour. -/
theorem C30_exact_partial (F : FloatArith) :
    (∀ op x y r, Exact op x y r → IsI64 r →
      mathOp F op (some (.int x)) (some (.int y)) = .ok (.int r)) ∧
    (∀ op x y, (¬ ∃ r, Exact op x y r) → mathOp F op (some (.int x)) (some (.int y)) = .err) ∧
    (∀ x, IsI64 (-x) → negOp (some (.int x)) = .ok (.int (-x))) := by
  refine ⟨?_, ?_, ?_⟩
  · intro op x y r h hr
    cases h with
    | add => simp only [mathOp, mathInt, ret64, if_pos hr]
    | sub => simp only [mathOp, mathInt, ret64, if_pos hr]
    | mul => simp only [mathOp, mathInt, ret64, if_pos hr]
    | div _ _ _ hy a b c =>
      have := exact_unique (.div x y r hy a b c) (tdiv_exact x y hy)
      subst this
      simp only [mathOp, mathInt, ret64, if_pos hr, if_neg hy]
  · intro op x y h
    cases op with
    | add => exact absurd ⟨_, .add x y⟩ h
    | sub => exact absurd ⟨_, .sub x y⟩ h
    | mul => exact absurd ⟨_, .mul x y⟩ h
    | div =>
      by_cases hy : y = 0
      · subst hy; rfl
      · exact absurd ⟨_, tdiv_exact x y hy⟩ h
  · intro x h
    simp only [negOp, ret64, if_pos h]

/-- A result, when there is one, is exact. -/
theorem C30_never_wrong (F : FloatArith) (op : MathOp) (x y r : Int)
    (h : mathOp F op (some (.int x)) (some (.int y)) = .ok (.int r)) : Exact op x y r ∧ IsI64 r := by
  have key : ∀ v, ret64 v = .ok (.int r) → v = r ∧ IsI64 r := by
    intro v hv
    unfold ret64 at hv
    split at hv
    · cases hv; exact ⟨rfl, by assumption⟩
    · cases hv
  cases op with
  | add => obtain ⟨rfl, h⟩ := key _ h; exact ⟨.add x y, h⟩
  | sub => obtain ⟨rfl, h⟩ := key _ h; exact ⟨.sub x y, h⟩
  | mul => obtain ⟨rfl, h⟩ := key _ h; exact ⟨.mul x y, h⟩
  | div =>
    simp only [mathOp, mathInt] at h
    split at h
    · cases h
    · obtain ⟨rfl, h⟩ := key _ h; exact ⟨tdiv_exact x y (by assumption), h⟩

/-- The statement is violated: an addition whose result does not fit is undefined behaviour. -/
theorem C30_violated (F : FloatArith) : ¬ C30Statement F := by
  intro h
  have := (h.1 .add (2 ^ 63 - 1) 1 (by decide) (by decide)).1 _ (.add _ _)
  simp only [mathOp, mathInt, ret64] at this
  rw [if_neg (by decide), if_neg (by decide)] at this
  cases this

/-- So are `LLONG_MIN / -1` and the negation of `LLONG_MIN`. -/
theorem C30_violated_more (F : FloatArith) :
    mathOp F .div (some (.int (-2 ^ 63))) (some (.int (-1))) = .ub ∧
    negOp (some (.int (-2 ^ 63))) = .ub := by
  constructor <;> rfl

/-- Arithmetic on anything but numbers is an error. -/
theorem C30_non_numeric (F : FloatArith) (op : MathOp) (a b : Option Num) (h : a = none ∨ b = none) :
    mathOp F op a b = .err ∧ negOp none = .err := by
  refine ⟨?_, rfl⟩
  rcases h with rfl | rfl
  · cases b <;> rfl
  · rcases a with _ | (_ | _) <;> rfl

/-- -7 / 2 is -3. -/
example : Exact .div (-7) 2 (-3) ∧ IsI64 (-3) := ⟨.div _ _ _ (by decide) (by decide) (by decide) (by decide), by decide⟩

/-- An operand as a double; integers are converted. -/
def toDouble : Num → BitVec 64
  | .int v => ofInt v
  | .float x => x

theorem isZero_iff (x : BitVec 64) : isZero x = true ↔ scaled x = 0 := by
  have h := @scaledMag_lt 0 (mag x)
  rw [scaledMag_zero] at h
  unfold isZero scaled
  rw [decide_eq_true_iff]
  cases sign x
  · simp only [Bool.false_eq_true, if_false]; omega
  · simp only [if_true]; omega

/-- With a float among the operands, both are taken as doubles, in their order; dividing by a zero
of either sign is an error. -/
theorem C30_float (F : FloatArith) (op : MathOp) (a b : Num) (h : ∀ x y, ¬ (a = .int x ∧ b = .int y)) :
    (op = .div ∧ scaled (toDouble b) = 0 → mathOp F op (some a) (some b) = .err) ∧
    (¬ (op = .div ∧ scaled (toDouble b) = 0) →
      mathOp F op (some a) (some b) = .ok (.float (F.op op (toDouble a) (toDouble b)))) := by
  have e : mathOp F op (some a) (some b) = mathFloat F op (toDouble a) (toDouble b) := by
    cases a with
    | int x =>
      cases b with
      | int y => exact absurd ⟨rfl, rfl⟩ (h x y)
      | float y => rfl
    | float x => cases b <;> rfl
  rw [e]
  unfold mathFloat
  constructor
  · rintro ⟨rfl, hz⟩
    rw [if_pos ⟨rfl, (isZero_iff _).mpr hz⟩]
  · intro hz
    rw [if_neg (fun ⟨h1, h2⟩ => hz ⟨h1, (isZero_iff _).mp h2⟩)]

example : ∀ x y, ¬ (Num.int 1 = .int x ∧ Num.float 0 = .int y) := by simp

/-! ## C31 -/

/-- `r` is the remainder of `x` by `y` with the sign of `x`. -/
def IsRem (x y r : Int) : Prop :=
  (∃ q, Exact .div x y q ∧ q * y + r = x) ∧ r.natAbs < y.natAbs ∧ (0 < r → 0 < x) ∧ (r < 0 → x < 0)

def C31Statement : Prop :=
  (∀ x y, IsI64 x → IsI64 y → y ≠ 0 → ∃ r, modOp (some (.int x)) (some (.int y)) = .ok (.int r) ∧
    IsRem x y r) ∧
  (∀ x, IsI64 x → modOp (some (.int x)) (some (.int 0)) = .err) ∧
  ∀ a b, (∀ x y, ¬ (a = some (.int x) ∧ b = some (.int y))) → modOp a b = .err

/-- Proved for divisors other than 0 and -1 and for the error on non-integers.  Missing: a zero
divisor, and -1 as divisor of the smallest integer, are undefined behaviour. -/
theorem C31_remainder_partial :
    (∀ x y, y ≠ 0 → ¬ (x = -2 ^ 63 ∧ y = -1) →
      ∃ r, modOp (some (.int x)) (some (.int y)) = .ok (.int r) ∧ IsRem x y r) ∧
    ∀ a b, (∀ x y, ¬ (a = some (.int x) ∧ b = some (.int y))) → modOp a b = .err := by
  constructor
  · intro x y hy hm
    refine ⟨x.tmod y, by simp only [modOp, if_neg hy, if_neg hm], ⟨x.tdiv y, tdiv_exact x y hy, ?_⟩,
      ?_, ?_, ?_⟩
    · have := Int.tmod_add_tdiv_mul x y; omega
    · rw [Int.natAbs_tmod]; exact Nat.mod_lt _ (by omega)
    · intro h
      rcases Int.lt_or_le 0 x with q | q
      · exact q
      · have := Int.tmod_nonneg y (show (0 : Int) ≤ -x by omega)
        rw [Int.neg_tmod] at this; omega
    · intro h
      rcases Int.lt_or_le x 0 with q | q
      · exact q
      · have := Int.tmod_nonneg y q; omega
  · intro a b h
    rcases a with _ | (_ | _) <;> rcases b with _ | (_ | _) <;> first
      | rfl
      | exact absurd ⟨rfl, rfl⟩ (h _ _)

/-- Violated: a zero divisor is undefined behaviour (in practice, SIGFPE), not an error. -/
theorem C31_violated : ¬ C31Statement := by
  intro h
  have := h.2.1 1 (by decide)
  cases this

example : IsRem (-7) 2 (-1) :=
  ⟨⟨-3, .div _ _ _ (by decide) (by decide) (by decide) (by decide), by decide⟩, by decide, by decide, by decide⟩

/-! ## C32 -/

/-- The number of an operand, times 2^1074; NaN is not a number. -/
def val : Num → Option Int
  | .int v => some (v * 2 ^ 1074)
  | .float x => if isNaN x then none else some (scaled x)

/-- Numeric meaning of the operators. -/
def Holds : RelOp → Int → Int → Prop
  | .lss, a, b => a < b
  | .grt, a, b => b < a
  | .leq, a, b => a ≤ b
  | .geq, a, b => b ≤ a

/-- The operands are numbers and stand in the relation. -/
def Rel (op : RelOp) (a b : Num) : Prop := ∃ x y, val a = some x ∧ val b = some y ∧ Holds op x y

def C32Statement : Prop :=
  (∀ op a b, (∀ v, a = .int v → IsI64 v) → (∀ v, b = .int v → IsI64 v) →
    ∃ r, relOp op (some a) (some b) = .ok r ∧ (r = true ↔ Rel op a b)) ∧
  ∀ op a b, a = none ∨ b = none → relOp op a b = .err

theorem val_float (x : BitVec 64) : val (.float x) = if isNaN x then none else some (scaled x) := (rfl)

theorem holds_int (op : RelOp) (x y : Int) : relInt op x y = true ↔ Holds op x y := by
  cases op <;> simp [relInt, Holds]

theorem rel_float (op : RelOp) (x y : BitVec 64) :
    relFloat op x y = true ↔ isNaN x = false ∧ isNaN y = false ∧ Holds op (scaled x) (scaled y) := by
  cases op <;> simp [relFloat, lt, le, Holds, key_lt_iff, key_le_iff, and_assoc] <;>
    constructor <;> rintro ⟨a, b, c⟩ <;> exact ⟨b, a, c⟩

theorem holds_scale (op : RelOp) (x y : Int) : Holds op (x * 2 ^ 1074) (y * 2 ^ 1074) ↔ Holds op x y := by
  have p : (0 : Int) < 2 ^ 1074 := Int.pow_pos (by decide)
  cases op <;> simp only [Holds]
  · exact Int.mul_lt_mul_right p
  · exact Int.mul_lt_mul_right p
  · exact Int.mul_le_mul_right p
  · exact Int.mul_le_mul_right p

/-- Two integers, two floats, and an integer of at most 53 bits with a float, are ordered as
numbers; anything but numbers is an error.  Missing: larger integers compared with floats are
rounded first. -/
theorem C32_order_partial :
    (∀ op a b, ((∃ x y, a = .int x ∧ b = .int y) ∨ (∃ x y, a = .float x ∧ b = .float y) ∨
        (∃ x y, a = .int x ∧ b = .float y ∧ x.natAbs ≤ 2 ^ 53) ∨
        (∃ x y, a = .float x ∧ b = .int y ∧ y.natAbs ≤ 2 ^ 53)) →
      ∃ r, relOp op (some a) (some b) = .ok r ∧ (r = true ↔ Rel op a b)) ∧
    ∀ op a b, a = none ∨ b = none → relOp op a b = .err := by
  have ff : ∀ op x y, (relFloat op x y = true ↔ Rel op (.float x) (.float y)) := by
    intro op x y
    rw [rel_float]
    unfold Rel
    rw [val_float, val_float]
    constructor
    · rintro ⟨h1, h2, h3⟩
      exact ⟨_, _, by rw [h1]; rfl, by rw [h2]; rfl, h3⟩
    · rintro ⟨a, b, h1, h2, h3⟩
      cases nx : isNaN x <;> cases ny : isNaN y <;> simp [nx, ny] at h1 h2
      subst h1; subst h2
      exact ⟨rfl, rfl, h3⟩
  constructor
  · intro op a b h
    rcases h with ⟨x, y, rfl, rfl⟩ | ⟨x, y, rfl, rfl⟩ | ⟨x, y, rfl, rfl, h⟩ | ⟨x, y, rfl, rfl, h⟩
    · refine ⟨_, rfl, ?_⟩
      rw [holds_int]
      unfold Rel val
      constructor
      · intro q; exact ⟨_, _, rfl, rfl, (holds_scale op x y).mpr q⟩
      · rintro ⟨_, _, h1, h2, q⟩
        cases h1; cases h2; exact (holds_scale op x y).mp q
    · exact ⟨_, rfl, ff op x y⟩
    · refine ⟨_, rfl, (ff op (ofInt x) y).trans ?_⟩
      have e : val (.float (ofInt x)) = val (.int x) := by
        rw [val_float]
        rw [(ofInt_bits (show x.natAbs ≤ 2 ^ 63 by omega)).2.2, if_neg (by simp), ofInt_exact h]; rfl
      unfold Rel; rw [e]
    · refine ⟨_, rfl, (ff op x (ofInt y)).trans ?_⟩
      have e : val (.float (ofInt y)) = val (.int y) := by
        rw [val_float]
        rw [(ofInt_bits (show y.natAbs ≤ 2 ^ 63 by omega)).2.2, if_neg (by simp), ofInt_exact h]; rfl
      unfold Rel; rw [e]
  · intro op a b h
    rcases h with rfl | rfl
    · cases b <;> rfl
    · rcases a with _ | (_ | _) <;> rfl

/-- Violated: 2^53 (as a float) < 2^53 + 1 is false. -/
theorem C32_violated : ¬ C32Statement := by
  intro h
  obtain ⟨r, h1, h2⟩ := h.1 .lss (.float (ofInt (2 ^ 53))) (.int (2 ^ 53 + 1)) (by simp)
    (by intro v hv; cases hv; decide)
  have e : relOp .lss (some (.float (ofInt (2 ^ 53)))) (some (.int (2 ^ 53 + 1))) = .ok false := by
    decide +kernel
  rw [e] at h1
  cases h1
  have : Rel .lss (.float (ofInt (2 ^ 53))) (.int (2 ^ 53 + 1)) := by
    refine ⟨2 ^ 53 * 2 ^ 1074, (2 ^ 53 + 1) * 2 ^ 1074, by decide +kernel, rfl, ?_⟩
    exact (holds_scale .lss (2 ^ 53) (2 ^ 53 + 1)).mpr (by simp [Holds])
  exact absurd (h2.mpr this) (by simp)

/-- On any two operands `a < b` says the same as `b > a`, and `a <= b` the same as `b >= a`. -/
theorem C32_mirror (a b : Option Num) :
    relOp .lss a b = relOp .grt b a ∧ relOp .leq a b = relOp .geq b a := by
  rcases a with _ | (_ | _) <;> rcases b with _ | (_ | _) <;> exact ⟨rfl, rfl⟩

/-- On integers exactly one of `<`, `==`, `>` holds. -/
theorem C32_trichotomy (x y : Int) :
    (relOp .lss (some (.int x)) (some (.int y)) = .ok true ∧ x ≠ y ∧
        relOp .grt (some (.int x)) (some (.int y)) = .ok false) ∨
    (relOp .lss (some (.int x)) (some (.int y)) = .ok false ∧ x = y ∧
        relOp .grt (some (.int x)) (some (.int y)) = .ok false) ∨
    (relOp .lss (some (.int x)) (some (.int y)) = .ok false ∧ x ≠ y ∧
        relOp .grt (some (.int x)) (some (.int y)) = .ok true) := by
  simp only [relOp, relInt, Exec.ok.injEq, decide_eq_true_eq, decide_eq_false_iff_not]
  omega

example : ∃ x y, (Num.int 3) = .int x ∧ (Num.float (ofInt 5)) = .float y ∧ x.natAbs ≤ 2 ^ 53 :=
  ⟨3, ofInt 5, rfl, rfl, by decide⟩

end Noja.Num
