import Verif.Util.Error
import Verif.Asm.Dump

/-!
# What `error` and `assert` say (C112)

basic.c:219-263, with the report of utils/error.c (`Verif/Util/Error.lean`) and the line that `Error_Print` writes (error.c:140-170, without
the part for the build with DEBUG).  `vfprintf` of `%s` writes the bytes in front of the first zero byte, that of `%d` the decimal digits.
-/

namespace Noja.Say

open Noja.Err
open Noja.Path (cstring)

/-- The bytes of a text of C. -/
def ascii (s : String) : List UInt8 := s.toList.map fun c => UInt8.ofNat c.toNat

/-- What the two functions look at of a value; the bytes of a string are followed by a zero byte (o_string.c:166-168). -/
inductive Value
  | bool (b : Bool)
  | str (s : List UInt8)
  | other
deriving DecidableEq, Repr

/-- basic.c:241-263 `bin_error` -/
def binError (s : Mem × Error) (v : Value) (room : Bool) (junk : UInt8) : Exec (Mem × Error) :=
  match v with
  | .str t => report s.1 s.2 .runtime (cstring (t ++ [0])) room junk
  | _ => report s.1 s.2 .runtime (ascii "Argument is not a string") room junk

/-- basic.c:219-239 `bin_assert`, from argument `i` on -/
def binAssert (s : Mem × Error) (room : Bool) (junk : UInt8) : Nat → List Value → Exec (Option (Mem × Error))
  | _, [] => .ok none
  | i, .bool b :: vs =>
    if b = false then do
      let s ← report s.1 s.2 .runtime (ascii "Assertion failed") room junk
      .ok (some s)
    else binAssert s room junk (i + 1) vs
  | i, _ :: _ => do
    let s ← report s.1 s.2 .runtime (ascii "Argument " ++ Asm.dec i ++ ascii " isn't a boolean") room junk
    .ok (some s)

/-- error.c:146-153 -/
def nameText : Name → List UInt8
  | .internalError => ascii "Internal Error"
  | .syntaxError => ascii "Syntax Error"
  | .semanticError => ascii "Semantic Error"
  | .runtimeError => ascii "Runtime Error"
  | .error => ascii "Error"

/-- error.c:140-170 `Error_Print(error, ErrorType_RUNTIME, stderr)`: what is written -/
def errorPrint (s : Mem × Error) : Exec (List UInt8) := do
  let t ← text s.1 s.2
  .ok (nameText (shownName s.2 .runtime) ++ ascii ": " ++ t ++ ascii "." ++ [10])

/-- main.c:218-219, 244: the error is initialised, reported and printed. -/
def errorLine (v : Value) (room : Bool) (junk : UInt8) : Exec (List UInt8) := do
  let s ← binError start v room junk
  errorPrint s

/-- The same for `assert`; `none` if the program goes on. -/
def assertLine (vs : List Value) (room : Bool) (junk : UInt8) : Exec (Option (List UInt8)) := do
  let r ← binAssert start room junk 0 vs
  match r with
  | none => .ok none
  | some s => do
    let l ← errorPrint s
    .ok (some l)

/-- **C112**: the line on the error stream after `error(s)` says `s`; `assert` lets the program go on exactly if all its arguments are `true`, and
otherwise the line says what is wrong with the first that is not. -/
def C112Statement : Prop :=
  (∀ (s : List UInt8) (room : Bool) (junk : UInt8), s.length < 2147483647 →
    errorLine (.str s) room junk = .ok (ascii "Runtime Error: " ++ s ++ ascii "." ++ [10])) ∧
  ∀ (vs : List Value) (room : Bool) (junk : UInt8),
    (assertLine vs room junk = .ok none ↔ ∀ v ∈ vs, v = .bool true) ∧
    ∀ a v b, vs = a ++ v :: b → (∀ x ∈ a, x = .bool true) → v ≠ .bool true → assertLine vs room junk =
      .ok (some (ascii "Runtime Error: " ++
        (if v = .bool false then ascii "Assertion failed" else ascii "Argument " ++ Asm.dec a.length ++ ascii " isn't a boolean") ++
        ascii "." ++ [10]))

/-! ## What holds -/

theorem name_text : ascii "Runtime Error" ++ ascii ": " = ascii "Runtime Error: " := by decide

/-- The line after a report. -/
theorem report_line {t : List UInt8} (ht : Text t) (room : Bool) (junk : UInt8) :
    ∃ s, report start.1 start.2 .runtime t room junk = .ok s ∧
      errorPrint s = .ok (ascii "Runtime Error: " ++ (if t.length < 512 ∨ room = true then t else t.take 511) ++ ascii "." ++ [10]) := by
  obtain ⟨m, e, h1, -, h3, -, h4, h5⟩ := report_ok (m := start.1) (e := start.2) (init_inv fun _ => rfl) .runtime ht room junk
  refine ⟨(m, e), h1, ?_⟩
  have hn : nameText (shownName e .runtime) = ascii "Runtime Error" := by
    unfold shownName
    rw [h3]
    rfl
  have ht' : text m e = .ok (if t.length < 512 ∨ room = true then t else t.take 511) := by
    by_cases h : t.length < 512 ∨ room = true
    · rw [if_pos h]
      exact (h4 h).1
    · rw [if_neg h]
      exact (h5 (by omega) (by cases room <;> simp_all)).1
  unfold errorPrint
  dsimp only
  rw [ht', Exec.bind_ok, hn, name_text]

theorem cstring_eq (s : List UInt8) : cstring (s ++ [0]) = s.takeWhile (· ≠ 0) := by
  unfold cstring
  induction s with
  | nil => rfl
  | cons a s ih =>
    rw [List.cons_append, List.takeWhile_cons, List.takeWhile_cons, ih]

theorem cut_text {s : List UInt8} (h : s.length < 2147483647) : Text (s.takeWhile (· ≠ 0)) := by
  refine ⟨fun hm => ?_, Nat.lt_of_le_of_lt (List.takeWhile_prefix _).length_le h⟩
  have : ∀ l : List UInt8, (0 : UInt8) ∉ l.takeWhile (· ≠ 0) := by
    intro l
    induction l with
    | nil => exact List.not_mem_nil
    | cons a l ih =>
      rw [List.takeWhile_cons]
      by_cases ha : a = 0
      · rw [if_neg (by simp [ha])]
        exact List.not_mem_nil
      · rw [if_pos (by simp [ha])]
        intro hm
        cases hm with
        | head => exact ha rfl
        | tail _ hm => exact ih hm
  exact this s hm

theorem cut_whole {s : List UInt8} (h : (0 : UInt8) ∉ s) : s.takeWhile (· ≠ 0) = s := by
  rw [← cstring_eq]
  exact Path.takeWhile_append_nul s [] h

/-- What is written, for all strings: they are cut at their first zero byte, and at 511 bytes if there is no memory. -/
theorem C112_exact (s : List UInt8) (room : Bool) (junk : UInt8) (h : s.length < 2147483647) :
    errorLine (.str s) room junk = .ok (ascii "Runtime Error: " ++
      (if (s.takeWhile (· ≠ 0)).length < 512 ∨ room = true then s.takeWhile (· ≠ 0) else (s.takeWhile (· ≠ 0)).take 511) ++ ascii "." ++ [10]) := by
  obtain ⟨r, h1, h2⟩ := report_line (cut_text h) room junk
  unfold errorLine binError
  dsimp only
  rw [cstring_eq, h1, Exec.bind_ok, h2]

/-- The number of digits. -/
theorem digits_length : ∀ (k n : Nat), n < 10 ^ (k + 1) → (Asm.dec n).length ≤ k + 1
  | 0, n, h => by
    unfold Asm.dec
    rw [if_pos (by simpa using h)]
    exact Nat.le_refl 1
  | k + 1, n, h => by
    unfold Asm.dec
    by_cases hn : n < 10
    · rw [if_pos hn]
      exact Nat.le_add_left 1 (k + 1)
    · rw [if_neg hn, List.length_append]
      have := digits_length k (n / 10) (by rw [Nat.pow_succ] at h; omega)
      exact Nat.add_le_add_right this 1

theorem digit_nul (n : Nat) : (0 : UInt8) ∉ Asm.dec n := Asm.dec_no (by decide) n

/-- `assert`, from argument `i` on. -/
theorem assert_from (room : Bool) (junk : UInt8) (v : Value) (b : List Value) (hv : v ≠ .bool true) : ∀ (a : List Value) (i : Nat),
    (∀ x ∈ a, x = .bool true) → i + a.length < 2 ^ 31 → ∃ s, binAssert start room junk i (a ++ v :: b) = .ok (some s) ∧
      errorPrint s = .ok (ascii "Runtime Error: " ++
        (if v = .bool false then ascii "Assertion failed" else ascii "Argument " ++ Asm.dec (i + a.length) ++ ascii " isn't a boolean") ++
        ascii "." ++ [10])
  | x :: a, i, ha, hi => by
    rw [ha x List.mem_cons_self]
    obtain ⟨s, h1, h2⟩ := assert_from room junk v b hv a (i + 1) (fun x hx => ha x (List.mem_cons_of_mem _ hx))
      (by rw [List.length_cons] at hi; omega)
    exact ⟨s, h1, by rw [List.length_cons, show i + (a.length + 1) = i + 1 + a.length by omega]; exact h2⟩
  | [], i, _, hi => by
    cases v with
    | bool c =>
      cases c with
      | true => exact absurd rfl hv
      | false =>
        obtain ⟨s, h1, h2⟩ := report_line (t := ascii "Assertion failed") ⟨by decide, by decide⟩ room junk
        refine ⟨s, ?_, ?_⟩
        · rw [List.nil_append]
          unfold binAssert
          rw [if_pos rfl, h1, Exec.bind_ok]
        · rw [h2, if_pos (.inl (by decide)), if_pos rfl]
    | _ =>
      have hlen : (ascii "Argument " ++ Asm.dec i ++ ascii " isn't a boolean").length < 512 := by
        have h1 := digits_length 9 i (Nat.lt_of_lt_of_le (Nat.lt_of_le_of_lt (Nat.le_add_right i _) hi) (by decide))
        rw [List.length_append, List.length_append, show (ascii "Argument ").length = 9 by decide,
          show (ascii " isn't a boolean").length = 16 by decide]
        omega
      obtain ⟨s, h1, h2⟩ := report_line (t := ascii "Argument " ++ Asm.dec i ++ ascii " isn't a boolean")
        ⟨by
          rw [List.mem_append, List.mem_append]
          rintro ((h | h) | h)
          · exact absurd h (by decide)
          · exact digit_nul i h
          · exact absurd h (by decide), Nat.lt_trans hlen (by decide)⟩ room junk
      refine ⟨s, ?_, ?_⟩
      · rw [List.nil_append]
        unfold binAssert
        rw [h1, Exec.bind_ok]
      · rw [h2, if_pos (.inl hlen), if_neg nofun, List.length_nil, Nat.add_zero]

theorem assert_all (room : Bool) (junk : UInt8) : ∀ (vs : List Value) (i : Nat), (∀ v ∈ vs, v = .bool true) →
    binAssert start room junk i vs = .ok none
  | [], _, _ => rfl
  | v :: vs, i, h => by
    rw [h v List.mem_cons_self]
    exact assert_all room junk vs (i + 1) fun x hx => h x (List.mem_cons_of_mem _ hx)

theorem first_wrong : ∀ vs : List Value, (∀ v ∈ vs, v = .bool true) ∨ ∃ a v b, vs = a ++ v :: b ∧ (∀ x ∈ a, x = .bool true) ∧ v ≠ .bool true
  | [] => .inl nofun
  | v :: vs => by
    by_cases hv : v = .bool true
    · rcases first_wrong vs with h | ⟨a, w, b, h1, h2, h3⟩
      · refine .inl fun x hx => ?_
        cases hx with
        | head => exact hv
        | tail _ hx => exact h x hx
      · refine .inr ⟨v :: a, w, b, by rw [h1]; rfl, fun x hx => ?_, h3⟩
        cases hx with
        | head => exact hv
        | tail _ hx => exact h2 x hx
    · exact .inr ⟨[], v, vs, rfl, nofun, hv⟩

/-- C112, for `assert`; a call has fewer than 2^31 arguments. -/
theorem C112_assert (vs : List Value) (room : Bool) (junk : UInt8) (hn : vs.length < 2 ^ 31) :
    (assertLine vs room junk = .ok none ↔ ∀ v ∈ vs, v = .bool true) ∧
    ∀ a v b, vs = a ++ v :: b → (∀ x ∈ a, x = .bool true) → v ≠ .bool true → assertLine vs room junk =
      .ok (some (ascii "Runtime Error: " ++
        (if v = .bool false then ascii "Assertion failed" else ascii "Argument " ++ Asm.dec a.length ++ ascii " isn't a boolean") ++
        ascii "." ++ [10])) := by
  have wrong : ∀ a v b, vs = a ++ v :: b → (∀ x ∈ a, x = .bool true) → v ≠ .bool true → assertLine vs room junk =
      .ok (some (ascii "Runtime Error: " ++
        (if v = .bool false then ascii "Assertion failed" else ascii "Argument " ++ Asm.dec a.length ++ ascii " isn't a boolean") ++
        ascii "." ++ [10])) := by
    intro a v b h1 h2 h3
    obtain ⟨s, h4, h5⟩ := assert_from room junk v b h3 a 0 h2 (by rw [h1, List.length_append] at hn; omega)
    unfold assertLine
    rw [h1, h4, Exec.bind_ok]
    dsimp only
    rw [h5, Exec.bind_ok, Nat.zero_add]
  refine ⟨⟨fun h => ?_, fun h => ?_⟩, wrong⟩
  · rcases first_wrong vs with h' | ⟨a, v, b, h1, h2, h3⟩
    · exact h'
    · rw [wrong a v b h1 h2 h3] at h
      cases h
  · unfold assertLine
    rw [assert_all room junk vs 0 h]
    rfl

/-- C112 for strings without zero bytes, if they are short or there is memory for the message.  Missing: the others. -/
theorem C112_partial (s : List UInt8) (room : Bool) (junk : UInt8) (h : s.length < 2147483647) (h0 : (0 : UInt8) ∉ s)
    (hr : s.length < 512 ∨ room = true) : errorLine (.str s) room junk = .ok (ascii "Runtime Error: " ++ s ++ ascii "." ++ [10]) := by
  rw [C112_exact s room junk h, cut_whole h0, if_pos hr]

/-- So the line tells the string. -/
theorem C112_unique {s t l : List UInt8} {r r' : Bool} {j j' : UInt8} (hs : s.length < 2147483647) (hs0 : (0 : UInt8) ∉ s)
    (hsr : s.length < 512 ∨ r = true) (ht : t.length < 2147483647) (ht0 : (0 : UInt8) ∉ t) (htr : t.length < 512 ∨ r' = true)
    (h1 : errorLine (.str s) r j = .ok l) (h2 : errorLine (.str t) r' j' = .ok l) : s = t := by
  rw [C112_partial s r j hs hs0 hsr] at h1
  rw [C112_partial t r' j' ht ht0 htr, ← h1] at h2
  injection h2 with h
  exact (List.append_cancel_left (List.append_cancel_right (List.append_cancel_right h))).symm

/-! ## What does not hold -/

/-- **C112 does not hold**: `error("A\0B")` says `A`. -/
theorem C112_violated : ¬ C112Statement := fun h => by
  have h1 := h.1 [65, 0, 66] true 0 (by decide)
  rw [C112_exact [65, 0, 66] true 0 (by decide)] at h1
  injection h1 with h1
  exact absurd h1 (by decide)

/-- Nor for long strings when there is no memory, whatever they are: nothing in the line says that it has been cut. -/
theorem C112_violated_long (s : List UInt8) (junk : UInt8) (h : s.length < 2147483647) (h0 : (0 : UInt8) ∉ s) (hl : 512 ≤ s.length) :
    errorLine (.str s) false junk = errorLine (.str (s.take 511)) true junk := by
  have ht : (0 : UInt8) ∉ s.take 511 := fun hm => h0 (List.mem_of_mem_take hm)
  rw [C112_exact s false junk h, cut_whole h0, if_neg (by simp; omega), C112_partial (s.take 511) true junk (by rw [List.length_take]; omega) ht (.inr rfl)]

/-! ## Examples -/

example : errorLine (.str (ascii "no such user")) false 7 = .ok (ascii "Runtime Error: no such user." ++ [10]) := by
  rw [C112_partial _ _ _ (by decide) (by decide) (.inl (by decide))]
  decide

example : assertLine [.bool true, .str [97], .bool false] true 7 = .ok (some (ascii "Runtime Error: Argument 1 isn't a boolean." ++ [10])) := by
  rw [(C112_assert [.bool true, .str [97], .bool false] _ _ (by decide)).2 [.bool true] (.str [97]) [.bool false] rfl (by decide) nofun]
  decide +kernel

end Noja.Say
