import Verif.Str.Props
import Verif.Str.Lemmas2

/-!
# `input` (builtins/basic.c:169-211) and property C85

The input stream is what is left to be read from it; at its end `getc` returns `EOF` however often
it is called.  Simplification: memory exhaustion is not modelled.
-/

set_option linter.unusedVariables false
set_option linter.unusedSimpArgs false

namespace Noja.Builtin.Input

open Noja.Utf8 (Units)
open Noja.Str (Str)

/-! ## Model -/

/-- basic.c:177: `char c = getc(stream)`.  `EOF` is -1 and becomes the character 255. -/
def getChar : List UInt8 → UInt8 × List UInt8
  | [] => (255, [])
  | b :: rest => (b, rest)

/-- basic.c:173-175: `str`, `size` and `cap`; `heap` says that `str` came from `realloc` and is not
the array `maybe`. -/
structure Line where
  mem : List UInt8
  size : Nat
  cap : Nat
  heap : Bool

/-- A store into the block. -/
def put (mem : List UInt8) (i : Nat) (c : UInt8) : Exec (List UInt8) :=
  if i < mem.length then .ok (mem.set i c) else .ub

/-- basic.c:182-196: `realloc(str, newcap + 1)`, which may only be given what `malloc` or `realloc`
returned. -/
def growLine (l : Line) : Exec Line :=
  if l.cap * 2 ≥ 2 ^ 31 then .ub
  else if l.heap = false then .ub
  else .ok { mem := l.mem ++ List.replicate (l.cap * 2 + 1 - l.mem.length) 0, size := l.size, cap := l.cap * 2, heap := true }

/-- basic.c:175-199, the loop. -/
def readLine : (fuel : Nat) → List UInt8 → Line → Exec (Line × List UInt8)
  | 0, _, _ => .diverge
  | fuel + 1, stream, l =>
    if (getChar stream).1 = 10 then .ok (l, (getChar stream).2)
    else do
      let l ← (if l.size = l.cap then growLine l else .ok l : Exec Line)
      let mem ← put l.mem l.size (getChar stream).1
      readLine fuel (getChar stream).2 { l with mem := mem, size := l.size + 1 }

/-- basic.c:169-211 `bin_input`: what is left of the stream, and the string, if it is one.  `junk` is
what the array contains at the beginning. -/
def input (junk : List UInt8) (fuel : Nat) (stream : List UInt8) : Exec (List UInt8 × Option Str) := do
  let (l, rest) ← readLine fuel stream { mem := junk, size := 0, cap := 255, heap := false }
  let mem ← put l.mem l.size 0
  match Str.fromString mem l.size with
  | .ok s => .ok (rest, some s)
  | .err => .ok (rest, none)
  | .ub => .ub
  | .diverge => .diverge

/-! ## Property -/

/-- **C85**: the line is returned, without the newline, and nothing else is read; a line that ends
with the stream is returned too. -/
def C85Statement : Prop :=
  ∀ (junk : List UInt8) (t : List Nat), junk.length = 256 → (∀ c ∈ t, Utf8.Spec.Valid c) →
    (10 : UInt8) ∉ Utf8.Spec.encodeText t →
    (∀ rest, ∃ fuel, input junk fuel (Utf8.Spec.encodeText t ++ 10 :: rest) = .ok (rest, some (Str.Spec.ofText t))) ∧
    ∃ fuel, input junk fuel (Utf8.Spec.encodeText t) = .ok ([], some (Str.Spec.ofText t))

theorem readLine_line (line rest : List UInt8) (hn : (10 : UInt8) ∉ line) : ∀ (done mem : List UInt8) (fuel : Nat),
    mem.length = 256 → done.length + line.length ≤ 255 → mem.take done.length = done → line.length < fuel →
    ∃ mem', readLine fuel (line ++ 10 :: rest) ⟨mem, done.length, 255, false⟩ =
        .ok (⟨mem', done.length + line.length, 255, false⟩, rest) ∧
      mem'.length = 256 ∧ mem'.take (done.length + line.length) = done ++ line := by
  induction line with
  | nil =>
    intro done mem fuel hm hl ht hf
    obtain ⟨fuel, rfl⟩ : ∃ k, fuel = k + 1 := ⟨fuel - 1, by simp at hf; omega⟩
    refine ⟨mem, ?_, hm, by simpa using ht⟩
    simp [readLine, getChar]
  | cons c line ih =>
    intro done mem fuel hm hl ht hf
    simp only [List.length_cons] at hl hf
    obtain ⟨fuel, rfl⟩ : ∃ k, fuel = k + 1 := ⟨fuel - 1, by omega⟩
    have hc : c ≠ 10 := fun e => hn (by simp [e])
    have hd : (done ++ [c]).length = done.length + 1 := by simp
    have h2 : (mem.set done.length c).take (done ++ [c]).length = done ++ [c] := by
      rw [hd, List.take_succ, List.getElem?_set_self (by omega), List.take_set_of_le (Nat.le_refl _), ht]
      rfl
    obtain ⟨mem', h, hm', ht'⟩ := ih (fun m => hn (List.mem_cons_of_mem _ m)) (done ++ [c]) (mem.set done.length c) fuel
      (by simpa using hm) (by rw [hd]; omega) h2 (by omega)
    refine ⟨mem', ?_, hm', ?_⟩
    · rw [hd] at h
      rw [List.cons_append, readLine, if_neg (show ¬ (getChar (c :: (line ++ 10 :: rest))).1 = 10 from hc)]
      simp only [getChar]
      rw [if_neg (by omega), Exec.bind_ok]
      simp only [put]
      rw [if_pos (by omega), Exec.bind_ok, h, List.length_cons]
      congr 3
      omega
    · rw [List.length_cons, show done.length + (line.length + 1) = (done ++ [c]).length + line.length by rw [hd]; omega, ht',
        List.append_assoc]
      rfl

/-- What is read until the array is full: `EOF` again and again at the end of the stream. -/
def byteAt (stream : List UInt8) (i : Nat) : UInt8 := stream.getD i 255

theorem readLine_full : ∀ (k : Nat) (stream : List UInt8) (mem : List UInt8) (size fuel : Nat), mem.length = 256 →
    size + k = 255 → (∀ i, i ≤ k → byteAt stream i ≠ 10) → k < fuel →
    readLine fuel stream ⟨mem, size, 255, false⟩ = .ub := by
  intro k
  induction k with
  | zero =>
    intro stream mem size fuel hm hs hb hf
    obtain ⟨fuel, rfl⟩ : ∃ j, fuel = j + 1 := ⟨fuel - 1, by omega⟩
    have h0 : (getChar stream).1 ≠ 10 := by
      have := hb 0 (Nat.le_refl _)
      cases stream <;> simp_all [byteAt, getChar]
    rw [readLine, if_neg h0]
    simp only
    rw [if_pos (by omega)]
    simp [growLine]
  | succ k ih =>
    intro stream mem size fuel hm hs hb hf
    obtain ⟨fuel, rfl⟩ : ∃ j, fuel = j + 1 := ⟨fuel - 1, by omega⟩
    have h0 : (getChar stream).1 ≠ 10 := by
      have := hb 0 (by omega)
      cases stream <;> simp_all [byteAt, getChar]
    rw [readLine, if_neg h0]
    simp only
    rw [if_neg (by omega), Exec.bind_ok]
    simp only [put]
    rw [if_pos (by omega), Exec.bind_ok]
    refine ih _ _ _ fuel (by simpa using hm) (by omega) ?_ (by omega)
    intro i hi
    have := hb (i + 1) (by omega)
    cases stream <;> simp_all [byteAt, getChar]

theorem readLine_end : ∀ (fuel : Nat) (stream : List UInt8) (mem : List UInt8) (size : Nat), mem.length = 256 →
    size ≤ 255 → (∀ i, size + i ≤ 255 → byteAt stream i ≠ 10) →
    readLine fuel stream ⟨mem, size, 255, false⟩ = .ub ∨ readLine fuel stream ⟨mem, size, 255, false⟩ = .diverge := by
  intro fuel stream mem size hm hs hb
  by_cases hf : 255 - size < fuel
  · exact .inl (readLine_full (255 - size) stream mem size fuel hm (by omega) (fun i hi => hb i (by omega)) hf)
  · right
    induction fuel generalizing stream mem size with
    | zero => rfl
    | succ fuel ih =>
      have h0 : (getChar stream).1 ≠ 10 := by
        have := hb 0 (by omega)
        cases stream <;> simp_all [byteAt, getChar]
      rw [readLine, if_neg h0]
      simp only
      rw [if_neg (by omega), Exec.bind_ok]
      simp only [put]
      rw [if_pos (by omega), Exec.bind_ok]
      refine ih _ _ _ (by simpa using hm) (by omega) ?_ (by omega)
      intro i hi
      have := hb (i + 1) (by omega)
      cases stream <;> simp_all [byteAt, getChar]

/-- C85 for lines of at most 255 bytes that end with a newline.  Missing: longer lines, and the end of the stream
(`C85_refuted`).  Of a line that is not UTF-8 everything is read, and it is refused; the decoder decides what is. -/
theorem C85_partial (junk line rest : List UInt8) (hj : junk.length = 256) (hn : (10 : UInt8) ∉ line)
    (hl : line.length ≤ 255) (fuel : Nat) (hf : line.length < fuel) :
    (∀ t, (∀ c ∈ t, Utf8.Spec.Valid c) → line = Utf8.Spec.encodeText t →
      input junk fuel (line ++ 10 :: rest) = .ok (rest, some (Str.Spec.ofText t))) ∧
    (input junk fuel (line ++ 10 :: rest) = .ok (rest, none) ∨
      ∃ s, input junk fuel (line ++ 10 :: rest) = .ok (rest, some s) ∧ Str.Spec.contents s = line) := by
  obtain ⟨mem, h, hm, ht⟩ := readLine_line line rest hn [] junk fuel hj (by simpa using hl) rfl hf
  simp only [List.length_nil, Nat.zero_add, List.nil_append] at h ht
  have hs : mem.set line.length 0 = line ++ (mem.set line.length 0).drop line.length := by
    conv => lhs; rw [← List.take_append_drop line.length (mem.set line.length 0)]
    rw [List.take_set_of_le (Nat.le_refl _), ht]
  have e : input junk fuel (line ++ 10 :: rest) =
      match Str.fromString (mem.set line.length 0) line.length with
      | .ok s => .ok (rest, some s)
      | .err => .ok (rest, none)
      | .ub => .ub
      | .diverge => .diverge := by
    unfold input
    rw [h, Exec.bind_ok]
    simp only [put]
    rw [if_pos (by omega), Exec.bind_ok]
  constructor
  · intro t hv hlt
    have := Str.C03_fromString t hv ((mem.set line.length 0).drop line.length)
    rw [← hlt, ← hs] at this
    rw [e, this]
  · rcases Str.fromString_spec (mem.set line.length 0) line.length (by simp; omega) with h' | ⟨ps, hu, hp, h'⟩
    · left; rw [e, h']
    · right
      refine ⟨_, by rw [e, h'], ?_⟩
      have := (Str.wf_fromString h').2.1
      rw [this, List.take_set_of_le (Nat.le_refl _), ht]

/-- If no newline is among the first 256 characters, what is to be read never is returned: the array is given to
`realloc`.  At the end of a stream the loop goes on to that point. -/
theorem C85_refuted (junk stream : List UInt8) (hj : junk.length = 256) (h : ∀ i, i ≤ 255 → stream[i]? ≠ some 10) :
    (∀ fuel, 255 < fuel → input junk fuel stream = .ub) ∧
    ∀ fuel, input junk fuel stream = .ub ∨ input junk fuel stream = .diverge := by
  have hb : ∀ i, i ≤ 255 → byteAt stream i ≠ 10 := by
    intro i hi
    have := h i hi
    unfold byteAt
    rw [List.getD_eq_getElem?_getD]
    cases hs : stream[i]? with
    | none => simp
    | some b => rw [hs] at this; simpa using this
  constructor
  · intro fuel hf
    unfold input
    rw [readLine_full 255 stream junk 0 fuel hj rfl hb hf]
    rfl
  · intro fuel
    unfold input
    rcases readLine_end fuel stream junk 0 hj (by omega) (fun i hi => hb i (by omega)) with e | e <;> rw [e] <;> simp

/-- `input` at the end of the stream. -/
theorem C85_violated : ¬ C85Statement := by
  intro h
  obtain ⟨-, fuel, hf⟩ := h (List.replicate 256 0) [] List.length_replicate (by simp) (by simp [Utf8.Spec.encodeText])
  rcases (C85_refuted (List.replicate 256 0) [] List.length_replicate (by simp)).2 fuel with e | e <;>
    (rw [show Utf8.Spec.encodeText [] = [] from rfl, e] at hf; cases hf)

/-- The line `hé`, with what follows. -/
example : input (List.replicate 256 7) 5 ([104, 195, 169] ++ 10 :: [120, 10]) = .ok ([120, 10], some (Str.Spec.ofText [104, 233])) :=
  (C85_partial (List.replicate 256 7) [104, 195, 169] [120, 10] List.length_replicate (by decide) (by decide) 5 (by decide)).1
    [104, 233] (by simp [Utf8.Spec.Valid]) (by decide)

/-- A line of 256 characters. -/
example (fuel : Nat) (h : 255 < fuel) : input (List.replicate 256 7) fuel (List.replicate 256 97 ++ [10]) = .ub :=
  (C85_refuted (List.replicate 256 7) (List.replicate 256 97 ++ [10]) List.length_replicate (by
    intro i hi
    rw [List.getElem?_append_left (by rw [List.length_replicate]; omega), List.getElem?_replicate_of_lt (by omega)]
    decide)).1 fuel h

end Noja.Builtin.Input
