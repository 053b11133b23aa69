import Verif.Util.Path

/-!
# Error reports (C87, C88)

utils/error.c and utils/error.h.  `vsnprintf` is the one of the C standard: given the text that the format
stands for, it writes as much of it as fits in front of a zero byte and returns the length of the text.
The handler `on_report` and the place of the report are left out.
-/

set_option linter.unusedVariables false
set_option linter.unusedSimpArgs false

namespace Noja.Err

open Noja.Path (store cstring)

/-! ## Model -/

/-- error.h:36-43. -/
inductive Kind where
  | syntax | semantic | runtime | internal | unspecified
  deriving DecidableEq, Repr

/-- error.h:37-42: the values of the enumerators. -/
def Kind.code : Kind → Nat
  | .syntax => 0
  | .semantic => 1
  | .runtime => 2
  | .internal => 3
  | .unspecified => 0

/-- What `message` points to. -/
inductive Msg where
  | null
  | inside
  | block (id : Nat)
  deriving DecidableEq, Repr

/-- error.h:45-58. -/
structure Error where
  type : Nat
  occurred : Bool
  truncated : Bool
  length : Nat
  message : Msg
  message2 : List UInt8

/-- The blocks of `malloc`; the next block is number `next`. -/
structure Mem where
  next : Nat
  live : Nat → Option (List UInt8)

/-- error.c:37-40 `Error_Init`. -/
def init : Error := ⟨0, false, false, 0, .null, List.replicate 512 0⟩

/-- `vsnprintf(buf, size, fmt, va)` for a format that stands for `text`. -/
def vsnprintf (buf : List UInt8) (size : Nat) (text : List UInt8) : Exec (List UInt8) :=
  if size = 0 then .ok buf else store buf 0 (text.take (size - 1) ++ [0])

/-- error.c:65-124 `_Error_Report2`; `room` says whether `malloc` has memory and `junk` what is in the new
block. -/
def report (m : Mem) (e : Error) (kind : Kind) (text : List UInt8) (room : Bool) (junk : UInt8) : Exec (Mem × Error) := do
  let m2 ← vsnprintf e.message2 512 text
  if text.length > 512 - 1 then
    if room = false then
      .ok (m, { e with occurred := true, type := kind.code, message2 := m2, truncated := true, message := .inside, length := 512 - 1 })
    else do
      let temp ← vsnprintf (List.replicate (text.length + 1) junk) (text.length + 1) text
      let m := { next := m.next + 1, live := fun i => if i = m.next then some temp else m.live i }
      .ok (m, { e with
        occurred := true, type := kind.code, message2 := m2, truncated := false, message := .block (m.next - 1), length := text.length })
  else
    .ok (m, { e with occurred := true, type := kind.code, message2 := m2, truncated := false, message := .inside, length := text.length })

/-- error.c:48-53 `Error_Free`. -/
def free (m : Mem) (e : Error) : Exec (Mem × Error) :=
  match e.message with
  | .inside => .ok (m, init)
  | .null => .ok (m, init)
  | .block i =>
    match m.live i with
    | none => .ub
    | some _ => .ok ({ m with live := fun j => if j = i then none else m.live j }, init)

/-- The C string `message`. -/
def text (m : Mem) (e : Error) : Exec (List UInt8) :=
  match e.message with
  | .null => .ub
  | .inside => if 0 ∈ e.message2 then .ok (cstring e.message2) else .ub
  | .block i =>
    match m.live i with
    | none => .ub
    | some b => if 0 ∈ b then .ok (cstring b) else .ub

/-- The names that `Error_Print` uses. -/
inductive Name where
  | internalError | syntaxError | semanticError | runtimeError | error
  deriving DecidableEq, Repr

/-- error.c:140-170 `Error_Print`: the name in front of the message.  The variable `type` is computed and
not used. -/
def shownName (e : Error) (ifUnspecified : Kind) : Name :=
  let _type := if e.type = Kind.unspecified.code then ifUnspecified.code else e.type
  if e.type = Kind.internal.code then .internalError
  else if e.type = Kind.syntax.code then .syntaxError
  else if e.type = Kind.semantic.code then .semanticError
  else if e.type = Kind.runtime.code then .runtimeError
  else .error

/-! ## The message -/

/-- A text that a C string can hold and whose length is an `int`. -/
def Text (t : List UInt8) : Prop := (0 : UInt8) ∉ t ∧ t.length < 2147483647

/-- What the functions are used for. -/
inductive Op where
  | report (kind : Kind) (text : List UInt8) (room : Bool) (junk : UInt8)
  | free

def step (s : Mem × Error) : Op → Exec (Mem × Error)
  | .report kind text room junk => report s.1 s.2 kind text room junk
  | .free => free s.1 s.2

def run (s : Mem × Error) : List Op → Exec (Mem × Error)
  | [] => .ok s
  | o :: os => do
    let s ← step s o
    run s os

def start : Mem × Error := (⟨0, fun _ => none⟩, init)

/-- The last report of a list of operations, if it has not been freed. -/
inductive Last : List Op → Option (Kind × List UInt8 × Bool) → Prop
  | nil : Last [] none
  | report (os : List Op) (k : Kind) (t : List UInt8) (room : Bool) (junk : UInt8) : Last (os ++ [.report k t room junk]) (some (k, t, room))
  | free (os : List Op) : Last (os ++ [.free]) none

/-- **C87**: whatever is reported and freed: the functions never touch memory that is not theirs, the message
is the text of the last report (cut to 511 bytes, and marked, only if there is no memory), and nothing is left
allocated but the message. -/
def C87Statement : Prop :=
  ∀ (os : List Op), (∀ k t room junk, Op.report k t room junk ∈ os → Text t) →
    ∃ m e, run start os = .ok (m, e) ∧
      (∀ i, m.live i ≠ none → e.message = .block i) ∧
      (Last os none → e.occurred = false ∧ e.truncated = false ∧ e.length = 0 ∧ e.message = .null) ∧
      (∀ k t room, Last os (some (k, t, room)) → e.occurred = true ∧
        ((t.length < 512 ∨ room = true) → text m e = .ok t ∧ e.length = t.length ∧ e.truncated = false) ∧
        (512 ≤ t.length → room = false → text m e = .ok (t.take 511) ∧ e.length = 511 ∧ e.truncated = true))

/-- Every report after the first comes after a `free`; `pending` says that one has not been freed. -/
def Used : Bool → List Op → Prop
  | _, [] => True
  | pending, .report _ _ _ _ :: os => pending = false ∧ Used true os
  | _, .free :: os => Used false os

structure Inv (m : Mem) (e : Error) (pending : Bool) : Prop where
  size : e.message2.length = 512
  none : pending = false → e.message = .null ∨ e.message = .inside
  live : ∀ i, m.live i ≠ Option.none ↔ e.message = .block i

theorem vsnprintf_ok {buf t : List UInt8} {n : Nat} (h : buf.length = n + 1) :
    vsnprintf buf (n + 1) t = .ok (t.take n ++ 0 :: buf.drop ((t.take n).length + 1)) := by
  unfold vsnprintf store
  rw [if_neg (by omega), if_pos (by simp; omega)]
  simp

theorem take_length_le (t : List UInt8) (n : Nat) : (t.take n).length ≤ n := by
  rw [List.length_take]; omega

theorem vsn_length {buf t : List UInt8} {n : Nat} (h : buf.length = n + 1) :
    (t.take n ++ 0 :: buf.drop ((t.take n).length + 1)).length = n + 1 := by
  have := take_length_le t n
  rw [List.length_append, List.length_cons, List.length_drop]
  omega

theorem not_mem_take {t : List UInt8} (h : (0 : UInt8) ∉ t) (n : Nat) : (0 : UInt8) ∉ t.take n := fun hm => h (List.mem_of_mem_take hm)

theorem cstring_nul {t r : List UInt8} (h : (0 : UInt8) ∉ t) : cstring (t ++ 0 :: r) = t := Path.takeWhile_append_nul _ _ h

theorem init_inv {m : Mem} (hm : ∀ i, m.live i = none) : Inv m init false := by
  refine ⟨List.length_replicate, fun _ => .inl rfl, fun i => ?_⟩
  rw [hm i]
  exact ⟨fun h => absurd rfl h, fun h => nomatch (show Msg.null = .block i from h)⟩

/-- What a report leaves: the state, and what `message` says. -/
def Said (m : Mem) (e : Error) (t : List UInt8) (room : Bool) : Prop :=
  e.occurred = true ∧
    ((t.length < 512 ∨ room = true) → text m e = .ok t ∧ e.length = t.length ∧ e.truncated = false) ∧
    (512 ≤ t.length → room = false → text m e = .ok (t.take 511) ∧ e.length = 511 ∧ e.truncated = true)

theorem report_ok {m : Mem} {e : Error} (h : Inv m e false) (k : Kind) {t : List UInt8} (ht : Text t) (room : Bool) (junk : UInt8) :
    ∃ m' e', report m e k t room junk = .ok (m', e') ∧ Inv m' e' true ∧ e'.type = k.code ∧ Said m' e' t room := by
  have hfresh : ∀ i, m.live i = none := by
    intro i
    cases hi : m.live i with
    | none => rfl
    | some b =>
      have := (h.live i).mp (by rw [hi]; simp)
      rcases h.none rfl with h0 | h0 <;> rw [h0] at this <;> cases this
  have hs : vsnprintf e.message2 512 t = _ := vsnprintf_ok (n := 511) h.size
  have hl := vsn_length (t := t) (n := 511) h.size
  have hz : ∀ n, cstring (t.take n ++ 0 :: e.message2.drop ((t.take n).length + 1)) = t.take n := fun n => cstring_nul (not_mem_take ht.1 n)
  unfold report
  rw [hs, Exec.bind_ok]
  by_cases hlen : t.length > 512 - 1
  · rw [if_pos hlen]
    cases room with
    | false =>
      rw [if_pos rfl]
      refine ⟨_, _, rfl, ⟨hl, fun h => by simp at h, ?_⟩, rfl, rfl, ?_, ?_⟩
      · intro i
        rw [hfresh i]
        simp
      · intro h; simp at h; omega
      · intro _ _
        refine ⟨?_, rfl, rfl⟩
        show (if (0 : UInt8) ∈ _ then Exec.ok (cstring _) else .ub) = _
        rw [if_pos (by simp), hz]
    | true =>
      rw [if_neg (by simp)]
      rw [vsnprintf_ok (n := t.length) List.length_replicate, Exec.bind_ok]
      refine ⟨_, _, rfl, ⟨hl, fun h => by simp at h, ?_⟩, rfl, rfl, ?_, ?_⟩
      · intro i
        show (if i = m.next then some _ else m.live i) ≠ none ↔ Msg.block (m.next + 1 - 1) = .block i
        rw [Nat.add_sub_cancel]
        by_cases hi : i = m.next
        · subst hi; simp
        · rw [if_neg hi, hfresh i]
          simp
          exact fun e => hi e.symm
      · intro _
        refine ⟨?_, rfl, rfl⟩
        simp only [text, Nat.add_sub_cancel, if_true]
        rw [List.take_length, if_pos (by simp), cstring_nul ht.1]
      · intro _ h; simp at h
  · rw [if_neg hlen]
    refine ⟨_, _, rfl, ⟨hl, fun h => by simp at h, ?_⟩, rfl, rfl, ?_, ?_⟩
    · intro i
      rw [hfresh i]
      simp
    · intro _
      refine ⟨?_, rfl, rfl⟩
      show (if (0 : UInt8) ∈ _ then Exec.ok (cstring _) else .ub) = _
      rw [if_pos (by simp), hz, List.take_of_length_le (by omega)]
    · intro h; omega

theorem free_ok {m : Mem} {e : Error} {p : Bool} (h : Inv m e p) :
    ∃ m', free m e = .ok (m', init) ∧ Inv m' init false ∧ ∀ i, m'.live i = none := by
  have hnone : (∀ i, e.message ≠ .block i) → ∀ i, m.live i = none := by
    intro hb i
    cases hi : m.live i with
    | none => rfl
    | some b => exact absurd ((h.live i).mp (by rw [hi]; simp)) (hb i)
  have hinv : ∀ m' : Mem, (∀ i, m'.live i = none) → Inv m' init false := fun m' hm => init_inv hm
  unfold free
  match hm : e.message with
  | .inside =>
    have := hnone (by rw [hm]; simp)
    exact ⟨m, rfl, hinv _ this, this⟩
  | .null =>
    have := hnone (by rw [hm]; simp)
    exact ⟨m, rfl, hinv _ this, this⟩
  | .block i =>
    simp only
    have hi : m.live i ≠ none := (h.live i).mpr hm
    match hb : m.live i with
    | none => exact absurd hb hi
    | some b =>
      simp only
      have : ∀ j, (if j = i then none else m.live j) = none := by
        intro j
        by_cases hj : j = i
        · rw [if_pos hj]
        · rw [if_neg hj]
          cases hjb : m.live j with
          | none => rfl
          | some c =>
            have := (h.live j).mp (by rw [hjb]; simp)
            rw [hm] at this
            cases this
            exact absurd rfl hj
      exact ⟨_, rfl, hinv _ this, this⟩

theorem run_append (s : Mem × Error) (os : List Op) (o : Op) : run s (os ++ [o]) = (run s os).bind fun s => step s o := by
  induction os generalizing s with
  | nil =>
    show (step s o >>= fun s => run s []) = step s o
    cases step s o <;> rfl
  | cons o' os ih =>
    show (step s o' >>= fun s => run s (os ++ [o])) = ((step s o' >>= fun s => run s os).bind fun s => step s o)
    cases step s o' with
    | ok s' => exact ih s'
    | _ => rfl

/-- The last operation decides whether a report is pending. -/
theorem used_snoc (os : List Op) (o : Op) : ∀ (p : Bool), Used p (os ++ [o]) → Used p os ∧
    (∀ k t room junk, o = .report k t room junk → (os = [] ∧ p = false) ∨ ∃ os', os = os' ++ [.free]) := by
  induction os with
  | nil =>
    intro p h
    refine ⟨trivial, fun k t room junk e => .inl ⟨rfl, ?_⟩⟩
    subst e
    exact h.1
  | cons o' os ih =>
    intro p h
    cases o' with
    | report k t room junk =>
      obtain ⟨h1, h2⟩ := ih true h.2
      refine ⟨⟨h.1, h1⟩, fun k t room junk e => ?_⟩
      rcases h2 k t room junk e with ⟨_, h⟩ | ⟨os', rfl⟩
      · cases h
      · exact .inr ⟨_ :: os', rfl⟩
    | free =>
      obtain ⟨h1, h2⟩ := ih false h
      refine ⟨h1, fun k t room junk e => ?_⟩
      rcases h2 k t room junk e with ⟨rfl, _⟩ | ⟨os', rfl⟩
      · exact .inr ⟨[], rfl⟩
      · exact .inr ⟨_ :: os', rfl⟩

theorem run_inv (os : List Op) : Used false os → (∀ k t room junk, Op.report k t room junk ∈ os → Text t) →
    ∃ m e p, run start os = .ok (m, e) ∧ Inv m e p ∧ (Last os none → e = init ∧ p = false) ∧
      (∀ k t room, Last os (some (k, t, room)) → e.type = k.code ∧ Said m e t room) := by
  have main : ∀ n, ∀ os : List Op, os.length = n → Used false os → (∀ k t room junk, Op.report k t room junk ∈ os → Text t) →
      ∃ m e p, run start os = .ok (m, e) ∧ Inv m e p ∧ (Last os none → e = init ∧ p = false) ∧
        (∀ k t room, Last os (some (k, t, room)) → e.type = k.code ∧ Said m e t room) := by
    intro n
    induction n with
    | zero =>
      intro os h0 _ _
      cases List.eq_nil_of_length_eq_zero h0
      refine ⟨_, _, false, rfl, init_inv (fun _ => rfl), fun _ => ⟨rfl, rfl⟩, ?_⟩
      intro k t room h
      generalize ho : ([] : List Op) = os at h
      generalize hx : some (k, t, room) = x at h
      cases h with
      | nil => cases hx
      | report => simp at ho
      | free => simp at ho
    | succ n ih =>
      intro os hn hu ht
      rcases List.eq_nil_or_concat os with rfl | ⟨os', o, rfl⟩
      · simp at hn
      · rw [List.concat_eq_append] at *
        obtain ⟨hu', hlast⟩ := used_snoc os' o false hu
        obtain ⟨m, e, p, hr, hi, hn0, hs⟩ := ih os' (by simpa using hn) hu' (fun k t room junk hm => ht k t room junk (by simp [hm]))
        rw [run_append, hr]
        show ∃ m' e' p, step (m, e) o = .ok (m', e') ∧ _
        cases o with
        | free =>
          obtain ⟨m', hf, hi', _⟩ := free_ok hi
          refine ⟨m', init, false, hf, hi', fun _ => ⟨rfl, rfl⟩, ?_⟩
          intro k t room h
          generalize ho : os' ++ [Op.free] = os at h
          generalize hx : some (k, t, room) = x at h
          cases h with
          | nil => cases hx
          | report => have := List.append_inj_right' ho rfl; simp at this
          | free => cases hx
        | report k t room junk =>
          have hp : p = false ∧ Inv m e false := by
            rcases hlast k t room junk rfl with ⟨rfl, _⟩ | ⟨os'', rfl⟩
            · obtain ⟨_, rfl⟩ := hn0 .nil; exact ⟨rfl, hi⟩
            · obtain ⟨_, rfl⟩ := hn0 (.free _); exact ⟨rfl, hi⟩
          obtain ⟨m', e', hrep, hi', hk, hsaid⟩ := report_ok hp.2 k (ht k t room junk (by simp)) room junk
          refine ⟨m', e', true, hrep, hi', ?_, ?_⟩
          · intro h
            generalize ho : os' ++ [Op.report k t room junk] = os at h
            generalize hx : (none : Option (Kind × List UInt8 × Bool)) = x at h
            cases h with
            | nil => simp at ho
            | report => cases hx
            | free => have := List.append_inj_right' ho rfl; simp at this
          · intro k' t' room' h
            generalize ho : os' ++ [Op.report k t room junk] = os at h
            generalize hx : some (k', t', room') = x at h
            cases h with
            | nil => cases hx
            | free => cases hx
            | report os2 k2 t2 room2 junk2 =>
              have := List.append_inj_right' ho rfl
              simp at this
              obtain ⟨rfl, rfl, rfl, rfl⟩ := this
              cases hx
              exact ⟨hk, hsaid⟩
  exact main os.length os rfl

/-- C87 for reports that are freed before the next one.  Missing: a report over another one. -/
theorem C87_partial (os : List Op) (hu : Used false os) (ht : ∀ k t room junk, Op.report k t room junk ∈ os → Text t) :
    ∃ m e, run start os = .ok (m, e) ∧
      (∀ i, m.live i ≠ none → e.message = .block i) ∧
      (Last os none → e.occurred = false ∧ e.truncated = false ∧ e.length = 0 ∧ e.message = .null) ∧
      (∀ k t room, Last os (some (k, t, room)) → e.occurred = true ∧
        ((t.length < 512 ∨ room = true) → text m e = .ok t ∧ e.length = t.length ∧ e.truncated = false) ∧
        (512 ≤ t.length → room = false → text m e = .ok (t.take 511) ∧ e.length = 511 ∧ e.truncated = true)) := by
  obtain ⟨m, e, p, hr, hi, hn, hs⟩ := run_inv os hu ht
  exact ⟨m, e, hr, fun i h => (hi.live i).mp h, fun h => by rw [(hn h).1]; exact ⟨rfl, rfl, rfl, rfl⟩, fun k t room h => (hs k t room h).2⟩

/-- Two long reports one after the other: the first block can not be freed any more. -/
theorem C87_violated : ¬ C87Statement := by
  intro h
  have ht : Text (List.replicate 512 97) := ⟨fun h => absurd (List.eq_of_mem_replicate h) (by decide), by rw [List.length_replicate]; omega⟩
  obtain ⟨m, e, hr, hl, _⟩ := h [.report .runtime (List.replicate 512 97) true 0, .report .runtime (List.replicate 512 97) true 0]
    (by
      intro k t room junk hm
      rcases List.mem_cons.mp hm with h | hm
      · cases h; exact ht
      · rcases List.mem_cons.mp hm with h | hm
        · cases h; exact ht
        · exact absurd hm List.not_mem_nil)
  have step1 : ∀ (m : Mem) (e : Error), e.message2.length = 512 → ∃ b e', report m e .runtime (List.replicate 512 97) true 0 =
      .ok (⟨m.next + 1, fun i => if i = m.next then some b else m.live i⟩, e') ∧ e'.message = .block m.next ∧ e'.message2.length = 512 := by
    intro m e he
    unfold report
    rw [vsnprintf_ok (n := 511) he, Exec.bind_ok, if_pos (by rw [List.length_replicate]; omega), if_neg (by simp),
      vsnprintf_ok (n := (List.replicate 512 (97 : UInt8)).length) List.length_replicate, Exec.bind_ok]
    exact ⟨_, _, rfl, by simp only [Nat.add_sub_cancel], vsn_length (n := 511) he⟩
  obtain ⟨b1, e1, h1, hm1, hs1⟩ := step1 start.1 start.2 List.length_replicate
  obtain ⟨b2, e2, h2, hm2, hs2⟩ := step1 ⟨start.1.next + 1, fun i => if i = start.1.next then some b1 else start.1.live i⟩ e1 hs1
  have hrun : run start [.report .runtime (List.replicate 512 97) true 0, .report .runtime (List.replicate 512 97) true 0] =
      .ok (⟨2, fun i => if i = 1 then some b2 else if i = 0 then some b1 else none⟩, e2) := by
    show (report start.1 start.2 .runtime (List.replicate 512 97) true 0 >>= fun s =>
      report s.1 s.2 .runtime (List.replicate 512 97) true 0 >>= fun s => Exec.ok s) = _
    rw [h1, Exec.bind_ok, h2, Exec.bind_ok]
    rfl
  rw [hrun] at hr
  cases hr
  have := hl 0 (by simp)
  rw [hm2] at this
  simp [start] at this

/-- A long message that is freed, and one that is not. -/
example : Used false [.report .runtime (List.replicate 600 97) true 7, .free, .report .syntax [98] false 7] := by
  simp [Used]

/-! ## The kind of error -/

/-- **C88**: the kind of error shown is the one that was reported, or the one given as a default if the
report did not say. -/
def C88Statement : Prop :=
  ∀ (m m' : Mem) (e e' : Error) (k d : Kind) (t : List UInt8) (room : Bool) (junk : UInt8),
    report m e k t room junk = .ok (m', e') →
    shownName e' d = match (if k = .unspecified then d else k) with
      | .internal => .internalError
      | .syntax => .syntaxError
      | .semantic => .semanticError
      | .runtime => .runtimeError
      | .unspecified => .error

theorem report_type {m m' : Mem} {e e' : Error} {k : Kind} {t : List UInt8} {room : Bool} {junk : UInt8}
    (h : report m e k t room junk = .ok (m', e')) : e'.type = k.code := by
  unfold report at h
  cases h2 : vsnprintf e.message2 512 t with
  | ok m2 =>
    rw [h2, Exec.bind_ok] at h
    by_cases hl : t.length > 512 - 1
    · rw [if_pos hl] at h
      by_cases hr : room = false
      · rw [if_pos hr] at h; cases h; rfl
      · rw [if_neg hr] at h
        cases h3 : vsnprintf (List.replicate (t.length + 1) junk) (t.length + 1) t with
        | ok b => rw [h3, Exec.bind_ok] at h; cases h; rfl
        | _ => rw [h3] at h; cases h
    · rw [if_neg hl] at h; cases h; rfl
  | _ => rw [h2] at h; cases h

/-- C88 for the reports that say a kind.  Missing: the others. -/
theorem C88_partial {m m' : Mem} {e e' : Error} {k d : Kind} {t : List UInt8} {room : Bool} {junk : UInt8}
    (h : report m e k t room junk = .ok (m', e')) (hk : k ≠ .unspecified) :
    shownName e' d = match k with
      | .internal => .internalError
      | .syntax => .syntaxError
      | .semantic => .semanticError
      | .runtime => .runtimeError
      | .unspecified => .error := by
  unfold shownName
  rw [report_type h]
  cases k <;> first | rfl | exact absurd rfl hk

/-- The others are all shown as syntax errors, whatever the default: a file that does not exist, for
example. -/
theorem C88_unspecified {m m' : Mem} {e e' : Error} {d : Kind} {t : List UInt8} {room : Bool} {junk : UInt8}
    (h : report m e .unspecified t room junk = .ok (m', e')) : shownName e' d = .syntaxError := by
  unfold shownName
  rw [report_type h]
  rfl

/-- A missing file is reported so. -/
example : ∃ m' e', report ⟨0, fun _ => none⟩ init .unspecified [97] true 0 = .ok (m', e') ∧ shownName e' .runtime = .syntaxError := by
  obtain ⟨m', e', hr, -⟩ := report_ok (m := ⟨0, fun _ => none⟩) (e := init)
    (init_inv (fun _ => rfl)) .unspecified (t := [97]) ⟨by simp, by simp⟩ true 0
  exact ⟨m', e', hr, C88_unspecified hr⟩

theorem C88_violated : ¬ C88Statement := by
  intro h
  obtain ⟨m', e', hr, -⟩ := report_ok (m := ⟨0, fun _ => none⟩) (e := init)
    (init_inv (fun _ => rfl)) .unspecified (t := [97]) ⟨by simp, by simp⟩ true 0
  have h1 := h _ _ _ _ .unspecified .runtime _ _ _ hr
  rw [C88_unspecified hr] at h1
  exact absurd h1 (by decide)

end Noja.Err
