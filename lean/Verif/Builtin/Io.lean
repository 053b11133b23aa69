import Verif.Builtin.Args
import Verif.CInt

/-! # Reading and writing through buffers: builtins/files.c:103-173, builtins/net.c:94-152

The environment is the input of a transfer: for reads the bytes that are to be had, for writes how
many of the offered bytes are taken. -/

namespace Noja.Builtin

inductive IoFn where
  | fileRead | fileWrite | netRecv | netSend
deriving DecidableEq

def IoFn.isWrite : IoFn → Bool
  | .fileWrite | .netSend => true
  | _ => false

/-- The count handed to `fread`, `fwrite`, `recv` or `send`; `none` if the call is refused.
files.c:121-131, 157-167 (with a cast to `int` where no count is given), net.c:109-116, 139-146. -/
def ioCount (fn : IoFn) (size : Nat) : Option Int → Option Nat
  | some v =>
    let n := toI32 v
    if n < 0 then none else some (min n.toNat size)
  | none => if fn = .fileWrite then some (toSize (toI32 size)) else some size

/-- What a transfer did. -/
inductive IoRes where
  | refused
  /-- the memory from the buffer's address on afterwards, and what was taken out of the buffer -/
  | done (mem : List UInt8) (moved : List UInt8)
deriving DecidableEq

/-- A transfer between a buffer of `size` bytes, at the beginning of `mem`, and the environment.
Leaving `mem` is `ub`. -/
def transfer (fn : IoFn) (mem : List UInt8) (size : Nat) (n : Option Int) (avail : List UInt8)
    (taken : Nat) : Exec IoRes :=
  match ioCount fn size n with
  | none => .ok .refused
  | some count =>
    if fn.isWrite then
      if count > mem.length then .ub else .ok (.done mem ((mem.take count).take taken))
    else
      let data := avail.take count
      if data.length > mem.length then .ub else .ok (.done (data ++ mem.drop data.length) data)

/-- The transfer stays within what was asked for: a read stores the first bytes offered at the start
of the buffer and changes nothing else, a write gives a prefix of the buffer. -/
def Proper (fn : IoFn) (mem : List UInt8) (size : Nat) (n : Option Int) (avail : List UInt8) : IoRes → Prop
  | .refused => False
  | .done mem' moved =>
    moved.length ≤ size ∧ (∀ v ∈ n, (moved.length : Int) ≤ v) ∧
    (if fn.isWrite then mem' = mem ∧ moved <+: mem.take size
     else moved <+: avail ∧ mem' = moved ++ mem.drop moved.length)

/-- The full statement. -/
def C67Statement : Prop := ∀ (fn : IoFn) (mem : List UInt8) (size : Nat) (n : Option Int)
    (avail : List UInt8) (taken : Nat), size ≤ mem.length → mem.length < 2 ^ 63 → (∀ v ∈ n, IsI64 v) →
  ((∃ v, n = some v ∧ v < 0) → transfer fn mem size n avail taken = .ok .refused) ∧
  (¬ (∃ v, n = some v ∧ v < 0) → ∃ r, transfer fn mem size n avail taken = .ok r ∧ Proper fn mem size n avail r)

/-- C67 for counts of 32 bits, and for `files.write` without a count for buffers below 2 GB.  Missing:
counts that change when cut to 32 bits, larger buffers. -/
theorem C67_transfer_partial (fn : IoFn) (mem : List UInt8) (size : Nat) (n : Option Int)
    (avail : List UInt8) (taken : Nat) (hs : size ≤ mem.length) (hn : ∀ v ∈ n, IsI32 v)
    (hw : n = none → fn = .fileWrite → size < 2 ^ 31) :
    ((∃ v, n = some v ∧ v < 0) → transfer fn mem size n avail taken = .ok .refused) ∧
    (¬ (∃ v, n = some v ∧ v < 0) →
      ∃ r, transfer fn mem size n avail taken = .ok r ∧ Proper fn mem size n avail r) := by
  constructor
  · rintro ⟨v, rfl, hv⟩
    unfold transfer ioCount
    simp only []
    rw [toI32_of_isI32 (hn v rfl), if_pos hv]
  · intro hneg
    obtain ⟨count, hc, h1, h2⟩ : ∃ count, ioCount fn size n = some count ∧ count ≤ size ∧
        ∀ v ∈ n, (count : Int) ≤ v := by
      cases n with
      | none =>
        unfold ioCount
        by_cases c : fn = .fileWrite
        · simp only [if_pos c]
          have := hw rfl c
          rw [toI32_of_isI32 (by unfold IsI32; omega)]
          refine ⟨_, rfl, ?_, by simp⟩
          unfold toSize; omega
        · simp only [if_neg c]
          exact ⟨_, rfl, Nat.le_refl _, by simp⟩
      | some v =>
        have hv : ¬ v < 0 := fun h => hneg ⟨v, rfl, h⟩
        unfold ioCount
        simp only []
        rw [toI32_of_isI32 (hn v rfl), if_neg hv]
        refine ⟨_, rfl, Nat.min_le_right _ _, ?_⟩
        rintro w hw'
        cases hw'
        omega
    unfold transfer
    rw [hc]
    simp only []
    by_cases w : fn.isWrite = true
    · rw [if_pos w, if_neg (by omega)]
      refine ⟨_, rfl, ?_⟩
      have hl : ((mem.take count).take taken).length ≤ count := by simp; omega
      refine ⟨by omega, fun v hv => by have := h2 v hv; omega, ?_⟩
      rw [if_pos w]
      refine ⟨rfl, List.IsPrefix.trans (List.take_prefix _ _) ?_⟩
      rw [show mem.take count = (mem.take size).take count by rw [List.take_take]; congr 1; omega]
      exact List.take_prefix _ _
    · have hl : (avail.take count).length ≤ count := by simp; omega
      rw [if_neg w, if_neg (by omega)]
      refine ⟨_, rfl, by omega, fun v hv => by have := h2 v hv; omega, ?_⟩
      rw [if_neg w]
      exact ⟨List.take_prefix _ _, rfl⟩

example : (∀ v ∈ some (5 : Int), IsI32 v) ∧
    transfer .netRecv [1, 2, 3, 4] 3 (some 5) [9, 9, 9, 9, 9, 9] 0 = .ok (.done [9, 9, 9, 4] [9, 9, 9]) := by
  refine ⟨?_, by decide⟩
  rintro v ⟨⟩
  unfold IsI32; omega

/-- Violated: -2^32 + 5 counts as 5. -/
theorem C67_violated : ¬ C67Statement := by
  intro h
  have := (h .netRecv [0] 1 (some (-2 ^ 32 + 5)) [7] 0 (by decide) (by decide)
    (by rintro v ⟨⟩; unfold IsI64; omega)).1 ⟨_, rfl, by omega⟩
  have e : transfer .netRecv [0] 1 (some (-2 ^ 32 + 5)) [7] 0 = .ok (.done [7] [7]) := by decide
  rw [e] at this
  cases this

/-- Violated also without a count: `files.write` of any buffer of 2^31 up to 2^32 - 1 bytes reads far
outside of it. -/
theorem C67_violated_write (mem avail : List UInt8) (taken : Nat) (h1 : 2 ^ 31 ≤ mem.length)
    (h2 : mem.length < 2 ^ 32) : transfer .fileWrite mem mem.length none avail taken = .ub := by
  have e : ioCount .fileWrite mem.length none = some (mem.length + (2 ^ 64 - 2 ^ 32)) := by
    unfold ioCount
    rw [if_pos rfl]
    have : toI32 (mem.length : Int) = mem.length - 2 ^ 32 := by
      unfold toI32
      rw [Int.bmod_def]
      split <;> omega
    rw [this]
    have : toSize ((mem.length : Int) - 2 ^ 32) = mem.length + (2 ^ 64 - 2 ^ 32) := by
      unfold toSize; omega
    rw [this]
  unfold transfer
  rw [e]
  simp only []
  rw [if_pos (show IoFn.fileWrite.isWrite = true from rfl), if_pos (by omega)]

end Noja.Builtin
