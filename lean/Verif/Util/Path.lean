import Verif.Exec

/-!
# `src/lib/utils/path.c` and property C72

Paths are byte strings without NUL (the terminating NUL is explicit where it is
written).  `getcwd` is the system call: it fails when the working directory and
its NUL do not fit the buffer, and otherwise fills the buffer with them.  `cwd =
none` is a failure of the system call for other reasons.
-/

namespace Noja.Path

/-! ## Model -/

/-- Checked store of bytes into a buffer: `ub` when it does not fit. -/
def store (buf : List UInt8) (at_ : Nat) (bs : List UInt8) : Exec (List UInt8) :=
  if at_ + bs.length ≤ buf.length
  then .ok (buf.take at_ ++ bs ++ buf.drop (at_ + bs.length)) else .ub

/-- path.c:6-9 `Path_IsAbsolute`. -/
def isAbsolute (path : List UInt8) : Bool := path.head? == some 47

/-- What `Path_MakeAbsolute` returns: NULL, the path argument itself, or the buffer. -/
inductive Result
  | null
  | same
  | buffer
deriving DecidableEq

/-- path.c:11-36 `Path_MakeAbsolute(path, buff, buffsize)`, with `buffsize = buf.length`. -/
def makeAbsolute (cwd : Option (List UInt8)) (path buf : List UInt8) :
    Exec (List UInt8 × Result) :=
  if isAbsolute path then .ok (buf, .same)
  else
    match cwd with
    | none => .ok (buf, .null)
    | some cwd =>
      if cwd.length + 1 > buf.length then .ok (buf, .null)
      else do
        let buf ← store buf 0 (cwd ++ [0])
        let written := cwd.length
        if written + 1 ≥ buf.length then .ok (buf, .null)
        else do
          let buf ← store buf written [47]
          let written := written + 1
          let n := path.length
          if written + n ≥ buf.length then .ok (buf, .null)
          else do
            let buf ← store buf written path
            let buf ← store buf (written + n) [0]
            .ok (buf, .buffer)

/-! ## Property -/

/-- The C string at the start of a buffer. -/
def cstring (buf : List UInt8) : List UInt8 := buf.takeWhile (· ≠ 0)

/-- What the absolute form of `path` is. -/
def Spec.absolute (cwd path : List UInt8) : List UInt8 := cwd ++ [47] ++ path

theorem takeWhile_append_nul (l r : List UInt8) (h : (0 : UInt8) ∉ l) :
    (l ++ 0 :: r).takeWhile (· ≠ 0) = l := by
  induction l with
  | nil => rfl
  | cons x l ih =>
    have hx : x ≠ 0 := by rintro rfl; exact h (by simp)
    rw [List.cons_append, List.takeWhile_cons_of_pos (by simpa using hx),
      ih (fun m => h (by simp [m]))]

/-- **C72**: an absolute path is returned as is; for another path the buffer receives the
working directory, a slash and the path exactly when that and its NUL fit; otherwise NULL is
returned.  The buffer is never overrun (no `ub`) and keeps its size. -/
theorem C72_makeAbsolute (cwd path buf : List UInt8) (hc : (0 : UInt8) ∉ cwd)
    (hp : (0 : UInt8) ∉ path) :
    ∃ buf' r, makeAbsolute (some cwd) path buf = .ok (buf', r) ∧ buf'.length = buf.length ∧
      (path.head? = some 47 → r = .same) ∧
      (path.head? ≠ some 47 → (Spec.absolute cwd path).length + 1 ≤ buf.length →
        r = .buffer ∧ cstring buf' = Spec.absolute cwd path) ∧
      (path.head? ≠ some 47 → ¬ (Spec.absolute cwd path).length + 1 ≤ buf.length → r = .null) := by
  unfold makeAbsolute
  by_cases h0 : path.head? = some 47
  · rw [if_pos (by simp [isAbsolute, h0])]
    exact ⟨buf, .same, rfl, rfl, fun _ => rfl, fun h => absurd h0 h, fun h => absurd h0 h⟩
  · rw [if_neg (by simp [isAbsolute, h0])]
    simp only [Spec.absolute, List.length_append, List.length_cons, List.length_nil]
    by_cases h1 : cwd.length + 1 > buf.length
    · rw [if_pos h1]
      exact ⟨buf, .null, rfl, rfl, fun h => absurd h h0, fun _ h => by omega, fun _ _ => rfl⟩
    · rw [if_neg h1]
      have e1 : store buf 0 (cwd ++ [0]) = .ok (cwd ++ [0] ++ buf.drop (cwd.length + 1)) := by
        unfold store; rw [if_pos (by simp; omega)]; simp
      rw [e1, Exec.bind_ok]
      have l1 : (cwd ++ [0] ++ buf.drop (cwd.length + 1)).length = buf.length := by simp; omega
      rw [l1]
      by_cases h2 : cwd.length + 1 ≥ buf.length
      · rw [if_pos h2]
        exact ⟨_, .null, rfl, l1, fun h => absurd h h0, fun _ h => by omega, fun _ _ => rfl⟩
      · rw [if_neg h2]
        have e2 : store (cwd ++ [0] ++ buf.drop (cwd.length + 1)) cwd.length [47] =
            .ok (cwd ++ [47] ++ buf.drop (cwd.length + 1)) := by
          unfold store; rw [if_pos (by simp)]; simp
        rw [e2, Exec.bind_ok]
        have l2 : (cwd ++ [47] ++ buf.drop (cwd.length + 1)).length = buf.length := by simp; omega
        simp only [l2]
        by_cases h3 : cwd.length + 1 + path.length ≥ buf.length
        · rw [if_pos h3]
          exact ⟨_, .null, rfl, l2, fun h => absurd h h0, fun _ h => by omega, fun _ _ => rfl⟩
        · rw [if_neg h3]
          have e3 : store (cwd ++ [47] ++ buf.drop (cwd.length + 1)) (cwd.length + 1) path =
              .ok (cwd ++ [47] ++ path ++ buf.drop (cwd.length + 1 + path.length)) := by
            unfold store; rw [if_pos (by rw [l2]; omega)]
            congr 1
            have : cwd.length + 1 = (cwd ++ [47]).length := by simp
            rw [this, List.take_left, List.drop_append, List.drop_drop]
            simp
          rw [e3, Exec.bind_ok]
          have l3 : (cwd ++ [47] ++ path ++ buf.drop (cwd.length + 1 + path.length)).length =
              buf.length := by simp; omega
          have e4 : store (cwd ++ [47] ++ path ++ buf.drop (cwd.length + 1 + path.length))
              (cwd.length + 1 + path.length) [0] =
              .ok (cwd ++ [47] ++ path ++ [0] ++ buf.drop (cwd.length + 1 + path.length + 1)) := by
            unfold store; rw [if_pos (by rw [l3]; simp; omega)]
            congr 1
            have : cwd.length + 1 + path.length = (cwd ++ [47] ++ path).length := by simp; omega
            rw [this, List.take_left, List.drop_append, List.drop_drop]
            simp
          rw [e4, Exec.bind_ok]
          refine ⟨_, .buffer, rfl, ?_, fun h => absurd h h0, fun _ _ => ⟨rfl, ?_⟩, fun _ h => by omega⟩
          · simp; omega
          · unfold cstring
            rw [List.append_assoc _ [0]]
            exact takeWhile_append_nul _ _ (by simp [hc, hp])

/-- **C72**: if the working directory is unavailable, a relative path gives NULL. -/
theorem C72_no_cwd (path buf : List UInt8) :
    makeAbsolute none path buf = .ok (buf, if path.head? = some 47 then .same else .null) := by
  unfold makeAbsolute isAbsolute
  by_cases h : path.head? = some 47 <;> simp [h]

example : makeAbsolute (some [47, 97]) [98] [1, 1, 1, 1, 1, 1] =
    .ok ([47, 97, 47, 98, 0, 1], .buffer) ∧
    (makeAbsolute (some [47, 97]) [98] [1, 1, 1, 1]).bind (fun r => .ok r.2) = .ok .null := by decide

end Noja.Path
