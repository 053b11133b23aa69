import Verif.Str.Lemmas

namespace Noja.Str
open Utf8

set_option linter.unusedSimpArgs false

/-- A string object as `Object_FromString` makes them: its bytes followed by a NUL. -/
def WF (s : Str) : Prop := s.body.length = s.bytes + 1

theorem wf_mk (ps) : WF (mk ps) := by simp [WF, mk, -List.length_flatten]

theorem wf_fromString {src : List UInt8} {len : Nat} {s : Str} (h : fromString src len = .ok s) :
    WF s ∧ Spec.contents s = src.take len ∧ s.bytes = len := by
  unfold fromString at h
  obtain ⟨n, -, h⟩ := Exec.bind_eq_ok.mp h
  split at h
  · cases h
  · cases h
    have : min len src.length = len := by omega
    simp [WF, Spec.contents, this]

/-- `strncmp` compares the bytes before the first NUL. -/
theorem strncmpEq_spec (a b : List UInt8) :
    ∀ (n i : Nat), i + n ≤ a.length → i + n ≤ b.length →
      ∃ r, strncmpEq a b n i = .ok r ∧
        (r = true ↔ ((a.drop i).take n).takeWhile (· ≠ 0) = ((b.drop i).take n).takeWhile (· ≠ 0)) := by
  intro n
  induction n with
  | zero => intro i _ _; exact ⟨true, rfl, by simp⟩
  | succ n ih =>
    intro i ha hb
    obtain ⟨r, hr, hs⟩ := ih (i + 1) (by omega) (by omega)
    have da := List.drop_eq_getElem_cons (show i < a.length by omega)
    have db := List.drop_eq_getElem_cons (show i < b.length by omega)
    unfold strncmpEq
    rw [rd_of_lt (show i < a.length by omega), rd_of_lt (show i < b.length by omega), da, db]
    simp only [Exec.bind_ok, List.take_succ_cons]
    by_cases e : a[i] = b[i]
    · rw [if_neg (by simpa using e)]
      by_cases z : a[i] = 0
      · rw [if_pos z]
        exact ⟨true, rfl, by simp [List.takeWhile_cons, z, ← e]⟩
      · rw [if_neg z]
        refine ⟨r, hr, ?_⟩
        rw [hs]
        have z' : b[i] ≠ 0 := by rwa [← e]
        simp [List.takeWhile_cons, z, z', e]
    · rw [if_pos e]
      refine ⟨false, rfl, ?_⟩
      constructor
      · intro h; cases h
      · intro h
        exfalso
        simp only [List.takeWhile_cons] at h
        by_cases z : a[i] = 0
        · by_cases z' : b[i] = 0
          · exact e (by rw [z, z'])
          · simp [z, z'] at h
        · by_cases z' : b[i] = 0
          · simp [z, z'] at h
          · simp [z, z'] at h; exact e h.1

theorem opEql_spec (s1 s2 : Str) (h1 : WF s1) (h2 : WF s2) :
    ∃ r, opEql s1 s2 = .ok r ∧
      (r = true ↔ s1.bytes = s2.bytes ∧
        (Spec.contents s1).takeWhile (· ≠ 0) = (Spec.contents s2).takeWhile (· ≠ 0)) := by
  unfold opEql WF at *
  by_cases e : s1.bytes = s2.bytes
  · rw [if_pos e]
    obtain ⟨r, hr, hs⟩ := strncmpEq_spec s1.body s2.body s1.bytes 0 (by omega) (by omega)
    refine ⟨r, hr, ?_⟩
    rw [hs]
    simp [Spec.contents, e]
  · rw [if_neg e]
    exact ⟨false, rfl, by simp [e]⟩

theorem takeWhile_eq_self_of_noNul (l : List UInt8) (h : (0 : UInt8) ∉ l) :
    l.takeWhile (· ≠ 0) = l := by
  induction l with
  | nil => rfl
  | cons x l ih =>
    have hx : x ≠ 0 := by rintro rfl; exact h (by simp)
    rw [List.takeWhile_cons_of_pos (by simpa using hx), ih (fun m => h (by simp [m]))]

theorem contents_length (s : Str) (h : WF s) : (Spec.contents s).length = s.bytes := by
  unfold WF at h; simp [Spec.contents]; omega

theorem hashLoop_safe (mem : List UInt8) : ∀ len i x, i + len ≤ mem.length →
    ∃ y, hashLoop mem len i x = .ok y := by
  intro len
  induction len with
  | zero => intro i x _; exact ⟨x, rfl⟩
  | succ n ih =>
    intro i x h
    unfold hashLoop
    rw [rd_of_lt (by omega)]
    exact ih _ _ (by omega)

theorem hashbytes_safe (mem : List UInt8) (len : Nat) (h : len ≤ mem.length)
    (h0 : 0 < mem.length) : ∃ y, hashbytes mem len = .ok y := by
  unfold hashbytes
  rw [rd_of_lt h0]
  obtain ⟨y, hy⟩ := hashLoop_safe mem len 0 (BitVec.ofNat 32 (mem[0].toNat <<< 7)) (by omega)
  rw [Exec.bind_ok]
  simp only [hy, Exec.bind_ok]
  exact ⟨_, rfl⟩

end Noja.Str
