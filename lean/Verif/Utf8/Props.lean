import Verif.Utf8.Lemmas3

/-! # Properties C01, C02, C04, C05: UTF-8 routines -/

namespace Noja.Utf8

/-! ## C01 encode/decode round trip -/

/-- C01, encoding: `encode` succeeds exactly for code points up to U+10FFFF when the
destination is large enough, and then produces the UTF-8 form; otherwise it fails. -/
theorem C01_encode (nbytes : Nat) (code : UInt32) :
    encode nbytes code =
      if code.toNat ≤ 0x10FFFF ∧ (Spec.encode code.toNat).length ≤ nbytes
      then .ok (Spec.encode code.toNat) else .err :=
  encode_model_eq nbytes code

example : encode 3 0x20AC = .ok [0xE2, 0x82, 0xAC] := by decide
example : encode 2 0x20AC = .err := by decide
example : encode 4 0x110000 = .err := by decide

/-- The specification encoder agrees with Lean's own UTF-8 encoder on every `Char`
(so on all code points except surrogates). -/
theorem C01_spec_is_utf8 (c : Char) : Spec.encode c.toNat = String.utf8EncodeChar c := by
  have hv : c.val.toNat ≤ 0x10FFFF := by
    have := c.valid; unfold UInt32.isValidChar Nat.isValidChar at this; omega
  unfold String.utf8EncodeChar Spec.encode Spec.encodeNat
  show List.map _ _ = _
  generalize hc : c.val.toNat = v at *
  rw [show c.toNat = v from hc]
  by_cases h1 : v ≤ 0x7f
  · rw [if_pos (by omega), if_pos h1]; simp
  · rw [if_neg (by omega), if_neg h1]
    by_cases h2 : v ≤ 0x7ff
    · rw [if_pos (by omega), if_pos h2]
      have : v / 64 % 32 = v / 64 := by omega
      simp [this, Nat.add_comm]
    · rw [if_neg (by omega), if_neg h2]
      by_cases h3 : v ≤ 0xffff
      · rw [if_pos (by omega), if_pos h3]
        have : v / 4096 % 16 = v / 4096 := by omega
        simp [this, Nat.add_comm]
      · rw [if_neg (by omega), if_neg h3]
        have : v / 262144 % 8 = v / 262144 := by omega
        simp [this, Nat.add_comm]

/-- C01, round trip: decoding at the start of the encoding of a code point, wherever it
lies in memory and whatever precedes and follows it, gives that code point and consumes
exactly its bytes (1 to 4 of them). -/
theorem C01_roundtrip (nbytes : Nat) (code : UInt32) (bs : List UInt8)
    (h : encode nbytes code = .ok bs) (pre post : List UInt8) (avail : Nat)
    (ha : bs.length ≤ avail) :
    decode (pre ++ bs ++ post) pre.length avail = .ok (code.toNat, bs.length) ∧
      1 ≤ bs.length ∧ bs.length ≤ 4 := by
  rw [encode_model_eq] at h
  split at h
  · rename_i hc
    cases h
    exact ⟨(isUnit_encode _ hc.1).2 pre post avail ha, encode_length_pos _ hc.1, encode_length_le _ hc.1⟩
  · cases h

example : encode 4 0x1F600 = .ok [0xF0, 0x9F, 0x98, 0x80] ∧
    decode ([65] ++ [0xF0, 0x9F, 0x98, 0x80] ++ [66]) 1 5 = .ok (0x1F600, 4) := by decide

/-! ## C02 character count -/

/-- C02: counting the UTF-8 form of a text (whatever follows it in memory) gives the number
of its code points, which is at most the number of bytes. -/
theorem C02_count (t : List Nat) (ht : ∀ c ∈ t, Spec.Valid c) (post : List UInt8) :
    strlen (Spec.encodeText t ++ post) (Spec.encodeText t).length = .ok t.length ∧
      t.length ≤ (Spec.encodeText t).length := by
  have hu := units_encodeText t ht
  have := strlen_units hu post
  rw [← encodeText_eq] at this
  refine ⟨by simpa using this, ?_⟩
  have := hu.length_le
  rw [← encodeText_eq] at this
  simpa using this

/-- C02, arbitrary bytes: counting never reports more characters than bytes. -/
theorem C02_count_le (mem : List UInt8) (n : Nat) (h : strlen mem mem.length = .ok n) :
    n ≤ mem.length := by
  rcases strlen_spec mem mem.length (Nat.le_refl _) with h' | ⟨ps, hu, hf, h'⟩
  · rw [h] at h'; cases h'
  · rw [h] at h'; cases h'
    have := hu.length_le
    rw [hf] at this
    simpa using this

theorem C02_count_empty (post : List UInt8) : strlen post 0 = .ok 0 := rfl

example : (∀ c ∈ [0x41, 0xE9, 0x20AC, 0x1F600], Spec.Valid c) ∧
    strlen (Spec.encodeText [0x41, 0xE9, 0x20AC, 0x1F600] ++ [0xff]) 10 = .ok 4 := by
  unfold Spec.Valid; decide

/-! ## C04 reads stay inside the buffer -/

/-- No undefined behaviour: the call returned, with a value or with the error code. -/
def Returns {α} (r : Exec α) : Prop := r = .err ∨ ∃ a, r = .ok a

/-- C04, the full property: for every block of memory, every routine given the block's own
length (and, for the stepping routines, an index inside it) reads only inside the block. -/
def C04Statement : Prop :=
  ∀ mem : List UInt8,
    Returns (strlen mem mem.length) ∧
    (∀ off n, off + n ≤ mem.length → Returns (decode mem off n)) ∧
    (∀ idx, idx ≤ mem.length → Returns (prev mem idx)) ∧
    (∀ idx, idx ≤ mem.length → Returns (curr mem mem.length idx)) ∧
    (∀ idx, idx ≤ mem.length → Returns (next mem mem.length idx))

/-- C04 is violated by `utf8_next` (utf8.c:430-445), which passes the whole length instead
of the remaining one: on the one-byte text "A" it reads one byte past the end. -/
theorem C04_violated : ¬ C04Statement := by
  intro h
  have := (h [0x41]).2.2.2.2 0 (by decide)
  have e : next [0x41] 1 0 = .ub := by decide
  rw [show ([0x41] : List UInt8).length = 1 from rfl, e] at this
  rcases this with h | ⟨_, h⟩ <;> cases h

/-- C04 for all routines except `utf8_next`. `utf8_next` itself is only covered when eight
more bytes are readable after the index (missing: the actual end of the buffer). -/
theorem C04_reads_in_bounds_partial (mem : List UInt8) :
    Returns (strlen mem mem.length) ∧
    (∀ off n, off + n ≤ mem.length → Returns (decode mem off n)) ∧
    (∀ idx, idx ≤ mem.length → Returns (prev mem idx)) ∧
    (∀ idx, idx ≤ mem.length → Returns (curr mem mem.length idx)) ∧
    (∀ nb idx, idx + 4 + nb ≤ mem.length → Returns (next mem nb idx)) := by
  refine ⟨?_, ?_, ?_, ?_, ?_⟩
  · rcases strlen_spec mem mem.length (Nat.le_refl _) with h | ⟨ps, _, _, h⟩
    · exact .inl h
    · exact .inr ⟨_, h⟩
  · intro off n h
    rcases decode_safe h with h | ⟨c, k, h⟩
    · exact .inl h
    · exact .inr ⟨_, h⟩
  · intro idx h; exact prev_safe mem idx h
  · intro idx h
    unfold curr
    rcases decode_safe (mem := mem) (off := idx) (nb := mem.length - idx) (by omega) with h | ⟨c, k, h⟩
    · rw [h]; exact .inl rfl
    · rw [h]; exact .inr ⟨_, rfl⟩
  · intro nb idx h
    unfold next
    rcases decode_safe (mem := mem) (off := idx) (nb := nb) (by omega) with h1 | ⟨c, k, h1⟩
    · rw [h1]; exact .inl rfl
    · rw [h1]
      have := (decode_ok h1).2.1
      rcases decode_safe (mem := mem) (off := idx + k) (nb := nb) (by omega) with h2 | ⟨c, k, h2⟩
      · simp only [Exec.bind_ok, h2]; exact .inl rfl
      · simp only [Exec.bind_ok, h2]; exact .inr ⟨_, rfl⟩

/-! ## C05 stepping -/

/-- C05: in the text `t1 c d t2`, stepping forward from the start of `c` arrives at the start
of `d` and reports `d`, and stepping backward from there returns to the start of `c` and
reports `c`.  (`nb` is the byte length of the whole text, as callers pass it.) -/
theorem C05_step_back (t1 t2 : List Nat) (c d : Nat)
    (ht : ∀ x ∈ t1 ++ c :: d :: t2, Spec.Valid x) :
    let text := Spec.encodeText (t1 ++ c :: d :: t2)
    let start := (Spec.encodeText t1).length
    ∃ i, next text text.length start = .ok (i, d) ∧ prev text i = .ok (start, some c) ∧
      start < i ∧ i < text.length := by
  have hc : Spec.Valid c := ht c (by simp)
  have hd : Spec.Valid d := ht d (by simp)
  have e : Spec.encodeText (t1 ++ c :: d :: t2) =
      Spec.encodeText t1 ++ Spec.encode c ++ Spec.encode d ++ Spec.encodeText t2 := by
    simp [Spec.encodeText]
  intro text start
  have p1 := encode_length_pos c hc
  have p2 := encode_length_pos d hd
  refine ⟨start + (Spec.encode c).length, ?_, ?_, by omega, ?_⟩
  · show next text _ _ = _
    simp only [text, e]
    apply next_encode _ _ _ _ _ hc hd
    · simp only [List.length_append]; omega
    · simp only [List.length_append]; omega
  · simp only [text, e, start]
    rw [List.append_assoc (Spec.encodeText t1 ++ Spec.encode c)]
    exact prev_encode _ _ c hc
  · simp only [text, e, start, List.length_append]; omega

/-- C05, last character: stepping backward from the end of a text arrives at its last
character and reports it; from the start of a text it stays there. -/
theorem C05_back_from_end (t : List Nat) (c : Nat) (ht : ∀ x ∈ t ++ [c], Spec.Valid x)
    (post : List UInt8) :
    prev (Spec.encodeText (t ++ [c]) ++ post) (Spec.encodeText (t ++ [c])).length =
      .ok ((Spec.encodeText t).length, some c) ∧
    prev (Spec.encodeText (t ++ [c]) ++ post) 0 = .ok (0, none) := by
  refine ⟨?_, rfl⟩
  have := prev_encode (Spec.encodeText t) post c (ht c (by simp))
  simpa [Spec.encodeText] using this

example : next (Spec.encodeText [0x41, 0x20AC, 0x1F600]) 8 1 = .ok (4, 0x1F600) ∧
    prev (Spec.encodeText [0x41, 0x20AC, 0x1F600]) 4 = .ok (1, some 0x20AC) := by decide

end Noja.Utf8
