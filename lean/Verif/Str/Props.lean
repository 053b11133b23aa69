import Verif.Str.Lemmas2

/-! # Properties C03, C21 and the string part of C12 -/

namespace Noja.Str
open Utf8 (Units encodeText_eq units_encodeText)

/-! ## C03 character indexing -/

/-- Making a string value from the UTF-8 bytes of a text. -/
theorem C03_fromString (t : List Nat) (ht : ∀ c ∈ t, Utf8.Spec.Valid c) (post : List UInt8) :
    fromString (Utf8.Spec.encodeText t ++ post) (Utf8.Spec.encodeText t).length =
      .ok (Spec.ofText t) := by
  have := fromString_units (units_encodeText t ht) post
  rw [← encodeText_eq, ← ofText_eq] at this
  exact this

/-- C03, the full property: an integer key selects the character with that index when it is
in range; every other key is an error. -/
def C03Statement : Prop :=
  ∀ (t : List Nat), (∀ c ∈ t, Utf8.Spec.Valid c) →
    (∀ key : Int, IsI64 key → (h : 0 ≤ key ∧ key < t.length) →
      select (Spec.ofText t) (some key) = .ok (Spec.ofText [t[key.toNat]'(by omega)])) ∧
    (∀ key : Int, IsI64 key → ¬ (0 ≤ key ∧ key < t.length) →
      select (Spec.ofText t) (some key) = .err) ∧
    select (Spec.ofText t) none = .err

/-- C03 is violated: the index is truncated to 32 bits (o_string.c:102), so index 2^32 of
"a" is accepted. -/
theorem C03_violated : ¬ C03Statement := by
  intro h
  have := (h [97] (by simp [Utf8.Spec.Valid])).2.1 4294967296 (by decide) (by simp)
  revert this
  decide

/-- C03 for keys that fit in 32 bits and texts of less than 2^31 characters.
Missing: keys outside that range (see `C03_violated`). -/
theorem C03_select_partial (t : List Nat) (ht : ∀ c ∈ t, Utf8.Spec.Valid c)
    (hl : t.length < 2 ^ 31) :
    (∀ i (h : i < t.length),
      select (Spec.ofText t) (some (i : Int)) = .ok (Spec.ofText [t[i]])) ∧
    (∀ key : Int, IsI32 key → ¬ (0 ≤ key ∧ key < t.length) →
      select (Spec.ofText t) (some key) = .err) ∧
    select (Spec.ofText t) none = .err := by
  refine ⟨?_, ?_, rfl⟩
  · intro i h
    obtain ⟨as, qs, e, ha⟩ := split_at (t.map Utf8.Spec.encode) i (by simpa using h)
    have hu := units_encodeText t ht
    rw [ofText_eq, e]
    rw [e] at hu
    rw [select_units as _ qs hu i (by rw [toI32_of_isI32 (by unfold IsI32; omega), ha])]
    rw [ofText_eq]
    simp
  · intro key hk hn
    unfold select
    simp only [toI32_of_isI32 hk]
    rw [if_pos (by simp only [Spec.ofText]; omega)]

/-- C03, concatenating all the characters of a string gives the string's bytes back. -/
theorem C03_concat (t : List Nat) (ht : ∀ c ∈ t, Utf8.Spec.Valid c) (hl : t.length < 2 ^ 31) :
    ∃ cs : List Str, cs.length = t.length ∧
      (∀ i (h : i < cs.length), select (Spec.ofText t) (some (i : Int)) = .ok cs[i]) ∧
      (cs.map Spec.contents).flatten = Spec.contents (Spec.ofText t) := by
  refine ⟨t.map (fun c => Spec.ofText [c]), by simp, ?_, ?_⟩
  · intro i h
    rw [(C03_select_partial t ht hl).1 i (by simpa using h)]
    simp
  · simp [Spec.contents, Spec.ofText, Utf8.Spec.encodeText, List.flatMap, Function.comp_def]

/-- C03 on every string value, also one holding bytes that are not well-formed UTF-8 but were
accepted: no index makes the implementation read outside the string, in-range indices give a
character, and together the characters make up the string. -/
theorem C03_select_any (src : List UInt8) (len : Nat) (s : Str) (hlen : len ≤ src.length)
    (hs : fromString src len = .ok s) (hl : s.count < 2 ^ 31) :
    ∃ cs : List Str, cs.length = s.count ∧
      (∀ i (h : i < cs.length), select s (some (i : Int)) = .ok cs[i] ∧ cs[i].count = 1) ∧
      (cs.map Spec.contents).flatten = Spec.contents s ∧
      (∀ key : Int, select s (some key) = .err ∨
        ∃ (i : Nat) (h : i < cs.length), select s (some key) = .ok cs[i]) := by
  rcases fromString_spec src len hlen with h | ⟨ps, hu, hf, h⟩
  · rw [h] at hs; cases hs
  · rw [h] at hs; cases hs
    have key : ∀ i (h : i < ps.length) (k : Int), toI32 k = i →
        select (mk ps) (some k) = .ok (mk [ps[i]]) := by
      intro i hi k hk
      obtain ⟨as, qs, e, ha⟩ := split_at ps i hi
      have hu' := hu
      rw [e] at hu'
      have := select_units as _ qs hu' k (by rw [hk, ha])
      rw [← e] at this
      exact this
    have hl' : ps.length < 2 ^ 31 := hl
    refine ⟨ps.map (fun u => mk [u]), by simp [mk], ?_, ?_, ?_⟩
    · intro i hi
      have hi' : i < ps.length := by simpa using hi
      refine ⟨?_, by simp [mk]⟩
      rw [key i hi' i (toI32_of_isI32 (by unfold IsI32; omega))]
      simp
    · simp [Spec.contents, mk, Function.comp_def]
    · intro k
      by_cases hk : toI32 k < 0 ∨ toI32 k ≥ ps.length
      · left; unfold select
        simp only []
        rw [if_pos (by simpa [mk] using hk)]
      · right
        have hi : (toI32 k).toNat < ps.length := by omega
        refine ⟨(toI32 k).toNat, by simpa using hi, ?_⟩
        rw [key _ hi k (by omega)]
        simp

example : (∀ c ∈ [0x68, 0xE9, 0x1F600], Utf8.Spec.Valid c) ∧
    select (Spec.ofText [0x68, 0xE9, 0x1F600]) (some 2) = .ok (Spec.ofText [0x1F600]) ∧
    select (Spec.ofText [0x68, 0xE9, 0x1F600]) (some 3) = .err := by
  unfold Utf8.Spec.Valid; decide

/-! ## C21 string equality -/

/-- C21, the full property: strings compare equal exactly when they hold the same bytes. -/
def C21Statement : Prop :=
  ∀ (src1 src2 : List UInt8) (s1 s2 : Str),
    fromString src1 src1.length = .ok s1 → fromString src2 src2.length = .ok s2 →
    opEql s1 s2 = .ok (decide (src1 = src2))

/-- C21 is violated: the comparison stops at a NUL character (o_string.c:213), so the
different strings "\0a" and "\0b" compare equal. -/
theorem C21_violated : ¬ C21Statement := by
  intro h
  have := h [0, 97] [0, 98] ⟨2, 2, [0, 97, 0]⟩ ⟨2, 2, [0, 98, 0]⟩ (by decide) (by decide)
  revert this
  decide

/-- C21 for strings without NUL characters.  Missing: strings containing NUL. -/
theorem C21_eq_partial (src1 src2 : List UInt8) (s1 s2 : Str)
    (h1 : fromString src1 src1.length = .ok s1) (h2 : fromString src2 src2.length = .ok s2)
    (n1 : (0 : UInt8) ∉ src1) (n2 : (0 : UInt8) ∉ src2) :
    opEql s1 s2 = .ok (decide (src1 = src2)) := by
  obtain ⟨w1, c1, b1⟩ := wf_fromString h1
  obtain ⟨w2, c2, b2⟩ := wf_fromString h2
  obtain ⟨r, hr, hs⟩ := opEql_spec s1 s2 w1 w2
  rw [hr]
  rw [c1, c2, List.take_length, List.take_length, takeWhile_eq_self_of_noNul _ n1,
    takeWhile_eq_self_of_noNul _ n2] at hs
  congr 1
  rw [Bool.eq_iff_iff, hs, decide_eq_true_eq]
  constructor
  · exact fun h => h.2
  · intro h; exact ⟨by rw [b1, b2, h], h⟩

/-- C21, one direction holds for all strings: equal bytes always compare equal. -/
theorem C21_same_bytes_equal (src : List UInt8) (s1 s2 : Str)
    (h1 : fromString src src.length = .ok s1) (h2 : fromString src src.length = .ok s2) :
    opEql s1 s2 = .ok true := by
  obtain ⟨w1, c1, b1⟩ := wf_fromString h1
  obtain ⟨w2, c2, b2⟩ := wf_fromString h2
  obtain ⟨r, hr, hs⟩ := opEql_spec s1 s2 w1 w2
  rw [hr, hs.mpr ⟨by rw [b1, b2], by rw [c1, c2]⟩]

example : fromString [104, 105] 2 = .ok ⟨2, 2, [104, 105, 0]⟩ ∧
    (0 : UInt8) ∉ ([104, 105] : List UInt8) ∧
    opEql ⟨2, 2, [104, 105, 0]⟩ ⟨2, 2, [104, 106, 0]⟩ = .ok false := by decide

/-! ## C12, strings: equal strings have the same hash -/

/-- Violated with NUL characters: "\0a" == "\0b" but their hashes differ. -/
theorem C12_string_violated :
    ∃ s1 s2 : Str, fromString [0, 97] 2 = .ok s1 ∧ fromString [0, 98] 2 = .ok s2 ∧
      opEql s1 s2 = .ok true ∧ hash s1 ≠ hash s2 :=
  ⟨⟨2, 2, [0, 97, 0]⟩, ⟨2, 2, [0, 98, 0]⟩, by decide⟩

/-- Strings (without NUL) that compare equal have the same hash, and hashing never reads
outside the string. -/
theorem C12_string_partial (src1 src2 : List UInt8) (s1 s2 : Str)
    (h1 : fromString src1 src1.length = .ok s1) (h2 : fromString src2 src2.length = .ok s2)
    (n1 : (0 : UInt8) ∉ src1) (n2 : (0 : UInt8) ∉ src2) (he : opEql s1 s2 = .ok true) :
    ∃ x, hash s1 = .ok x ∧ hash s2 = .ok x := by
  rw [C21_eq_partial src1 src2 s1 s2 h1 h2 n1 n2] at he
  have e : src1 = src2 := by simpa using he
  subst e
  rw [h1] at h2; cases h2
  obtain ⟨w1, c1, b1⟩ := wf_fromString h1
  rcases fromString_spec src1 src1.length (Nat.le_refl _) with h | ⟨ps, hu, hf, h⟩
  · rw [h] at h1; cases h1
  · rw [h] at h1; cases h1
    have := hu.length_le
    obtain ⟨x, hx⟩ := hashbytes_safe (mk ps).body (mk ps).count
      (by simp [mk, -List.length_flatten]; omega) (by simp [mk])
    exact ⟨x, hx, hx⟩

end Noja.Str
