import Verif.Parse.Model
import Verif.Asm.Model

/-!
# Which characters and words there are (C50, C54, C58)

The descriptions of tokens (`Parse/Lex.lean`), programs (`Parse/Syntax.lean`) and assembly texts
(`Asm/Scan.lean`) speak of spaces, letters, digits and operators by the functions of the model. Here
is what these are, written down without them.
-/

namespace Noja.Parse

/-- The byte is one of the characters of the text. -/
def In (s : String) (c : UInt8) : Prop := ∃ x ∈ s.toList, x.toNat = c.toNat

def blanks : String := " \t\n\x0b\x0c\r"
def figures : String := "0123456789"
def alphabet : String := "abcdefghijklmnopqrstuvwxyzABCDEFGHIJKLMNOPQRSTUVWXYZ"
def operators : String := "+-*/<>!=,|%"

instance (s : String) (c : UInt8) : Decidable (In s c) := inferInstanceAs (Decidable (∃ x ∈ s.toList, _))

theorem every {p : UInt8 → Prop} (h : ∀ i : Fin 256, p (UInt8.ofNat i.val)) (c : UInt8) : p c := by
  have := h ⟨c.toNat, c.toNat_lt⟩
  rwa [UInt8.ofNat_toNat] at this

set_option maxRecDepth 8000

/-- The characters the compiler tells apart. -/
theorem C50_classes (c : UInt8) :
    (isSpace c = true ↔ In blanks c) ∧ (isDigit c = true ↔ In figures c) ∧ (isOper c = true ↔ In operators c) ∧
    (identStart c = true ↔ In alphabet c ∨ In "_" c) ∧ (identChar c = true ↔ In alphabet c ∨ In "_" c ∨ In figures c) :=
  every (p := fun c => (isSpace c = true ↔ In blanks c) ∧ (isDigit c = true ↔ In figures c) ∧ (isOper c = true ↔ In operators c) ∧
    (identStart c = true ↔ In alphabet c ∨ In "_" c) ∧ (identChar c = true ↔ In alphabet c ∨ In "_" c ∨ In figures c))
    (by decide +kernel) c

/-- The characters the assembler tells apart. -/
theorem C58_classes (c : UInt8) :
    (Asm.isSpace c = true ↔ In blanks c) ∧ (Asm.isDigit c = true ↔ In figures c) ∧
    (Asm.identStart c = true ↔ In alphabet c ∨ In "_" c) ∧ (Asm.identChar c = true ↔ In alphabet c ∨ In "_" c ∨ In figures c) :=
  every (p := fun c => (Asm.isSpace c = true ↔ In blanks c) ∧ (Asm.isDigit c = true ↔ In figures c) ∧
    (Asm.identStart c = true ↔ In alphabet c ∨ In "_" c) ∧ (Asm.identChar c = true ↔ In alphabet c ∨ In "_" c ∨ In figures c))
    (by decide +kernel) c

/-- An escape sequence and the character it stands for. -/
def escapes : List (Char × Char) := [('n', '\n'), ('t', '\t'), ('r', '\r'), ('"', '"'), ('\\', '\\'), ('\'', '\'')]

/-- What follows a backslash, in the compiler. The assembler knows the same but the single quote. -/
theorem C54_escapes (c d : UInt8) :
    (unescape c = some d ↔ ∃ p ∈ escapes, p.1.toNat = c.toNat ∧ p.2.toNat = d.toNat) ∧
    (Asm.unescape c = some d ↔ ∃ p ∈ escapes, p.1 ≠ '\'' ∧ p.1.toNat = c.toNat ∧ p.2.toNat = d.toNat) := by
  have key : ∀ c : UInt8, (unescape c).map UInt8.toNat = (escapes.find? fun p => p.1.toNat = c.toNat).map fun p => p.2.toNat :=
    every (by decide +kernel)
  have key2 : ∀ c : UInt8, (Asm.unescape c).map UInt8.toNat =
      ((escapes.filter fun p => p.1 ≠ '\'').find? fun p => p.1.toNat = c.toNat).map fun p => p.2.toNat :=
    every (by decide +kernel)
  have uniq : ∀ p ∈ escapes, ∀ q ∈ escapes, p.1.toNat = q.1.toNat → p = q := by decide +kernel
  have go : ∀ (l : List (Char × Char)) (u : Option UInt8), (∀ p ∈ l, p ∈ escapes) →
      u.map UInt8.toNat = (l.find? fun p => p.1.toNat = c.toNat).map (fun p => p.2.toNat) →
      (u = some d ↔ ∃ p ∈ l, p.1.toNat = c.toNat ∧ p.2.toNat = d.toNat) := by
    intro l u hl h
    constructor
    · rintro rfl
      cases hf : l.find? fun p => p.1.toNat = c.toNat with
      | none => rw [hf] at h; cases h
      | some p =>
        rw [hf] at h
        have h1 := List.find?_some hf
        exact ⟨p, List.mem_of_find?_eq_some hf, by simpa using h1, (Option.some.inj h).symm⟩
    · rintro ⟨p, hp, h1, h2⟩
      cases hf : l.find? fun p => p.1.toNat = c.toNat with
      | none =>
        have := List.find?_eq_none.1 hf p hp
        simp [h1] at this
      | some q =>
        have h3 := List.find?_some hf
        have : q = p := uniq q (hl q (List.mem_of_find?_eq_some hf)) p (hl p hp) (by rw [h1]; simpa using h3)
        rw [hf, this] at h
        cases u with
        | none => cases h
        | some x =>
          have : x.toNat = d.toNat := (Option.some.inj h).trans h2
          rw [UInt8.toNat_inj.1 this]
  refine ⟨go escapes _ (fun _ h => h) (key c), ?_⟩
  have := go (escapes.filter fun p => p.1 ≠ '\'') _ (fun p h => (List.mem_filter.1 h).1) (key2 c)
  rw [this]
  constructor
  · rintro ⟨p, hp, h⟩
    obtain ⟨q1, q2⟩ := List.mem_filter.1 hp
    exact ⟨p, q1, by simpa using q2, h⟩
  · rintro ⟨p, hp, hn, h⟩
    exact ⟨p, List.mem_filter.2 ⟨hp, by simpa using hn⟩, h⟩

/-- What these say about the letter `x`, the underscore, a blank and the escape sequence for the end of a line. -/
example : identStart 120 = true ∧ identChar 95 = true ∧ isSpace 32 = true ∧ isOper 43 = true ∧ isDigit 48 = true ∧
    unescape 110 = some 10 ∧ Asm.unescape 39 = none := by decide

end Noja.Parse
