import Verif.VM.Book.Text
import Verif.Utf8.Lemmas2

/-! # Bytes that are no text -/

set_option linter.unusedVariables false

namespace Noja.VM.Book

theorem broken_one {a : UInt8} (h : a.toNat < 192) : ∀ l, broken (a :: l) = broken l
  | [] => by unfold broken; rw [decide_eq_false (by omega)]
  | [b] => by conv => lhs; unfold broken
              rw [if_pos h]
  | [b, c] => by conv => lhs; unfold broken
                 rw [if_pos h]
  | b :: c :: d :: l => by conv => lhs; unfold broken
                           rw [if_pos h]

theorem broken_two {a b : UInt8} (h : ¬ a.toNat < 192) (h' : a.toNat < 224) : ∀ l, broken (a :: b :: l) = broken l
  | [] => by unfold broken; rw [if_neg h, decide_eq_false (by omega)]
  | [c] => by conv => lhs; unfold broken
              rw [if_neg h, if_pos h']
  | c :: d :: l => by conv => lhs; unfold broken
                      rw [if_neg h, if_pos h']

theorem broken_three {a b c : UInt8} (h : ¬ a.toNat < 224) (h' : a.toNat < 240) : ∀ l, broken (a :: b :: c :: l) = broken l
  | [] => by unfold broken; rw [if_neg (by omega), if_neg h, decide_eq_false (by omega)]
  | d :: l => by conv => lhs; unfold broken
                 rw [if_neg (by omega), if_neg h, if_pos h']

/-- What the code takes for characters is not broken. -/
theorem broken_units : ∀ {ps : List (List UInt8)}, Utf8.Units ps → broken ps.flatten = false
  | [], _ => rfl
  | u :: ps, h => by
    obtain ⟨⟨c, hc⟩, hps⟩ := h.cons
    have ih := broken_units hps
    obtain ⟨hne, hd⟩ := hc
    have hd := hd [] [] u.length (Nat.le_refl _)
    rw [List.nil_append, List.append_nil, List.length_nil] at hd
    rw [List.flatten_cons]
    rw [Utf8.decode_eq] at hd
    match u, hne with
    | [a], _ =>
      by_cases h1 : a.toNat < 192
      · rw [List.singleton_append, broken_one h1]; exact ih
      · exfalso
        rw [if_neg (by simp)] at hd
        have hr : rd [a] 0 = .ok a := rfl
        rw [hr, Exec.bind_ok, if_neg (by omega), if_neg h1] at hd
        by_cases h2 : a.toNat < 224
        · rw [if_pos h2, if_pos (by simp)] at hd; cases hd
        rw [if_neg h2] at hd
        by_cases h3 : a.toNat < 240
        · rw [if_pos h3, if_pos (by simp)] at hd; cases hd
        rw [if_neg h3, if_pos (by simp)] at hd; cases hd
    | a :: b :: v, _ =>
      rw [if_neg (by simp)] at hd
      have hr : rd (a :: b :: v) 0 = .ok a := rfl
      have hr1 : rd (a :: b :: v) (0 + 1) = .ok b := rfl
      rw [hr, Exec.bind_ok] at hd
      by_cases h0 : a.toNat < 128
      · rw [if_pos h0] at hd
        injection hd with hd; injection hd with _ hd; simp at hd
      rw [if_neg h0] at hd
      by_cases h1 : a.toNat < 192
      · rw [if_pos h1] at hd
        injection hd with hd; injection hd with _ hd; simp at hd
      rw [if_neg h1] at hd
      by_cases h2 : a.toNat < 224
      · rw [if_pos h2, if_neg (by simp), hr1, Exec.bind_ok] at hd
        injection hd with hd; injection hd with _ hd
        have hv : v = [] := by
          cases v with
          | nil => rfl
          | cons c v => simp at hd
        subst hv
        show broken (a :: b :: ps.flatten) = false
        rw [broken_two h1 h2]; exact ih
      rw [if_neg h2] at hd
      match v with
      | [] =>
        exfalso
        by_cases h3 : a.toNat < 240
        · rw [if_pos h3, if_pos (by simp)] at hd; cases hd
        rw [if_neg h3, if_pos (by simp)] at hd; cases hd
      | c' :: v =>
        have hr2 : rd (a :: b :: c' :: v) (0 + 2) = .ok c' := rfl
        by_cases h3 : a.toNat < 240
        · rw [if_pos h3, if_neg (by simp), hr1, Exec.bind_ok, hr2, Exec.bind_ok] at hd
          injection hd with hd; injection hd with _ hd
          have hv : v = [] := by
            cases v with
            | nil => rfl
            | cons c v => simp at hd
          subst hv
          show broken (a :: b :: c' :: ps.flatten) = false
          rw [broken_three h2 h3]; exact ih
        rw [if_neg h3] at hd
        match v with
        | [] => rw [if_pos (by simp)] at hd; cases hd
        | d :: v =>
          have hr3 : rd (a :: b :: c' :: d :: v) (0 + 3) = .ok d := rfl
          rw [if_neg (by simp), hr1, Exec.bind_ok, hr2, Exec.bind_ok, hr3, Exec.bind_ok] at hd
          by_cases h4 : a.toNat % 8 * 262144 + b.toNat % 64 * 4096 + c'.toNat % 64 * 64 + d.toNat % 64 > 0x10ffff
          · rw [if_pos h4] at hd; cases hd
          rw [if_neg h4] at hd
          injection hd with hd; injection hd with _ hd
          have hv : v = [] := by
            cases v with
            | nil => rfl
            | cons c v => simp at hd
          subst hv
          show broken (a :: b :: c' :: d :: ps.flatten) = false
          unfold broken
          rw [if_neg h1, if_neg h2, if_neg h3, if_neg h4]
          exact ih

theorem strlen_broken {bs : List UInt8} (h : broken bs = true) (post : List UInt8) : Utf8.strlen (bs ++ post) bs.length = .err := by
  rcases Utf8.strlen_spec (bs ++ post) bs.length (by simp) with h' | ⟨ps, hu, he, _⟩
  · exact h'
  · rw [List.take_left] at he
    have := broken_units hu
    rw [he, h] at this
    cases this

end Noja.VM.Book
