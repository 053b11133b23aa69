import Verif.Utf8.Lemmas2

/-! Helper lemmas: stepping backward and forward. -/

namespace Noja.Utf8

set_option linter.unusedSimpArgs false

/-- A continuation byte `10xxxxxx`. -/
def Cont (b : UInt8) : Prop := 128 ≤ b.toNat ∧ b.toNat < 192

theorem skipAux_conts (pre post : List UInt8) (h : UInt8) (hh : ¬ Cont h) :
    ∀ (k : Nat) (conts : List UInt8), conts.length = k → (∀ b ∈ conts, Cont b) →
      skipAux (pre ++ h :: (conts ++ post)) (pre.length + 1 + k) = .ok (pre.length + 1) := by
  intro k
  induction k generalizing post with
  | zero =>
    intro conts hl _
    have : conts = [] := List.eq_nil_of_length_eq_zero hl
    subst this
    have hr : rd (pre ++ h :: ([] ++ post)) pre.length = .ok h := by
      rw [rd_append_right0]; rfl
    simp only [Nat.add_zero]
    unfold skipAux
    rw [hr]
    simp only [Exec.bind_ok]
    rw [if_neg (by rw [andc0]; exact hh)]
  | succ k ih =>
    intro conts hl hc
    obtain ⟨init, last, rfl⟩ : ∃ init last, conts = init ++ [last] := by
      refine ⟨conts.dropLast, conts.getLast (by intro h; simp [h] at hl), ?_⟩
      exact (List.dropLast_concat_getLast _).symm
    have hl' : init.length = k := by simp at hl; omega
    have hr : rd (pre ++ h :: (init ++ [last] ++ post)) (pre.length + 1 + k) = .ok last := by
      have e : pre ++ h :: (init ++ [last] ++ post) = (pre ++ h :: init) ++ (last :: post) := by
        simp
      rw [e]
      have e2 : pre.length + 1 + k = (pre ++ h :: init).length := by simp; omega
      rw [e2, rd_append_right0]; rfl
    rw [← Nat.add_assoc]
    unfold skipAux
    rw [hr]
    simp only [Exec.bind_ok]
    rw [if_pos (by rw [andc0]; exact hc last (by simp))]
    have := ih (last :: post) init hl' (fun b hb => hc b (by simp [hb]))
    simpa using this

/-- The shape of an encoded code point: one ASCII byte, or a lead byte followed
by continuation bytes. -/
theorem encode_shape (c : Nat) (hc : Spec.Valid c) :
    (c < 128 ∧ Spec.encode c = [UInt8.ofNat c]) ∨
    (∃ h conts last, Spec.encode c = h :: (conts ++ [last]) ∧ 192 ≤ h.toNat ∧
      (∀ b ∈ conts, Cont b) ∧ Cont last) := by
  unfold Spec.Valid at hc
  have cont (x : Nat) : Cont (UInt8.ofNat (128 + x % 64)) := by
    unfold Cont; rw [toNat_byte _ (by omega)]; omega
  by_cases h1 : c < 0x80
  · exact .inl ⟨h1, by simp [Spec.encode, Spec.encodeNat, h1]⟩
  right
  by_cases h2 : c < 0x800
  · refine ⟨UInt8.ofNat (192 + c / 64), [], UInt8.ofNat (128 + c % 64), ?_, ?_, by simp, cont _⟩
    · simp [Spec.encode, Spec.encodeNat, h1, h2]
    · rw [toNat_byte _ (by omega)]; omega
  by_cases h3 : c < 0x10000
  · refine ⟨UInt8.ofNat (224 + c / 4096), [UInt8.ofNat (128 + c / 64 % 64)],
      UInt8.ofNat (128 + c % 64), ?_, ?_, ?_, cont _⟩
    · simp [Spec.encode, Spec.encodeNat, h1, h2, h3]
    · rw [toNat_byte _ (by omega)]; omega
    · intro b hb; rw [List.mem_singleton] at hb; subst hb; exact cont _
  · refine ⟨UInt8.ofNat (240 + c / 262144),
      [UInt8.ofNat (128 + c / 4096 % 64), UInt8.ofNat (128 + c / 64 % 64)],
      UInt8.ofNat (128 + c % 64), ?_, ?_, ?_, cont _⟩
    · simp [Spec.encode, Spec.encodeNat, h1, h2, h3]
    · rw [toNat_byte _ (by omega)]; omega
    · intro b hb; simp only [List.mem_cons, List.not_mem_nil, or_false] at hb
      rcases hb with rfl | rfl <;> exact cont _

theorem prev_encode (pre post : List UInt8) (c : Nat) (hc : Spec.Valid c) :
    prev (pre ++ Spec.encode c ++ post) (pre.length + (Spec.encode c).length) =
      .ok (pre.length, some c) := by
  have hu := isUnit_encode c hc
  rcases encode_shape c hc with ⟨h1, e⟩ | ⟨h, conts, last, e, hh, hcs, hl⟩
  · rw [e]
    simp only [List.length_cons, List.length_nil]
    unfold prev
    have hr : rd (pre ++ [UInt8.ofNat c] ++ post) (pre.length + 0) = .ok (UInt8.ofNat c) := by
      rw [List.append_assoc, rd_append_right]; rfl
    simp only [Nat.add_zero] at hr
    have ht := toNat_byte c (by omega)
    have hz := (and80 (UInt8.ofNat c)).2 (by rw [ht]; exact h1)
    simp only [Nat.zero_add, hr, Exec.bind_ok]
    rw [if_pos hz, ht]
  · have hd := hu.2 pre post (Spec.encode c).length (Nat.le_refl _)
    rw [e] at hd ⊢
    have hlen : (h :: (conts ++ [last])).length = conts.length + 2 := by simp
    rw [hlen] at hd ⊢
    unfold prev
    have hidx : pre.length + (conts.length + 2) = (pre.length + conts.length + 1) + 1 := by omega
    have hr : rd (pre ++ h :: (conts ++ [last]) ++ post) (pre.length + conts.length + 1) =
        .ok last := by
      have e1 : pre ++ h :: (conts ++ [last]) ++ post = (pre ++ h :: conts) ++ (last :: post) := by
        simp
      have e2 : pre.length + conts.length + 1 = (pre ++ h :: conts).length := by simp; omega
      rw [e1, e2, rd_append_right0]; rfl
    have hs := skipAux_conts pre post h (by unfold Cont; omega) (conts.length + 1)
      (conts ++ [last]) (by simp) (by
        intro b hb; rcases List.mem_append.mp hb with h' | h'
        · exact hcs b h'
        · simp at h'; subst h'; exact hl)
    have e3 : pre ++ h :: (conts ++ [last]) ++ post = pre ++ h :: (conts ++ [last] ++ post) := by
      simp
    rw [hidx]
    simp only [hr, Exec.bind_ok]
    rw [if_neg (by rw [and80]; unfold Cont at hl; omega)]
    rw [e3] at hd ⊢
    have e4 : pre.length + 1 + (conts.length + 1) = pre.length + conts.length + 1 + 1 := by omega
    rw [e4] at hs
    rw [hs]
    simp only [Exec.bind_ok]
    have e5 : pre.length + conts.length + 1 - pre.length + 1 = conts.length + 2 := by omega
    rw [e5, hd]
    simp only [Exec.bind_ok]
    rw [if_neg (by omega)]

theorem skipAux_safe (mem : List UInt8) : ∀ i, i ≤ mem.length →
    ∃ j, skipAux mem i = .ok j ∧ j ≤ i := by
  intro i
  induction i with
  | zero => intro _; exact ⟨0, rfl, Nat.le_refl _⟩
  | succ i ih =>
    intro h
    unfold skipAux
    rw [rd_of_lt (by omega)]
    simp only [Exec.bind_ok]
    split
    · obtain ⟨j, h1, h2⟩ := ih (by omega)
      exact ⟨j, h1, by omega⟩
    · exact ⟨i + 1, rfl, Nat.le_refl _⟩

theorem prev_safe (mem : List UInt8) (idx : Nat) (h : idx ≤ mem.length) :
    prev mem idx = .err ∨ ∃ r, prev mem idx = .ok r := by
  unfold prev
  cases idx with
  | zero => exact .inr ⟨_, rfl⟩
  | succ tail =>
    simp only []
    rw [rd_of_lt (by omega)]
    simp only [Exec.bind_ok]
    split
    · exact .inr ⟨_, rfl⟩
    · obtain ⟨j, h1, h2⟩ := skipAux_safe mem (tail + 1) h
      rw [h1]
      simp only [Exec.bind_ok]
      cases j with
      | zero => exact .inl rfl
      | succ head =>
        simp only []
        rcases decode_safe (mem := mem) (off := head) (nb := tail - head + 1) (by omega) with
          hd | ⟨c, n, hd⟩
        · rw [hd]; exact .inl rfl
        · rw [hd]
          simp only [Exec.bind_ok]
          split
          · exact .inl rfl
          · exact .inr ⟨_, rfl⟩

theorem next_encode (pre post : List UInt8) (c d nb : Nat) (hc : Spec.Valid c) (hd : Spec.Valid d)
    (h1 : (Spec.encode c).length ≤ nb) (h2 : (Spec.encode d).length ≤ nb) :
    next (pre ++ Spec.encode c ++ Spec.encode d ++ post) nb pre.length =
      .ok (pre.length + (Spec.encode c).length, d) := by
  unfold next
  have a := (isUnit_encode c hc).2 pre (Spec.encode d ++ post) nb h1
  have b := (isUnit_encode d hd).2 (pre ++ Spec.encode c) post nb h2
  rw [← List.append_assoc] at a
  rw [a]
  simp only [Exec.bind_ok]
  rw [List.length_append] at b
  rw [b]
  simp only [Exec.bind_ok]

end Noja.Utf8
