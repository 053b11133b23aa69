import Verif.Utf8.Model
import Verif.Utf8.Spec

/-! Helper lemmas about the UTF-8 model. -/

namespace Noja.Utf8

set_option linter.unusedSimpArgs false

set_option maxRecDepth 4000 in
theorem and80 (b : UInt8) : (b.toNat &&& 0x80 = 0) ↔ b.toNat < 128 := by
  have h : ∀ x : Fin 256, (x.val &&& 0x80 = 0) ↔ x.val < 128 := by decide
  exact h ⟨b.toNat, b.toNat_lt⟩

set_option maxRecDepth 4000 in
theorem andc0 (b : UInt8) : (b.toNat &&& 0xc0 = 0x80) ↔ (128 ≤ b.toNat ∧ b.toNat < 192) := by
  have h : ∀ x : Fin 256, (x.val &&& 0xc0 = 0x80) ↔ (128 ≤ x.val ∧ x.val < 192) := by decide
  exact h ⟨b.toNat, b.toNat_lt⟩

theorem and3f (n : Nat) : n &&& 0x3f = n % 64 := Nat.and_two_pow_sub_one_eq_mod n 6
theorem and1f (n : Nat) : n &&& 0x1f = n % 32 := Nat.and_two_pow_sub_one_eq_mod n 5
theorem and0f (n : Nat) : n &&& 0x0f = n % 16 := Nat.and_two_pow_sub_one_eq_mod n 4
theorem and07 (n : Nat) : n &&& 0x07 = n % 8 := Nat.and_two_pow_sub_one_eq_mod n 3

theorem or_shift (a b i : Nat) (h : b < 2 ^ i) : a <<< i ||| b = a * 2 ^ i + b := by
  rw [← Nat.shiftLeft_add_eq_or_of_lt h, Nat.shiftLeft_eq]

theorem or80 (x : Nat) (h : x < 64) : 0x80 ||| x = 128 + x := by
  have := or_shift 2 x 6 (by omega); simpa using this
theorem orc0 (x : Nat) (h : x < 64) : 0xc0 ||| x = 192 + x := by
  have := or_shift 3 x 6 (by omega); simpa using this
theorem ore0 (x : Nat) (h : x < 32) : 0xe0 ||| x = 224 + x := by
  have := or_shift 7 x 5 (by omega); simpa using this
theorem orf0 (x : Nat) (h : x < 16) : 0xf0 ||| x = 240 + x := by
  have := or_shift 15 x 4 (by omega); simpa using this

theorem join2 (a b : Nat) (hb : b < 64) : a <<< 6 ||| b = a * 64 + b := by
  simpa using or_shift a b 6 (by omega)

theorem join3 (a b c : Nat) (hb : b < 64) (hc : c < 64) :
    a <<< 12 ||| b <<< 6 ||| c = a * 4096 + b * 64 + c := by
  have e : a <<< 12 = (a <<< 6) <<< 6 := by rw [← Nat.shiftLeft_add]
  rw [e, ← Nat.shiftLeft_or_distrib, join2 a b hb, join2 _ c hc]; omega

theorem join4 (a b c d : Nat) (hb : b < 64) (hc : c < 64) (hd : d < 64) :
    a <<< 18 ||| b <<< 12 ||| c <<< 6 ||| d = a * 262144 + b * 4096 + c * 64 + d := by
  have e : a <<< 18 = (a <<< 12) <<< 6 := by rw [← Nat.shiftLeft_add]
  have e2 : b <<< 12 = (b <<< 6) <<< 6 := by rw [← Nat.shiftLeft_add]
  rw [e, e2, ← Nat.shiftLeft_or_distrib, ← Nat.shiftLeft_or_distrib, join3 a b c hb hc,
    join2 _ d hd]; omega

theorem shr6 (n : Nat) : n >>> 6 = n / 64 := Nat.shiftRight_eq_div_pow n 6
theorem shr12 (n : Nat) : n >>> 12 = n / 4096 := Nat.shiftRight_eq_div_pow n 12
theorem shr18 (n : Nat) : n >>> 18 = n / 262144 := Nat.shiftRight_eq_div_pow n 18

theorem toNat_byte (v : Nat) (h : v < 256) : (UInt8.ofNat v).toNat = v := by
  rw [UInt8.toNat_ofNat']; exact Nat.mod_eq_of_lt h

/-- The decoder in arithmetic form. -/
theorem decode_eq (mem : List UInt8) (off nbytes : Nat) :
    decode mem off nbytes =
      if nbytes = 0 then .err
      else rd mem off >>= fun b0 =>
        if b0.toNat < 128 then .ok (b0.toNat, 1)
        else if b0.toNat < 192 then .ok (b0.toNat % 64, 1)
        else if b0.toNat < 224 then
          if nbytes < 2 then .err
          else rd mem (off + 1) >>= fun b1 =>
            .ok (b0.toNat % 32 * 64 + b1.toNat % 64, 2)
        else if b0.toNat < 240 then
          if nbytes < 3 then .err
          else rd mem (off + 1) >>= fun b1 => rd mem (off + 2) >>= fun b2 =>
            .ok (b0.toNat % 16 * 4096 + b1.toNat % 64 * 64 + b2.toNat % 64, 3)
        else
          if nbytes < 4 then .err
          else rd mem (off + 1) >>= fun b1 => rd mem (off + 2) >>= fun b2 =>
            rd mem (off + 3) >>= fun b3 =>
              if b0.toNat % 8 * 262144 + b1.toNat % 64 * 4096 + b2.toNat % 64 * 64 +
                  b3.toNat % 64 > 0x10ffff then .err
              else .ok (b0.toNat % 8 * 262144 + b1.toNat % 64 * 4096 + b2.toNat % 64 * 64 +
                  b3.toNat % 64, 4) := by
  unfold decode
  split
  · rfl
  · congr 1
    funext b0
    have h80 := and80 b0
    have hlt := b0.toNat_lt
    simp only [ne_eq, h80, and3f, and1f, and0f, and07]
    have m (x : UInt8) : x.toNat % 64 < 64 := Nat.mod_lt _ (by omega)
    simp only [join2 _ _ (m _), join3 _ _ _ (m _) (m _), join4 _ _ _ _ (m _) (m _) (m _)]
    by_cases h1 : b0.toNat < 128
    · simp [h1]
    · by_cases h2 : b0.toNat < 192
      · have a1 : ¬ b0.toNat ≥ 240 := by omega
        have a2 : ¬ b0.toNat ≥ 224 := by omega
        have a3 : ¬ b0.toNat ≥ 192 := by omega
        simp only [h1, h2, a1, a2, a3, if_true, if_false, not_false_eq_true]
      · by_cases h3 : b0.toNat < 224
        · have a1 : ¬ b0.toNat ≥ 240 := by omega
          have a2 : ¬ b0.toNat ≥ 224 := by omega
          have a3 : b0.toNat ≥ 192 := by omega
          simp only [h1, h2, h3, a1, a2, a3, if_true, if_false, not_false_eq_true]
        · by_cases h4 : b0.toNat < 240
          · have a1 : ¬ b0.toNat ≥ 240 := by omega
            have a2 : b0.toNat ≥ 224 := by omega
            simp only [h1, h2, h3, h4, a1, a2, if_true, if_false, not_false_eq_true]
            split
            · rfl
            · congr 1; funext b1; congr 1; funext b2
              have := m b1; have := m b2
              have : b0.toNat % 16 < 16 := Nat.mod_lt _ (by omega)
              rw [if_neg (by omega)]
          · have a1 : b0.toNat ≥ 240 := by omega
            simp only [h1, h2, h3, h4, a1, if_true, if_false, not_false_eq_true]

/-- A byte sequence the decoder consumes as one unit wherever it occurs. -/
def IsUnit (u : List UInt8) (c : Nat) : Prop :=
  u ≠ [] ∧ ∀ (pre post : List UInt8) (nbytes : Nat), u.length ≤ nbytes →
    decode (pre ++ u ++ post) pre.length nbytes = .ok (c, u.length)

theorem rd_append_right {α} (pre l : List α) (k : Nat) :
    rd (pre ++ l) (pre.length + k) = rd l k := by
  unfold rd; rw [List.getElem?_append_right (by omega)]; simp

theorem rd_append_right0 {α} (pre l : List α) :
    rd (pre ++ l) pre.length = rd l 0 := by
  simpa using rd_append_right pre l 0

theorem rd_cons_zero {α} (a : α) (l : List α) : rd (a :: l) 0 = .ok a := (rfl)
theorem rd_cons_succ {α} (a : α) (l : List α) (k : Nat) : rd (a :: l) (k + 1) = rd l k := (rfl)
theorem rd_cons_one {α} (a b : α) (l : List α) : rd (a :: b :: l) 1 = .ok b := (rfl)
theorem rd_cons_two {α} (a b c : α) (l : List α) : rd (a :: b :: c :: l) 2 = .ok c := (rfl)
theorem rd_cons_three {α} (a b c d : α) (l : List α) : rd (a :: b :: c :: d :: l) 3 = .ok d := (rfl)

theorem encode_length (c : Nat) (_hc : Spec.Valid c) :
    (Spec.encode c).length =
      if c < 0x80 then 1 else if c < 0x800 then 2 else if c < 0x10000 then 3 else 4 := by
  unfold Spec.encode Spec.encodeNat
  split
  · simp
  · split
    · simp
    · split <;> simp

theorem encode_length_pos (c : Nat) (hc : Spec.Valid c) : 0 < (Spec.encode c).length := by
  rw [encode_length c hc]; repeat' split
  all_goals omega

theorem encode_length_le (c : Nat) (hc : Spec.Valid c) : (Spec.encode c).length ≤ 4 := by
  rw [encode_length c hc]; repeat' split
  all_goals omega

theorem ar2 (c : Nat) (h : c < 2048) : (192 + c / 64) % 32 * 64 + (128 + c % 64) % 64 = c := by
  omega
theorem ar3 (c : Nat) (h : c < 65536) :
    (224 + c / 4096) % 16 * 4096 + (128 + c / 64 % 64) % 64 * 64 + (128 + c % 64) % 64 = c := by
  have d1 : c / 64 / 64 = c / 4096 := Nat.div_div_eq_div_mul ..
  have q0 : (224 + c / 4096) % 16 = c / 4096 := by omega
  have q1 : (128 + c / 64 % 64) % 64 = c / 64 % 64 := by omega
  have q2 : (128 + c % 64) % 64 = c % 64 := by omega
  rw [q0, q1, q2]; omega
theorem ar4 (c : Nat) (h : c ≤ 0x10ffff) :
    (240 + c / 262144) % 8 * 262144 + (128 + c / 4096 % 64) % 64 * 4096 +
      (128 + c / 64 % 64) % 64 * 64 + (128 + c % 64) % 64 = c := by
  have d1 : c / 64 / 64 = c / 4096 := Nat.div_div_eq_div_mul ..
  have d2 : c / 4096 / 64 = c / 262144 := Nat.div_div_eq_div_mul ..
  have q0 : (240 + c / 262144) % 8 = c / 262144 := by omega
  have q1 : (128 + c / 4096 % 64) % 64 = c / 4096 % 64 := by omega
  have q2 : (128 + c / 64 % 64) % 64 = c / 64 % 64 := by omega
  have q3 : (128 + c % 64) % 64 = c % 64 := by omega
  rw [q0, q1, q2, q3]; omega

theorem decode_unit1 (b0 : UInt8) (h : b0.toNat < 128) (pre post : List UInt8) (n : Nat)
    (hn : 1 ≤ n) : decode (pre ++ [b0] ++ post) pre.length n = .ok (b0.toNat, 1) := by
  rw [decode_eq, if_neg (by omega), List.append_assoc, rd_append_right0 pre]
  simp [rd, h]

theorem decode_unit1' (b0 : UInt8) (h : 128 ≤ b0.toNat) (h' : b0.toNat < 192)
    (pre post : List UInt8) (n : Nat)
    (hn : 1 ≤ n) : decode (pre ++ [b0] ++ post) pre.length n = .ok (b0.toNat % 64, 1) := by
  rw [decode_eq, if_neg (by omega), List.append_assoc, rd_append_right0 pre]
  have : ¬ b0.toNat < 128 := by omega
  simp [rd, h', this]

theorem decode_unit2 (b0 b1 : UInt8) (h : 192 ≤ b0.toNat) (h' : b0.toNat < 224)
    (pre post : List UInt8) (n : Nat) (hn : 2 ≤ n) :
    decode (pre ++ [b0, b1] ++ post) pre.length n =
      .ok (b0.toNat % 32 * 64 + b1.toNat % 64, 2) := by
  rw [decode_eq, if_neg (by omega), List.append_assoc, rd_append_right0 pre,
    rd_append_right pre _ 1]
  simp only [List.cons_append, List.nil_append, rd_cons_zero, rd_cons_one, rd_cons_two,
    rd_cons_three, Exec.bind_ok]
  rw [if_neg (by omega), if_neg (by omega), if_pos (by omega), if_neg (by omega)]

theorem decode_unit3 (b0 b1 b2 : UInt8) (h : 224 ≤ b0.toNat) (h' : b0.toNat < 240)
    (pre post : List UInt8) (n : Nat) (hn : 3 ≤ n) :
    decode (pre ++ [b0, b1, b2] ++ post) pre.length n =
      .ok (b0.toNat % 16 * 4096 + b1.toNat % 64 * 64 + b2.toNat % 64, 3) := by
  rw [decode_eq, if_neg (by omega), List.append_assoc, rd_append_right0 pre,
    rd_append_right pre _ 1, rd_append_right pre _ 2]
  simp only [List.cons_append, List.nil_append, rd_cons_zero, rd_cons_one, rd_cons_two,
    rd_cons_three, Exec.bind_ok]
  rw [if_neg (by omega), if_neg (by omega), if_neg (by omega), if_pos (by omega),
    if_neg (by omega)]

theorem decode_unit4 (b0 b1 b2 b3 : UInt8) (h : 240 ≤ b0.toNat)
    (pre post : List UInt8) (n : Nat) (hn : 4 ≤ n)
    (hv : b0.toNat % 8 * 262144 + b1.toNat % 64 * 4096 + b2.toNat % 64 * 64 + b3.toNat % 64
      ≤ 0x10ffff) :
    decode (pre ++ [b0, b1, b2, b3] ++ post) pre.length n =
      .ok (b0.toNat % 8 * 262144 + b1.toNat % 64 * 4096 + b2.toNat % 64 * 64 + b3.toNat % 64,
        4) := by
  rw [decode_eq, if_neg (by omega), List.append_assoc, rd_append_right0 pre,
    rd_append_right pre _ 1, rd_append_right pre _ 2, rd_append_right pre _ 3]
  simp only [List.cons_append, List.nil_append, rd_cons_zero, rd_cons_one, rd_cons_two,
    rd_cons_three, Exec.bind_ok]
  rw [if_neg (by omega), if_neg (by omega), if_neg (by omega), if_neg (by omega),
    if_neg (by omega), if_neg (by omega)]

theorem isUnit_encode (c : Nat) (hc : Spec.Valid c) : IsUnit (Spec.encode c) c := by
  have hpos := encode_length_pos c hc
  refine ⟨fun h => by simp [h] at hpos, ?_⟩
  intro pre post nbytes hn
  unfold Spec.Valid at hc
  by_cases h1 : c < 0x80
  · have e : Spec.encode c = [UInt8.ofNat c] := by simp [Spec.encode, Spec.encodeNat, h1]
    rw [e] at hn ⊢
    have e0 := toNat_byte c (by omega)
    have := decode_unit1 (UInt8.ofNat c) (by rw [e0]; exact h1) pre post nbytes hn
    rw [this, e0]; rfl
  by_cases h2 : c < 0x800
  · have e : Spec.encode c = [UInt8.ofNat (192 + c / 64), UInt8.ofNat (128 + c % 64)] := by
      simp [Spec.encode, Spec.encodeNat, h1, h2]
    rw [e] at hn ⊢
    have e0 := toNat_byte (192 + c / 64) (by omega)
    have e1 := toNat_byte (128 + c % 64) (by omega)
    have := decode_unit2 (UInt8.ofNat (192 + c / 64)) (UInt8.ofNat (128 + c % 64))
      (by rw [e0]; omega) (by rw [e0]; omega) pre post nbytes hn
    rw [this, e0, e1, ar2 c h2]; rfl
  by_cases h3 : c < 0x10000
  · have e : Spec.encode c = [UInt8.ofNat (224 + c / 4096), UInt8.ofNat (128 + c / 64 % 64),
        UInt8.ofNat (128 + c % 64)] := by
      simp [Spec.encode, Spec.encodeNat, h1, h2, h3]
    rw [e] at hn ⊢
    have e0 := toNat_byte (224 + c / 4096) (by omega)
    have e1 := toNat_byte (128 + c / 64 % 64) (by omega)
    have e2 := toNat_byte (128 + c % 64) (by omega)
    have := decode_unit3 (UInt8.ofNat (224 + c / 4096)) (UInt8.ofNat (128 + c / 64 % 64))
      (UInt8.ofNat (128 + c % 64)) (by rw [e0]; omega) (by rw [e0]; omega) pre post nbytes hn
    rw [this, e0, e1, e2, ar3 c h3]; rfl
  · have e : Spec.encode c = [UInt8.ofNat (240 + c / 262144), UInt8.ofNat (128 + c / 4096 % 64),
        UInt8.ofNat (128 + c / 64 % 64), UInt8.ofNat (128 + c % 64)] := by
      simp [Spec.encode, Spec.encodeNat, h1, h2, h3]
    rw [e] at hn ⊢
    have e0 := toNat_byte (240 + c / 262144) (by omega)
    have e1 := toNat_byte (128 + c / 4096 % 64) (by omega)
    have e2 := toNat_byte (128 + c / 64 % 64) (by omega)
    have e3 := toNat_byte (128 + c % 64) (by omega)
    have := decode_unit4 (UInt8.ofNat (240 + c / 262144)) (UInt8.ofNat (128 + c / 4096 % 64))
      (UInt8.ofNat (128 + c / 64 % 64)) (UInt8.ofNat (128 + c % 64))
      (by rw [e0]; omega) pre post nbytes hn (by rw [e0, e1, e2, e3, ar4 c hc]; exact hc)
    rw [this, e0, e1, e2, e3, ar4 c hc]; rfl

theorem encode_model_eq (nbytes : Nat) (code : UInt32) :
    encode nbytes code =
      if code.toNat ≤ 0x10FFFF ∧ (Spec.encode code.toNat).length ≤ nbytes
      then .ok (Spec.encode code.toNat) else .err := by
  unfold encode
  generalize code.toNat = c
  by_cases hv : c ≤ 0x10FFFF
  · rw [encode_length c hv]
    unfold Spec.encode Spec.encodeNat byte
    simp only [shr6, shr12, shr18, and3f]
    by_cases h1 : c < 128
    · simp only [h1, if_true, hv, true_and]
      by_cases hn : nbytes < 1
      · rw [if_pos hn, if_neg (by omega)]
      · rw [if_neg hn, if_pos (by omega)]; rfl
    · simp only [h1, if_false, hv, true_and]
      by_cases h2 : c < 2048
      · simp only [h2, if_true]
        by_cases hn : nbytes < 2
        · rw [if_pos hn, if_neg (by omega)]
        · rw [if_neg hn, if_pos (by omega), orc0 _ (by omega), or80 _ (by omega)]; rfl
      · simp only [h2, if_false]
        by_cases h3 : c < 65536
        · simp only [h3, if_true]
          by_cases hn : nbytes < 3
          · rw [if_pos hn, if_neg (by omega)]
          · rw [if_neg hn, if_pos (by omega), ore0 _ (by omega), or80 _ (by omega),
              or80 _ (by omega)]; rfl
        · simp only [h3, if_false, if_true]
          by_cases hn : nbytes < 4
          · rw [if_pos hn, if_neg (by omega)]
          · rw [if_neg hn, if_pos (by omega), orf0 _ (by omega), or80 _ (by omega),
              or80 _ (by omega), or80 _ (by omega)]; rfl
  · rw [if_neg (by omega), if_neg (by omega), if_neg (by omega), if_neg (by omega),
      if_neg (by simp [hv])]

end Noja.Utf8
