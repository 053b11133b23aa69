import Verif.VM.Book.Sem

/-!
# Reading text
-/

namespace Noja.VM.Book

open Noja.Utf8.Spec (encode encodeText encodeNat Valid)

theorem toNat_ofNat {n : Nat} (h : n < 256) : (UInt8.ofNat n).toNat = n := by
  rw [UInt8.toNat_ofNat']
  exact Nat.mod_eq_of_lt h

theorem readPoints_one {a : UInt8} (h : a.toNat < 128) (l : List UInt8) : readPoints (a :: l) = a.toNat :: readPoints l := by
  rcases l with _ | ⟨b, _ | ⟨c, _ | ⟨d, l⟩⟩⟩
  · rfl
  · simp [readPoints, h]
  · simp [readPoints, h]
  · simp [readPoints, h]

theorem readPoints_two {a : UInt8} (h : ¬ a.toNat < 128) (h' : a.toNat < 224) (b : UInt8) (l : List UInt8) :
    readPoints (a :: b :: l) = ((a.toNat - 192) * 64 + (b.toNat - 128)) :: readPoints l := by
  rcases l with _ | ⟨c, _ | ⟨d, l⟩⟩
  · simp [readPoints, h]
  · simp [readPoints, h, h']
  · simp [readPoints, h, h']

theorem readPoints_three {a : UInt8} (h : ¬ a.toNat < 224) (h' : a.toNat < 240) (b c : UInt8) (l : List UInt8) :
    readPoints (a :: b :: c :: l) =
      ((a.toNat - 224) * 4096 + (b.toNat - 128) * 64 + (c.toNat - 128)) :: readPoints l := by
  have h1 : ¬ a.toNat < 128 := by omega
  rcases l with _ | ⟨d, l⟩
  · simp [readPoints, h, h1]
  · simp [readPoints, h, h1, h']

theorem readPoints_four {a : UInt8} (h : ¬ a.toNat < 240) (b c d : UInt8) (l : List UInt8) :
    readPoints (a :: b :: c :: d :: l) =
      ((a.toNat - 240) * 262144 + (b.toNat - 128) * 4096 + (c.toNat - 128) * 64 + (d.toNat - 128)) :: readPoints l := by
  have h1 : ¬ a.toNat < 128 := by omega
  have h2 : ¬ a.toNat < 224 := by omega
  simp [readPoints, h, h1, h2]

theorem readPoints_encode {c : Nat} (h : c ≤ 0x10FFFF) (l : List UInt8) :
    readPoints (encode c ++ l) = c :: readPoints l := by
  unfold encode encodeNat
  by_cases h1 : c < 0x80
  · rw [if_pos h1]
    simp only [List.map_cons, List.map_nil, List.cons_append, List.nil_append]
    have e := toNat_ofNat (n := c) (by omega)
    rw [readPoints_one (by omega), e]
  · rw [if_neg h1]
    by_cases h2 : c < 0x800
    · rw [if_pos h2]
      simp only [List.map_cons, List.map_nil, List.cons_append, List.nil_append]
      have e1 := toNat_ofNat (n := 0xC0 + c / 0x40) (by omega)
      have e2 := toNat_ofNat (n := 0x80 + c % 0x40) (by omega)
      rw [readPoints_two (by omega) (by omega), e1, e2]
      exact List.cons_eq_cons.2 ⟨by omega, rfl⟩
    · rw [if_neg h2]
      by_cases h3 : c < 0x10000
      · rw [if_pos h3]
        simp only [List.map_cons, List.map_nil, List.cons_append, List.nil_append]
        have e1 := toNat_ofNat (n := 0xE0 + c / 0x1000) (by omega)
        have e2 := toNat_ofNat (n := 0x80 + c / 0x40 % 0x40) (by omega)
        have e3 := toNat_ofNat (n := 0x80 + c % 0x40) (by omega)
        rw [readPoints_three (by omega) (by omega), e1, e2, e3]
        exact List.cons_eq_cons.2 ⟨by omega, rfl⟩
      · rw [if_neg h3]
        simp only [List.map_cons, List.map_nil, List.cons_append, List.nil_append]
        have e1 := toNat_ofNat (n := 0xF0 + c / 0x40000) (by omega)
        have e2 := toNat_ofNat (n := 0x80 + c / 0x1000 % 0x40) (by omega)
        have e3 := toNat_ofNat (n := 0x80 + c / 0x40 % 0x40) (by omega)
        have e4 := toNat_ofNat (n := 0x80 + c % 0x40) (by omega)
        rw [readPoints_four (by omega), e1, e2, e3, e4]
        exact List.cons_eq_cons.2 ⟨by omega, rfl⟩

theorem readPoints_text : ∀ (t : List Nat), Plain t → readPoints (encodeText t) = t
  | [], _ => rfl
  | c :: t, h => by
    unfold encodeText
    rw [List.flatMap_cons, readPoints_encode (h c (List.mem_cons_self ..)).2]
    congr 1
    exact readPoints_text t fun x hx => h x (List.mem_cons_of_mem _ hx)

/-- Every text can be read. -/
theorem readText_complete {t : List Nat} (h : Plain t) : readText (encodeText t) = some t := by
  unfold readText
  rw [readPoints_text t h, if_pos ⟨h, rfl⟩]

example : readText (encodeText [0x48, 0xE9, 0x20AC, 0x1F600]) = some [0x48, 0xE9, 0x20AC, 0x1F600] :=
  readText_complete (by decide)

theorem encodeText_inj {t u : List Nat} (ht : Plain t) (hu : Plain u) (h : encodeText t = encodeText u) : t = u := by
  rw [← readPoints_text t ht, h, readPoints_text u hu]

theorem noNul_encode {c : Nat} (h : 0 < c) (h' : c ≤ 0x10FFFF) : (0 : UInt8) ∉ encode c := by
  intro hm
  unfold encode at hm
  obtain ⟨n, hn, h0⟩ := List.mem_map.1 hm
  have hb : n < 256 ∧ 0 < n := by
    unfold encodeNat at hn
    split at hn
    · simp only [List.mem_singleton] at hn; omega
    · split at hn
      · simp only [List.mem_cons, List.not_mem_nil, or_false] at hn; omega
      · split at hn
        · simp only [List.mem_cons, List.not_mem_nil, or_false] at hn; omega
        · simp only [List.mem_cons, List.not_mem_nil, or_false] at hn; omega
  have := toNat_ofNat hb.1
  rw [h0] at this
  have h1 : n = 0 := by rw [← this]; rfl
  omega

theorem noNul_text {t : List Nat} (h : Plain t) : (0 : UInt8) ∉ encodeText t := by
  intro hm
  obtain ⟨c, hc, h0⟩ := List.mem_flatMap.1 hm
  exact noNul_encode (h c hc).1 (h c hc).2 h0

end Noja.VM.Book
