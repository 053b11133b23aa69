import Verif.VM.Book.Ops
import Verif.Builtin.Text

/-! # The string functions on texts -/

set_option linter.unusedVariables false

namespace Noja.VM.Book

open Noja.Graph (Text text)
open Noja.Utf8.Spec (encode encodeNat encodeText)

theorem encode_ascii {c : Nat} (h : c < 128) : encode c = [UInt8.ofNat c] := by
  unfold encode encodeNat
  rw [if_pos h]
  rfl

/-- The bytes of a character that is not ASCII. -/
theorem encode_high {c : Nat} (h : 128 ≤ c) (h' : c ≤ 0x10FFFF) : ∀ b ∈ encode c, 128 ≤ b.toNat := by
  intro b hb
  unfold encode at hb
  obtain ⟨n, hn, rfl⟩ := List.mem_map.1 hb
  have hb : n < 256 ∧ 128 ≤ n := by
    unfold encodeNat at hn
    rw [if_neg (by omega)] at hn
    split at hn
    · simp only [List.mem_cons, List.not_mem_nil, or_false] at hn; omega
    · split at hn
      · simp only [List.mem_cons, List.not_mem_nil, or_false] at hn; omega
      · simp only [List.mem_cons, List.not_mem_nil, or_false] at hn; omega
  rw [toNat_ofNat hb.1]
  exact hb.2

/-- A byte below 128 is a character of its own. -/
theorem encode_low {c : Nat} (h : c ≤ 0x10FFFF) {b : UInt8} (hb : b ∈ encode c) (hl : b.toNat < 128) :
    c = b.toNat := by
  by_cases hc : c < 128
  · rw [encode_ascii hc, List.mem_singleton] at hb
    rw [hb, toNat_ofNat (by omega)]
  · exact absurd (encode_high (by omega) h b hb) (by omega)

theorem encodeText_cons (c : Nat) (t : List Nat) : encodeText (c :: t) = encode c ++ encodeText t := by
  unfold encodeText
  rw [List.flatMap_cons]

theorem encodeText_append (t u : List Nat) : encodeText (t ++ u) = encodeText t ++ encodeText u := by
  unfold encodeText
  rw [List.flatMap_append]

/-! ## Numbers -/

theorem digits_bytes {ds : List Nat} (h : ∀ d ∈ ds, 48 ≤ d ∧ d ≤ 57) :
    encodeText ds = ds.map UInt8.ofNat := by
  induction ds with
  | nil => rfl
  | cons d ds ih =>
    rw [encodeText_cons, encode_ascii (by have := h d (by simp); omega), ih fun x hx => h x (by simp [hx])]
    rfl

theorem digits_value {ds : List Nat} (h : ∀ d ∈ ds, 48 ≤ d ∧ d ≤ 57) :
    Builtin.value (encodeText ds) = decimal ds := by
  rw [digits_bytes h]
  unfold Builtin.value decimal
  generalize 0 = a
  induction ds generalizing a with
  | nil => rfl
  | cons d ds ih =>
    simp only [List.map_cons, List.foldl_cons]
    rw [toNat_ofNat (by have := h d (by simp); omega)]
    exact ih (fun x hx => h x (by simp [hx])) _

theorem first_byte {c : Nat} {t : List Nat} (h : c ≤ 0x10FFFF) {b : UInt8} {bs : List UInt8} (hb : encodeText (c :: t) = b :: bs) :
    b ∈ encode c := by
  rw [encodeText_cons] at hb
  obtain ⟨hne, -⟩ := Utf8.isUnit_encode c h
  cases he : encode c with
  | nil => exact absurd he hne
  | cons x xs =>
    rw [he] at hb
    cases hb
    exact List.mem_cons_self ..

theorem takeWhile_mem {α : Type} {p : α → Bool} : ∀ {l : List α} {x : α}, x ∈ l.takeWhile p → p x = true
  | [], _, h => by cases h
  | y :: l, x, h => by
    rw [List.takeWhile_cons] at h
    cases hp : p y with
    | false => rw [hp] at h; cases h
    | true =>
      rw [hp] at h
      rcases List.mem_cons.1 h with rfl | h
      · exact hp
      · exact takeWhile_mem h

theorem dropWhile_head {α : Type} {p : α → Bool} : ∀ {l : List α} {x : α} {xs : List α}, l.dropWhile p = x :: xs → p x = false
  | [], _, _, h => by cases h
  | y :: l, x, xs, h => by
    rw [List.dropWhile_cons] at h
    cases hp : p y with
    | false => rw [hp] at h; cases h; exact hp
    | true => rw [hp] at h; exact dropWhile_head h

/-- What `toInt` returns for a text. -/
theorem toInt_text {t : List Nat} (h : Plain t) :
    Builtin.toInt (Str.Spec.ofText t) = .ok (
      if t.takeWhile (fun c => decide (48 ≤ c ∧ c ≤ 57)) = [] then .fail "String doesn't contain an integer"
      else if 2 ^ 63 ≤ decimal (t.takeWhile fun c => decide (48 ≤ c ∧ c ≤ 57)) then .fail "An overflow occurred"
      else if t.takeWhile (fun c => decide (48 ≤ c ∧ c ≤ 57)) ≠ t then .fail "String doesn't contain an integer"
      else .int (toI32 (decimal (t.takeWhile fun c => decide (48 ≤ c ∧ c ≤ 57))))) := by
  have hsp := List.takeWhile_append_dropWhile (p := fun c => decide (48 ≤ c ∧ c ≤ 57)) (l := t)
  generalize hds : t.takeWhile (fun c => decide (48 ≤ c ∧ c ≤ 57)) = ds at hsp ⊢
  generalize hes : t.dropWhile (fun c => decide (48 ≤ c ∧ c ≤ 57)) = es at hsp
  have hd : ∀ d ∈ ds, 48 ≤ d ∧ d ≤ 57 := fun d hd => by
    rw [← hds] at hd
    have := takeWhile_mem hd
    exact of_decide_eq_true this
  have he : ∀ c cs, es = c :: cs → ¬ (48 ≤ c ∧ c ≤ 57) := fun c cs e => by
    rw [e] at hes
    have := dropWhile_head hes
    exact of_decide_eq_false this
  have hx := Builtin.toInt_exact (encodeText ds) (encodeText es) t.length
    (fun b hb => by
      rw [digits_bytes hd] at hb
      obtain ⟨d, hm, rfl⟩ := List.mem_map.1 hb
      have := hd d hm
      rw [toNat_ofNat (by omega)]
      exact this)
    (fun b bs e hb => by
      cases hq : es with
      | nil => rw [hq] at e; cases e
      | cons c cs =>
        rw [hq] at e
        have hc : c ≤ 0x10FFFF := (h c (by rw [← hsp, hq]; simp)).2
        have := encode_low hc (first_byte hc e) (by omega)
        exact he c cs hq (by omega))
  rw [← encodeText_append, hsp, digits_value hd] at hx
  refine Eq.trans hx ?_
  have e1 : encodeText ds = [] ↔ ds = [] := by
    rw [digits_bytes hd, List.map_eq_nil_iff]
  have e2 : encodeText es ≠ [] ↔ ds ≠ t := by
    constructor
    · rintro q rfl
      apply q
      have : es = [] := by
        have := congrArg List.length hsp
        rw [List.length_append] at this
        exact List.eq_nil_of_length_eq_zero (by omega)
      rw [this]
      rfl
    · intro q e
      apply q
      cases hq : es with
      | nil => rw [hq, List.append_nil] at hsp; exact hsp
      | cons c cs =>
        rw [hq, encodeText_cons] at e
        obtain ⟨hne, -⟩ := Utf8.isUnit_encode c (h c (by rw [← hsp, hq]; simp)).2
        exact absurd (List.append_eq_nil_iff.1 e).1 hne
  simp only [e1, e2]

/-! ## Parts of texts -/

theorem slice_text {t : List Nat} (h : Plain t) (hl : (encodeText t).length < 2 ^ 31) (o n : Option Int)
    (ho : ∀ v ∈ o, IsI64 v) (hn : ∀ v ∈ n, IsI64 v) :
    (∀ u, Plain u → 0 ≤ o.getD 0 → 0 ≤ n.getD ((encodeText t).length - o.getD 0) →
      o.getD 0 + n.getD ((encodeText t).length - o.getD 0) ≤ (encodeText t).length →
      encodeText u = ((encodeText t).drop (o.getD 0).toNat).take (n.getD ((encodeText t).length - o.getD 0)).toNat →
      Builtin.slice (Str.Spec.ofText t) o n = .ok (.str (Str.Spec.ofText u))) ∧
    (¬ (0 ≤ o.getD 0 ∧ 0 ≤ n.getD ((encodeText t).length - o.getD 0) ∧
      o.getD 0 + n.getD ((encodeText t).length - o.getD 0) ≤ (encodeText t).length) →
      Builtin.slice (Str.Spec.ofText t) o n = .err) ∧
    (0 ≤ o.getD 0 → 0 ≤ n.getD ((encodeText t).length - o.getD 0) →
      o.getD 0 + n.getD ((encodeText t).length - o.getD 0) ≤ (encodeText t).length →
      broken (((encodeText t).drop (o.getD 0).toNat).take (n.getD ((encodeText t).length - o.getD 0)).toNat) = true →
      Builtin.slice (Str.Spec.ofText t) o n = .err) := by
  have hf : (t.map encode).flatten = encodeText t := (Utf8.encodeText_eq t).symm
  have key := Builtin.C62_slice_partial (t.map encode) o n (Utf8.units_encodeText t h.valid) (by rw [hf]; exact hl) ho hn
  rw [← Str.ofText_eq] at key
  have hb : (Str.Spec.ofText t).bytes = (encodeText t).length := rfl
  refine ⟨?_, ?_, ?_⟩
  · intro u hu h1 h2 h3 h4
    have hs : Builtin.SliceOf (Str.Spec.ofText t) o n (o.getD 0).toNat (n.getD ((encodeText t).length - o.getD 0)).toNat := by
      refine ⟨Int.toNat_of_nonneg h1, ?_, by rw [hb]; omega⟩
      rw [hb, Int.toNat_of_nonneg h1, Int.toNat_of_nonneg h2]
    have hm : Str.Spec.ofText t = Str.mk (t.map encode) := Str.ofText_eq t
    rw [hm] at hs
    rw [hm, Builtin.slice_inside (t.map encode) o n (by rw [hf]; exact hl) _ _ hs, ← hm]
    generalize hq : n.getD ((encodeText t).length - o.getD 0) = len at h2 h3 h4 hs ⊢
    generalize o.getD 0 = off at h1 h3 h4 hs ⊢
    have hbody : (Str.Spec.ofText t).body = encodeText t ++ [0] := rfl
    have hlen : len.toNat = (encodeText u).length := by rw [h4, List.length_take, List.length_drop]; omega
    have hsplit : (encodeText t ++ [0]).drop off.toNat = encodeText u ++ ((encodeText t).drop off.toNat).drop len.toNat ++ [0] := by
      rw [List.drop_append_of_le_length (by omega), h4, List.take_append_drop]
    rw [hbody, hsplit, hlen, List.append_assoc]
    rw [Str.C03_fromString u hu.valid]
    rfl
  · intro hno
    refine key.2.2 ?_
    rintro ⟨off, len, h1, h2, h3⟩
    rw [hb] at h2 h3
    rw [h1] at h2
    exact hno ⟨by omega, by omega, by omega⟩
  · intro h1 h2 h3 h4
    have hs : Builtin.SliceOf (Str.Spec.ofText t) o n (o.getD 0).toNat (n.getD ((encodeText t).length - o.getD 0)).toNat := by
      refine ⟨Int.toNat_of_nonneg h1, ?_, by rw [hb]; omega⟩
      rw [hb, Int.toNat_of_nonneg h1, Int.toNat_of_nonneg h2]
    have hm : Str.Spec.ofText t = Str.mk (t.map encode) := Str.ofText_eq t
    rw [hm] at hs
    rw [hm, Builtin.slice_inside (t.map encode) o n (by rw [hf]; exact hl) _ _ hs, ← hm]
    generalize hq : n.getD ((encodeText t).length - o.getD 0) = len at h2 h3 h4 hs ⊢
    generalize o.getD 0 = off at h1 h3 h4 hs ⊢
    have hbody : (Str.Spec.ofText t).body = encodeText t ++ [0] := rfl
    generalize hu : ((encodeText t).drop off.toNat).take len.toNat = u at h4
    have hlen : len.toNat = u.length := by rw [← hu, List.length_take, List.length_drop]; omega
    have hsplit : (encodeText t ++ [0]).drop off.toNat = u ++ ((encodeText t).drop off.toNat).drop len.toNat ++ [0] := by
      rw [List.drop_append_of_le_length (by omega), ← hu, List.take_append_drop]
    rw [hbody, hsplit, hlen, List.append_assoc]
    unfold Str.fromString
    rw [strlen_broken h4]
    rfl

/-! ## Spaces -/

theorem stripEnd_spec (t : List Nat) : ∃ b, t = stripEnd t ++ List.replicate b 32 ∧ ∀ u c, stripEnd t = u ++ [c] → c ≠ 32 := by
  have hsp := List.takeWhile_append_dropWhile (p := fun c => decide (c = 32)) (l := t.reverse)
  have hr : t.reverse.takeWhile (fun c => decide (c = 32)) =
      List.replicate (t.reverse.takeWhile fun c => decide (c = 32)).length 32 :=
    List.eq_replicate_of_mem fun c hc => by
      have := takeWhile_mem hc
      exact of_decide_eq_true this
  refine ⟨(t.reverse.takeWhile fun c => decide (c = 32)).length, ?_, ?_⟩
  · have := congrArg List.reverse hsp
    rw [List.reverse_append, List.reverse_reverse] at this
    rw [← List.reverse_replicate, ← hr]
    exact this.symm
  · intro u c e
    unfold stripEnd at e
    have := congrArg List.reverse e
    rw [List.reverse_reverse, List.reverse_append] at this
    have := dropWhile_head this
    exact of_decide_eq_false this

theorem trim_blank {t : List Nat} (h : stripEnd t = []) : Builtin.trim (Str.Spec.ofText t) = .ok (.str (Str.Spec.ofText [])) := by
  obtain ⟨b, hb, -⟩ := stripEnd_spec t
  rw [h, List.nil_append] at hb
  have := Builtin.C63_trim_partial.2 b
  rw [Str.ofText_eq, hb, List.map_replicate]
  exact this

theorem trim_text {t : List Nat} (h : Plain t) (hl : (encodeText t).length < 2 ^ 31) (hne : stripEnd t ≠ [])
    (h0 : t.head? ≠ some 32) : Builtin.trim (Str.Spec.ofText t) = .ok (.str (Str.Spec.ofText (stripEnd t))) := by
  obtain ⟨b, hb, hlast⟩ := stripEnd_spec t
  have hp : Plain (stripEnd t) := fun c hc => h c (by rw [hb]; exact List.mem_append_left _ hc)
  generalize hu : stripEnd t = u at hb hlast hne hp ⊢
  have hf : (u.map encode).flatten = encodeText u := (Utf8.encodeText_eq u).symm
  have hne' : encodeText u ≠ [] := by
    cases u with
    | nil => exact absurd rfl hne
    | cons c u =>
      rw [encodeText_cons]
      obtain ⟨q, -⟩ := Utf8.isUnit_encode c (hp c (by simp)).2
      exact fun e => q (List.append_eq_nil_iff.1 e).1
  have key := (Builtin.C63_trim_partial.1 (u.map encode) b (Utf8.units_encodeText u hp.valid) (by rw [hf]; exact hne')
    (by
      rw [hf]
      have : (encodeText t).length = (encodeText u).length + (encodeText (List.replicate b 32)).length := by
        rw [hb, encodeText_append, List.length_append]
      omega)
    (by
      rw [hf]
      intro q
      cases u with
      | nil => exact hne rfl
      | cons c u =>
        cases hq : encodeText (c :: u) with
        | nil => rw [hq] at q; cases q
        | cons x xs =>
          rw [hq] at q
          cases q
          have hc := (hp c (by simp)).2
          have : c = 32 := encode_low hc (first_byte hc hq) (by decide)
          rw [hb, this] at h0
          exact h0 rfl)
    (by
      rw [hf]
      intro q
      have hsplit : ∃ v c, u = v ++ [c] := ⟨u.dropLast, u.getLast hne, (List.dropLast_concat_getLast hne).symm⟩
      obtain ⟨v, c, rfl⟩ := hsplit
      have hc := (hp c (by simp)).2
      obtain ⟨hn, -⟩ := Utf8.isUnit_encode c hc
      rw [encodeText_append] at q
      have e : encodeText [c] = encode c := by rw [encodeText_cons]; exact List.append_nil _
      rw [e, List.getLast?_append, List.getLast?_eq_some_getLast hn] at q
      have q : (encode c).getLast? = some 32 := by rw [List.getLast?_eq_some_getLast hn]; exact q
      exact hlast v c rfl (encode_low hc (List.mem_of_getLast? q) (by decide)))).1
  rw [Str.ofText_eq, Str.ofText_eq, hb, List.map_append, List.map_replicate]
  exact key

example : Builtin.trim (Str.Spec.ofText [0xE9, 32, 97, 32, 32]) = .ok (.str (Str.Spec.ofText [0xE9, 32, 97])) :=
  trim_text (by decide) (by decide) (by decide) (by decide)

example : Builtin.slice (Str.Spec.ofText [0xE9, 98, 0x20AC]) (some 2) none = .ok (.str (Str.Spec.ofText [98, 0x20AC])) :=
  (slice_text (t := [0xE9, 98, 0x20AC]) (by decide) (by decide) (some 2) none (by decide) nofun).1 [98, 0x20AC] (by decide) (by decide) (by decide)
    (by decide) (by decide)

example : Builtin.toInt (Str.Spec.ofText [52, 50]) = .ok (.int 42) := toInt_text (t := [52, 50]) (by decide)

end Noja.VM.Book
