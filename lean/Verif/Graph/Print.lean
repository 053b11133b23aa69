import Verif.Graph.Model
import Verif.Str.Lemmas2

/-! # C24: printing terminates, also on cyclic data -/

namespace Noja.Graph

set_option linter.unusedSimpArgs false

/-! ## Specification -/

/-- The objects an object refers to. -/
def children : Obj → List Nat
  | .list items => items
  | .map es => es.flatMap fun e => [e.1, e.2]
  | .nullable i => [i]
  | .sum a b => [a, b]
  | _ => []

/-- No dangling references. -/
def Closed (h : Heap) : Prop :=
  ∀ (r : Nat) o, h[r]? = some o → ∀ c ∈ children o, c < h.length

/-- The sixteen digits of a byte in a buffer. -/
def digits : Text := text "0123456789ABCDEF"

/-- A byte as two hexadecimal digits, the high one first. -/
def twoDigits (b : UInt8) : Text :=
  [digits[b.toNat / 16]?.getD 0, digits[b.toNat % 16]?.getD 0]

/-- The text of an object, given the text `T c` of each object it refers to. -/
def render (fmt : BitVec 64 → Text) (st : Str.Str → Text) (T : Nat → Text) : Obj → Text
  | .type k => text k.name
  | .none => text "none"
  | .bool b => text (if b then "true" else "false")
  | .int v => text (toString v)
  | .float x => fmt x
  | .str s => st s
  | .list items => text "[" ++ (text ", ").intercalate (items.map T) ++ text "]"
  | .map es =>
    text "{" ++ (text ", ").intercalate (es.map fun e => T e.1 ++ text ": " ++ T e.2) ++ text "}"
  | .buffer bytes =>
    text "[" ++ (text ", ").intercalate
      (bytes.map twoDigits) ++ text "]"
  | .nullable i => text "?" ++ T i
  | .sum a b => T a ++ text " | " ++ T b
  | .any => text "<AnyType is unprintable>"
  | .opaque k => text "<" ++ text k.name ++ text " is unprintable>"

/-- `t` is the full text of object `r`: nothing abbreviated, strings with all their bytes. -/
inductive Shows (fmt : BitVec 64 → Text) (h : Heap) : Nat → Text → Prop
  | mk (r : Nat) (o : Obj) (T : Nat → Text) (ho : h[r]? = some o)
      (hc : ∀ c ∈ children o, Shows fmt h c (T c)) :
      Shows fmt h r (render fmt Str.Spec.contents T o)

/-- `x` refers to `y`, directly or through other objects. -/
inductive Reaches (h : Heap) : Nat → Nat → Prop
  | edge (x y : Nat) (o : Obj) (ho : h[x]? = some o) (hc : y ∈ children o) : Reaches h x y
  | trans (x y z : Nat) (h1 : Reaches h x y) (h2 : Reaches h y z) : Reaches h x z

/-- No object in the data of `r` contains itself. -/
def Acyclic (h : Heap) (r : Nat) : Prop :=
  ¬ Reaches h r r ∧ ∀ x, Reaches h r x → ¬ Reaches h x x

/-! ## Proof -/

theorem intercalate_cons {α} (sep x : List α) (xs : List (List α)) :
    sep.intercalate (x :: xs) = x ++ (if xs.isEmpty then [] else sep) ++ sep.intercalate xs := by
  cases xs <;> simp [List.intercalate, List.intersperse]

theorem printSeq_ok (p : (Nat → Bool) → Nat → Exec (Text × (Nat → Bool))) (fl : Nat → Bool)
    (T : Nat → Text) : ∀ items, (∀ c ∈ items, p fl c = .ok (T c, fl)) →
    printSeq p items fl = .ok ((text ", ").intercalate (items.map T), fl) := by
  intro items
  induction items with
  | nil => intro _; rfl
  | cons r rs ih =>
    intro hp
    unfold printSeq
    rw [hp r (by simp)]
    simp only [Exec.bind_ok, ih (fun c hc => hp c (by simp [hc])), List.map_cons]
    rw [intercalate_cons]
    simp

theorem printEntries_ok (p : (Nat → Bool) → Nat → Exec (Text × (Nat → Bool))) (fl : Nat → Bool)
    (T : Nat → Text) : ∀ es : List (Nat × Nat),
    (∀ c ∈ es.flatMap (fun e => [e.1, e.2]), p fl c = .ok (T c, fl)) →
    printEntries p es fl =
      .ok ((text ", ").intercalate (es.map fun e => T e.1 ++ text ": " ++ T e.2), fl) := by
  intro es
  induction es with
  | nil => intro _; rfl
  | cons e rs ih =>
    intro hp
    obtain ⟨k, v⟩ := e
    unfold printEntries
    rw [hp k (by simp), Exec.bind_ok]
    simp only [Exec.bind_ok, hp v (by simp)]
    rw [ih (fun c hc => hp c (by simp at hc ⊢; right; right; exact hc))]
    simp only [Exec.bind_ok, List.map_cons]
    rw [intercalate_cons]
    simp

theorem hexDigit_eq (n : Nat) (h : n < 16) : hexDigit n = digits[n]?.getD 0 := by
  have key : ∀ i : Fin 16, hexDigit i.val = digits[i.val]?.getD 0 := by decide +kernel
  exact key ⟨n, h⟩

theorem printBytes_eq (bs : List UInt8) :
    printBytes bs = (text ", ").intercalate (bs.map twoDigits) := by
  induction bs with
  | nil => rfl
  | cons b bs ih =>
    have hb : b.toNat < 256 := b.toNat_lt
    rw [printBytes, ih, List.map_cons, intercalate_cons, hexDigit_eq _ (by omega),
      hexDigit_eq _ (by omega)]
    simp [twoDigits]

theorem printBody_ok (fmt : BitVec 64 → Text) (st : Str.Str → Text)
    (p : (Nat → Bool) → Nat → Exec (Text × (Nat → Bool))) (fl : Nat → Bool) (T : Nat → Text) (o : Obj)
    (hs : ∀ s, o = .str s → Str.print s = st s)
    (hp : ∀ c ∈ children o, p fl c = .ok (T c, fl)) :
    printBody fmt p fl o = .ok (render fmt st T o, fl) := by
  cases o <;> simp only [printBody, render]
  case str s => rw [hs s rfl]
  case list items => rw [printSeq_ok p fl T items hp]; rfl
  case map es => rw [printEntries_ok p fl T es hp]; rfl
  case buffer bs => rw [printBytes_eq]
  case nullable i => rw [hp i (by simp [children])]; rfl
  case sum a b => rw [hp a (by simp [children]), Exec.bind_ok]; simp only []; rw [hp b (by simp [children])]; rfl

/-- The number of objects not being printed. -/
def free (n : Nat) (fl : Nat → Bool) : Nat := (List.range n).countP fun r => !fl r

theorem free_set (n : Nat) (fl : Nat → Bool) (r : Nat) (h : fl r = false) :
    free n (setFlag fl r true) + (if r < n then 1 else 0) = free n fl := by
  unfold free
  induction n with
  | zero => simp
  | succ n ih =>
    rw [List.range_succ, List.countP_append, List.countP_append]
    simp only [List.countP_singleton, setFlag] at *
    by_cases e : n = r
    · subst e; simp [h] at *; omega
    · by_cases l : r < n
      · have : r < n + 1 := by omega
        simp [l, this, e] at *; omega
      · have : ¬ r < n + 1 := by omega
        simp [l, this, e] at *; omega

theorem free_le (n : Nat) (fl : Nat → Bool) : free n fl ≤ n := by
  unfold free
  have := List.countP_le_length (p := fun r => !fl r) (l := List.range n)
  simpa using this

theorem print_succ (fmt : BitVec 64 → Text) {h : Heap} {n r : Nat} {o : Obj} (ho : h[r]? = some o)
    (fl : Nat → Bool) (hf : fl r = false) :
    print fmt h (n + 1) fl r =
      (printBody fmt (print fmt h n) (setFlag fl r true) o >>= fun x =>
        .ok (x.1, setFlag x.2 r false)) := by
  have e : print fmt h (n + 1) fl r = (rd h r >>= fun o => if fl r then .ok (text "...", fl)
    else printBody fmt (print fmt h n) (setFlag fl r true) o >>= fun x =>
        .ok (x.1, setFlag x.2 r false)) := (rfl)
  rw [e, rd_ok_iff.mpr ho, Exec.bind_ok, hf]; rfl

theorem print_flagged (fmt : BitVec 64 → Text) {h : Heap} {n r : Nat} {o : Obj} (ho : h[r]? = some o)
    (fl : Nat → Bool) (hf : fl r = true) :
    print fmt h (n + 1) fl r = .ok (text "...", fl) := by
  unfold print
  rw [rd_ok_iff.mpr ho, Exec.bind_ok, if_pos hf]

theorem set_set (fl : Nat → Bool) (r : Nat) (h : fl r = false) :
    setFlag (setFlag fl r true) r false = fl := by
  funext x; unfold setFlag; by_cases e : x = r <;> simp [e, h]

theorem print_main (fmt : BitVec 64 → Text) (h : Heap) (hc : Closed h) :
    ∀ (k : Nat) (fl : Nat → Bool) (r : Nat), r < h.length → free h.length fl ≤ k →
      ∃ t, (∀ n, k < n → print fmt h n fl r = .ok (t, fl)) ∧
        (fl r = false → (∀ x, fl x = true → Reaches h x r) → Acyclic h r →
          (∀ (x : Nat) s, h[x]? = some (Obj.str s) → (0 : UInt8) ∉ Str.Spec.contents s) →
          Shows fmt h r t) := by
  intro k
  induction k with
  | zero =>
    intro fl r hr hk
    have hfl : fl r = true := by
      cases hf : fl r with
      | true => rfl
      | false =>
        have := free_set h.length fl r hf
        rw [if_pos hr] at this; omega
    have ho := List.getElem?_eq_getElem hr
    refine ⟨text "...", ?_, by simp [hfl]⟩
    intro n hn
    obtain ⟨m, rfl⟩ : ∃ m, n = m + 1 := ⟨n - 1, by omega⟩
    exact print_flagged fmt ho fl hfl
  | succ k ih =>
    intro fl r hr hk
    have ho := List.getElem?_eq_getElem hr
    cases hf : fl r with
    | true =>
      refine ⟨text "...", ?_, by simp⟩
      intro n hn
      obtain ⟨m, rfl⟩ : ∃ m, n = m + 1 := ⟨n - 1, by omega⟩
      exact print_flagged fmt ho fl hf
    | false =>
      have hfree := free_set h.length fl r hf
      rw [if_pos hr] at hfree
      have hch : ∀ c, c ∈ children h[r] → ∃ t,
          (∀ n, k < n → print fmt h n (setFlag fl r true) c = .ok (t, setFlag fl r true)) ∧
          (setFlag fl r true c = false → (∀ x, setFlag fl r true x = true → Reaches h x c) →
            Acyclic h c →
            (∀ (x : Nat) s, h[x]? = some (Obj.str s) → (0 : UInt8) ∉ Str.Spec.contents s) →
            Shows fmt h c t) :=
        fun c hcc => ih (setFlag fl r true) c (hc r _ ho c hcc) (by omega)
      have hch' : ∀ c, ∃ t, c ∈ children h[r] →
          ((∀ n, k < n → print fmt h n (setFlag fl r true) c = .ok (t, setFlag fl r true)) ∧
          (setFlag fl r true c = false → (∀ x, setFlag fl r true x = true → Reaches h x c) →
            Acyclic h c →
            (∀ (x : Nat) s, h[x]? = some (Obj.str s) → (0 : UInt8) ∉ Str.Spec.contents s) →
            Shows fmt h c t)) := by
        intro c
        by_cases m : c ∈ children h[r]
        · obtain ⟨t, ht⟩ := hch c m
          exact ⟨t, fun _ => ht⟩
        · exact ⟨[], fun x => absurd x m⟩
      obtain ⟨T, hT⟩ := Classical.axiomOfChoice hch'
      refine ⟨render fmt Str.print T h[r], ?_, ?_⟩
      · intro n hn
        obtain ⟨m, rfl⟩ : ∃ m, n = m + 1 := ⟨n - 1, by omega⟩
        rw [print_succ fmt ho fl hf, printBody_ok fmt Str.print _ _ T _ (fun _ _ => rfl)
          (fun c hcc => (hT c hcc).1 m (by omega)), Exec.bind_ok]
        simp only [set_set fl r hf]
      · intro _ hfl hac hnul
        have e : render fmt Str.print T h[r] = render fmt Str.Spec.contents T h[r] := by
          cases hr' : h[r] <;> simp only [render]
          next s =>
          rw [hr'] at ho
          exact Str.takeWhile_eq_self_of_noNul _ (hnul r s ho)
        rw [e]
        refine Shows.mk r _ T ho ?_
        intro c hcc
        have re : Reaches h r c := .edge r c _ ho hcc
        have hflag : ∀ x, setFlag fl r true x = true → Reaches h x c := by
          intro x hx
          unfold setFlag at hx
          by_cases e : x = r
          · rw [e]; exact re
          · rw [if_neg e] at hx
            exact .trans _ _ _ (hfl x hx) re
        have hcf : setFlag fl r true c = false := by
          cases q : setFlag fl r true c with
          | false => rfl
          | true => exact absurd (hflag c q) (hac.2 c re)
        exact (hT c hcc).2 hcf hflag
          ⟨hac.2 c re, fun x hx => hac.2 x (.trans _ _ _ re hx)⟩ hnul

/-- C24, the full property: printing a value ends with some text, the flags are as before, and an
acyclic value is printed in full. -/
def C24Statement : Prop :=
  ∀ (fmt : BitVec 64 → Text) (h : Heap), Closed h → ∀ r, r < h.length →
    ∃ t, (∀ fuel, h.length < fuel →
        print fmt h fuel (fun _ => false) r = .ok (t, fun _ => false)) ∧
      (Acyclic h r → Shows fmt h r t)

/-- C24, termination: printing any value of any heap, cyclic or not, ends (the recursion never gets
deeper than the number of objects), whatever objects are being printed already, and leaves the
print marks as they were: printing again gives the same text. -/
theorem C24_terminates (fmt : BitVec 64 → Text) (h : Heap) (hc : Closed h) (fl : Nat → Bool)
    (r : Nat) (hr : r < h.length) :
    ∃ t, ∀ fuel, h.length < fuel → print fmt h fuel fl r = .ok (t, fl) := by
  obtain ⟨t, ht, -⟩ := print_main fmt h hc h.length fl r hr (free_le _ _)
  exact ⟨t, ht⟩

/-- C24, with acyclic values printed in full, for heaps whose strings contain no NUL.  Missing:
strings containing NUL characters, which are cut at the first one (`C24_violated`). -/
theorem C24_full_text_partial (fmt : BitVec 64 → Text) (h : Heap) (hc : Closed h)
    (hnul : ∀ (x : Nat) s, h[x]? = some (Obj.str s) → (0 : UInt8) ∉ Str.Spec.contents s)
    (r : Nat) (hr : r < h.length) :
    ∃ t, (∀ fuel, h.length < fuel →
        print fmt h fuel (fun _ => false) r = .ok (t, fun _ => false)) ∧
      (Acyclic h r → Shows fmt h r t) := by
  obtain ⟨t, ht, hs⟩ := print_main fmt h hc h.length (fun _ => false) r hr (free_le _ _)
  exact ⟨t, ht, fun ha => hs rfl (by simp) ha hnul⟩

/-- C24 is violated by strings containing NUL: "a\0b" prints as "a" (o_string.c:228). -/
theorem C24_violated : ¬ C24Statement := by
  intro hs
  have hno : ∀ x y, ¬ Reaches [.str ⟨3, 3, [97, 0, 98, 0]⟩] x y := by
    intro x y hx
    induction hx with
    | edge x y o ho hc =>
      have : x < 1 := by
        have := (List.getElem?_eq_some_iff.mp ho).1; simpa using this
      obtain rfl : x = 0 := by omega
      simp at ho; subst ho; simp [children] at hc
    | trans _ _ _ _ _ ih _ => exact ih
  obtain ⟨t, ht, hf⟩ := hs (fun _ => []) [.str ⟨3, 3, [97, 0, 98, 0]⟩]
    (by
      intro r o ho c hc
      have : r < 1 := by
        have := (List.getElem?_eq_some_iff.mp ho).1; simpa using this
      obtain rfl : r = 0 := by omega
      simp at ho; subst ho; simp [children] at hc) 0 (by simp)
  have h1 := ht 2 (by simp)
  have h2 : print (fun _ => []) [.str ⟨3, 3, [97, 0, 98, 0]⟩] 2 (fun _ => false) 0 =
      .ok ([97], setFlag (setFlag (fun _ => false) 0 true) 0 false) := rfl
  rw [h2] at h1
  have h3 := hf ⟨hno 0 0, fun x hx => absurd hx (hno 0 x)⟩
  cases h3 with
  | mk _ o T ho hc =>
    simp at ho; subst ho
    simp [render, Str.Spec.contents] at h1

/-- A list containing itself and a map containing that list: printed with `...`; a plain nested
value is printed in full. -/
example : (print (fun _ => []) [.list [0, 1], .int 7, .map [(1, 0)]] 4 (fun _ => false) 2).bind
      (fun x => .ok x.1) = .ok (text "{7: [..., 7]}") ∧
    Closed [.list [0, 1], .int 7, .map [(1, 0)]] ∧
    (print (fun _ => []) [.list [1, 1], .int (-7), .list [0, 0]] 4 (fun _ => false) 2).bind
      (fun x => .ok x.1) = .ok (text "[[-7, -7], [-7, -7]]") := by
  refine ⟨by decide +kernel, ?_, by decide +kernel⟩
  intro r o ho c hc
  have : r < 3 := by
    have := (List.getElem?_eq_some_iff.mp ho).1; simpa using this
  match r with
  | 0 | 1 | 2 => simp at ho; subst ho; simp [children] at hc; try (simp; omega)
  | n + 3 => omega

end Noja.Graph
