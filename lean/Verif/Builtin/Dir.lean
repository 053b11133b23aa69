import Verif.Str.Lemmas2

/-!
# Names that come from the system (builtins/files.c `bin_nextDirItem`, basic.c `bin_getCurrentWorkingDirectory`): C102

A directory is the list of what `readdir` will give. Names of files are bytes other than zero; nothing says that
they are UTF-8.
-/

namespace Noja.Builtin.Dir

open Noja.Str (Str)

set_option linter.unusedSimpArgs false
set_option linter.unusedVariables false

/-- What `readdir` gives: an entry, or an error. -/
inductive Item where
  | entry (name : List UInt8)
  | fail
deriving DecidableEq

/-- files.c:210-241 `bin_nextDirItem` on a directory, with what is left of it; `none`: nothing is returned. (That its
argument is a directory is checked before; utils.c:16: the string ends at its zero byte.) -/
def nextDirItem : List Item → Exec (Option Str × List Item)
  | [] => .ok (none, [])
  | .fail :: _ => .err
  | .entry n :: r => do
    let s ← Str.fromCString (n ++ [0])
    .ok (some s, r)

/-- A program that asks for entries until there are none. -/
def listing : (fuel : Nat) → List Item → Exec (List Str)
  | 0, _ => .diverge
  | fuel + 1, d => do
    let (s, r) ← nextDirItem d
    match s with
    | none => .ok []
    | some s => do
      let ss ← listing fuel r
      .ok (s :: ss)

/-- basic.c:49-62 `bin_getCurrentWorkingDirectory`; `path` is what `getcwd` has to tell (if it has), `junk` what was
in the local array. -/
def workingDirectory (path : Option (List UInt8)) (junk : List UInt8) : Exec Str :=
  match path with
  | none => .err
  | some p => if 1024 < p.length + 1 then .err else Str.fromCString ((p ++ 0 :: junk).take 1024)

/-! ## Statements -/

/-- **C102**, full statement: a program that reads a directory gets the names of all its entries, in the order of the
system, and the working directory it gets is the one it is in. -/
def C102Statement : Prop :=
  (∀ names : List (List UInt8), (∀ n ∈ names, (0 : UInt8) ∉ n) →
    ∃ fuel ss, listing fuel (names.map .entry) = .ok ss ∧ ss.map Str.Spec.contents = names) ∧
  (∀ p junk, (0 : UInt8) ∉ p → 1024 ≤ junk.length → ∃ s, workingDirectory (some p) junk = .ok s ∧ Str.Spec.contents s = p)

/-- These bytes are a text. -/
def IsText (n : List UInt8) : Prop := ∃ t, (∀ c ∈ t, Utf8.Spec.Valid c) ∧ Utf8.Spec.encodeText t = n

theorem cstrlen_eq (n post : List UInt8) (h : (0 : UInt8) ∉ n) : Str.cstrlen (n ++ 0 :: post) = .ok n.length := by
  induction n with
  | nil => rfl
  | cons b l ih =>
    have hb : b ≠ 0 := fun e => h (by simp [e])
    show (if b = 0 then Exec.ok 0 else do let n ← Str.cstrlen (l ++ 0 :: post); .ok (n + 1)) = _
    rw [if_neg hb, ih (fun e => h (by simp [e]))]
    rfl

/-- A string made of a name has the bytes of the name. -/
theorem fromCString_bytes {n post : List UInt8} (h : (0 : UInt8) ∉ n) {s : Str} (e : Str.fromCString (n ++ 0 :: post) = .ok s) :
    Str.Spec.contents s = n := by
  unfold Str.fromCString at e
  rw [cstrlen_eq n post h] at e
  have e : Str.fromString (n ++ 0 :: post) n.length = .ok s := e
  unfold Str.fromString at e
  obtain ⟨c, -, e⟩ := Exec.bind_eq_ok.1 e
  rw [if_neg (by simp)] at e
  cases e
  simp [Str.Spec.contents]

/-- If it is a text, it is made. -/
theorem fromCString_text {n : List UInt8} (post : List UInt8) (h : (0 : UInt8) ∉ n) (t : IsText n) :
    ∃ s, Str.fromCString (n ++ 0 :: post) = .ok s ∧ Str.Spec.contents s = n := by
  obtain ⟨t, ht, rfl⟩ := t
  have e : Str.fromCString (Utf8.Spec.encodeText t ++ 0 :: post) = .ok (Str.Spec.ofText t) := by
    unfold Str.fromCString
    rw [cstrlen_eq _ post h]
    have := Str.fromString_units (Utf8.units_encodeText t ht) (0 :: post)
    rw [← Utf8.encodeText_eq, ← Str.ofText_eq] at this
    exact this
  exact ⟨_, e, fromCString_bytes h e⟩

/-! ## Theorems -/

/-- **C102**, partial: for names that are UTF-8 and paths that have room in the array. -/
theorem C102_partial :
    (∀ names : List (List UInt8), (∀ n ∈ names, (0 : UInt8) ∉ n ∧ IsText n) →
      ∃ ss, (∀ fuel, names.length < fuel → listing fuel (names.map .entry) = .ok ss) ∧ ss.map Str.Spec.contents = names) ∧
    (∀ p junk, (0 : UInt8) ∉ p → IsText p → p.length ≤ 1023 → ∃ s, workingDirectory (some p) junk = .ok s ∧ Str.Spec.contents s = p) := by
  constructor
  · intro names
    induction names with
    | nil =>
      intro _
      refine ⟨[], fun fuel hf => ?_, rfl⟩
      match fuel, hf with
      | fuel + 1, _ => rfl
    | cons n ns ih =>
      intro h
      obtain ⟨h1, h2⟩ := h n (by simp)
      obtain ⟨s, e, hc⟩ := fromCString_text [] h1 h2
      obtain ⟨ss, hl, hs⟩ := ih (fun m hm => h m (by simp [hm]))
      refine ⟨s :: ss, fun fuel hf => ?_, by simp [hc, hs]⟩
      match fuel, hf with
      | fuel + 1, hf =>
        have : nextDirItem (.entry n :: ns.map .entry) = .ok (some s, ns.map .entry) := by
          show (do let s ← Str.fromCString (n ++ [0]); .ok (some s, ns.map Item.entry) : Exec _) = _
          rw [e]; rfl
        show (do let (s, r) ← nextDirItem (.entry n :: ns.map .entry); _ : Exec _) = _
        rw [this]
        show (do let ss ← listing fuel (ns.map .entry); .ok (s :: ss) : Exec _) = _
        rw [hl fuel (by simp at hf; omega)]
        rfl
  · intro p junk h1 h2 hl
    have : (p ++ 0 :: junk).take 1024 = p ++ 0 :: junk.take (1023 - p.length) := by
      rw [List.take_append, List.take_of_length_le (by omega), show 1024 - p.length = (1023 - p.length) + 1 by omega, List.take_succ_cons]
    show ∃ s, (if 1024 < p.length + 1 then _ else _) = _ ∧ _
    rw [if_neg (by omega), this]
    exact fromCString_text _ h1 h2

/-- Names such as `é.txt`, and a path. -/
example : (0 : UInt8) ∉ [0xC3, 0xA9, 46, 116] ∧ IsText [0xC3, 0xA9, 46, 116] ∧ IsText [47, 97] ∧ ([47, 97] : List UInt8).length ≤ 1023 :=
  ⟨by decide, ⟨[233, 46, 116], by simp [Utf8.Spec.Valid], by decide⟩, ⟨[47, 97], by simp [Utf8.Spec.Valid], by decide⟩, by decide⟩

/-- Whatever a program gets, it is the truth: if it comes to the end of a directory, it has the names of all entries,
unchanged; and a path that it gets is the path. -/
theorem C102_exact :
    (∀ fuel (d : List Item) ss, (∀ n, Item.entry n ∈ d → (0 : UInt8) ∉ n) → listing fuel d = .ok ss →
      d = (ss.map Str.Spec.contents).map .entry) ∧
    (∀ path junk s, (∀ p ∈ path, (0 : UInt8) ∉ p) → workingDirectory path junk = .ok s → path = some (Str.Spec.contents s)) := by
  constructor
  · intro fuel
    induction fuel with
    | zero => intro d ss _ h; cases h
    | succ fuel ih =>
      intro d ss hd h
      unfold listing at h
      match d, hd, h with
      | [], _, h => cases h; rfl
      | .fail :: _, _, h => cases h
      | .entry n :: r, hd, h =>
        obtain ⟨q, h1, h2⟩ := Exec.bind_eq_ok.1 h
        have h1 : (do let s ← Str.fromCString (n ++ [0]); .ok (some s, r) : Exec _) = .ok q := h1
        obtain ⟨s, h3, h4⟩ := Exec.bind_eq_ok.1 h1
        cases h4
        obtain ⟨ss', h5, h6⟩ := Exec.bind_eq_ok.1 h2
        cases h6
        have := ih r ss' (fun m hm => hd m (by simp [hm])) h5
        rw [List.map_cons, List.map_cons, fromCString_bytes (hd n (by simp)) h3, ← this]
  · intro path junk s hp h
    match path, hp, h with
    | none, _, h => cases h
    | some p, hp, h =>
      have h : (if 1024 < p.length + 1 then .err else Str.fromCString ((p ++ 0 :: junk).take 1024) : Exec Str) = .ok s := h
      by_cases hl : 1024 < p.length + 1
      · rw [if_pos hl] at h; cases h
      · rw [if_neg hl] at h
        have : (p ++ 0 :: junk).take 1024 = p ++ 0 :: junk.take (1023 - p.length) := by
          rw [List.take_append, List.take_of_length_le (by omega), show 1024 - p.length = (1023 - p.length) + 1 by omega, List.take_succ_cons]
        rw [this] at h
        rw [fromCString_bytes (hp p rfl) h]

/-- A directory with two entries that is read to the end. -/
example : (∀ n, Item.entry n ∈ [Item.entry [97], .entry [98]] → (0 : UInt8) ∉ n) ∧
    ∃ ss, listing 3 [.entry [97], .entry [98]] = .ok ss := by
  refine ⟨fun n hn => ?_, [⟨1, 1, [97, 0]⟩, ⟨1, 1, [98, 0]⟩], by decide⟩
  simp at hn
  rcases hn with rfl | rfl <;> decide

/-- **C102** is violated: a name that is not UTF-8, such as `é` in Latin-1, stops the program. -/
theorem C102_violated : ¬ C102Statement := by
  intro h
  obtain ⟨fuel, ss, e, -⟩ := h.1 [[0xE9]] (by simp)
  match fuel, e with
  | fuel + 1, e =>
    have : Str.fromCString [0xE9, 0] = .err := by decide
    have e : (do let (s, r) ← (do let s ← Str.fromCString [0xE9, 0]; .ok (some s, []) : Exec (Option Str × List Item)); _ : Exec _) = .ok ss := e
    rw [this] at e
    cases e

/-- It also is by paths of more than 1023 bytes, whatever they are. -/
theorem C102_violated_long (p junk : List UInt8) (h : 1023 < p.length) : workingDirectory (some p) junk = .err := by
  show (if 1024 < p.length + 1 then _ else _) = _
  rw [if_pos (by omega)]

end Noja.Builtin.Dir
