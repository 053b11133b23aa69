import Verif.Util.Path
import Verif.CInt

/-!
# Sources (utils/source.c): C98

A source is one block of memory: the structure, the name with a zero byte, the text with room for one more byte.

Simplifications: only `ftell` and `malloc` tell of failures; `fopen` and `fseek`, whose failures are reported in the
same way, succeed. The lengths of names are `int`s (paths are at most 1023 bytes: C72).
-/

set_option linter.unusedVariables false
set_option linter.unusedSimpArgs false

namespace Noja.Source

open Noja.Path (store cstring)

/-! ## Model -/

/-- source.c:41-47; `mem` is what follows the structure in its block, `name` and `body` are positions there. -/
structure Src where
  mem : List UInt8
  name : Option Nat
  body : Nat
  size : Int
  isFile : Bool
  deriving DecidableEq

/-- source.c:86-185 `Source_FromFile`: `c` is the file when its size is asked for, `c'` when it is read; `room` says
whether there is memory and `junk` what is in it. -/
def fromFile (path c c' : List UInt8) (room : Bool) (junk : UInt8) : Exec Src :=
  let size := toI32 c.length
  if size < 0 then .err
  else if room = false then .err
  else do
    let mem ← store (List.replicate (path.length + size.toNat + 2) junk) 0 (path ++ [0])
    let mem ← store mem (path.length + 1) (c'.take size.toNat)
    if toI32 (c'.take size.toNat).length ≠ size then .err
    else do
      let mem ← store mem (path.length + 1 + size.toNat) [0]
      .ok ⟨mem, some 0, path.length + 1, size, true⟩

/-- `strncpy(_, str, n)`: what it writes. -/
def strncpy (str : List UInt8) (n : Nat) : Exec (List UInt8) :=
  if str.length < n ∧ 0 ∉ str then .ub
  else .ok ((cstring str).take n ++ List.replicate (n - (cstring str).length) 0)

/-- source.c:187-218 `Source_FromString`; `str` is what can be read at `body`.  The structure has 40 bytes. -/
def fromString (name : Option (List UInt8)) (str : List UInt8) (size : Int) (room : Bool) (junk : UInt8) : Exec Src := do
  let size ← (if size < 0 then (if 0 ∈ str then .ok (toI32 (cstring str).length) else .ub) else .ok size : Exec Int)
  let namel := (name.getD []).length
  if room = false then .err
  else do
    let mem := List.replicate (toSize (40 + namel + size + 2) - 40) junk
    let mem ← (match name with | none => .ok mem | some n => store mem 0 (n ++ [0]) : Exec (List UInt8))
    let bytes ← strncpy str (toSize size)
    let mem ← store mem (namel + 1) bytes
    .ok ⟨mem, name.map fun _ => 0, namel + 1, size, false⟩

/-- source.c:64-67 `Source_GetName`, as the C string that is there. -/
def getName (s : Src) : Exec (Option (List UInt8)) :=
  match s.name with
  | none => .ok none
  | some i => if 0 ∈ s.mem.drop i then .ok (some (cstring (s.mem.drop i))) else .ub

/-- source.c:69-77 `Source_GetBody` and `Source_GetSize`: the bytes. -/
def getBody (s : Src) : Exec (List UInt8) :=
  if s.body + toU32 s.size ≤ s.mem.length then .ok ((s.mem.drop s.body).take (toU32 s.size)) else .ub

/-! ## C98 -/

/-- A name and a text. -/
def Holds (s : Src) (name : Option (List UInt8)) (text : List UInt8) : Prop := getName s = .ok name ∧ getBody s = .ok text

/-- **C98**: a source has the name and the text that it is made of, unless it is refused: a file that is not changed
meanwhile, a string, or as much of a text as is asked for. -/
def C98Statement : Prop :=
  (∀ (path c : List UInt8) (room : Bool) (junk : UInt8), 0 ∉ path →
    fromFile path c c room junk = .err ∨ ∃ s, fromFile path c c room junk = .ok s ∧ Holds s (some path) c) ∧
  (∀ (name : Option (List UInt8)) (t rest : List UInt8) (room : Bool) (junk : UInt8), 0 ∉ name.getD [] → 0 ∉ t →
    fromString name (t ++ 0 :: rest) (-1) room junk = .err ∨ ∃ s, fromString name (t ++ 0 :: rest) (-1) room junk = .ok s ∧ Holds s name t) ∧
  ∀ (name : Option (List UInt8)) (t rest : List UInt8) (room : Bool) (junk : UInt8), 0 ∉ name.getD [] → t.length < 2 ^ 31 →
    fromString name (t ++ rest) t.length room junk = .err ∨ ∃ s, fromString name (t ++ rest) t.length room junk = .ok s ∧ Holds s name t

/-! ## Proofs -/

theorem store_end {a b bs : List UInt8} (h : bs.length ≤ b.length) : store (a ++ b) a.length bs = .ok (a ++ bs ++ b.drop bs.length) := by
  unfold store
  rw [if_pos (by simp; omega)]
  simp

theorem store_at {mem a b bs : List UInt8} {n : Nat} (hm : mem = a ++ b) (hn : n = a.length) (h : bs.length ≤ b.length) :
    store mem n bs = .ok (a ++ bs ++ b.drop bs.length) := by
  subst hm hn
  exact store_end h

theorem cstring_append {t : List UInt8} (h : 0 ∉ t) (rest : List UInt8) : cstring (t ++ 0 :: rest) = t := by
  unfold cstring
  rw [List.takeWhile_append_of_pos (fun x hx => by simp; rintro rfl; exact h hx)]
  simp

theorem store_front {b bs : List UInt8} (h : bs.length ≤ b.length) : store b 0 bs = .ok (bs ++ b.drop bs.length) :=
  store_at (a := []) (b := b) rfl rfl h

/-- Where name and text have to be. -/
theorem holds_some {path t rest : List UInt8} (h : 0 ∉ path) (ht : t.length < 2 ^ 31) (f : Bool) :
    Holds ⟨path ++ 0 :: (t ++ rest), some 0, path.length + 1, t.length, f⟩ (some path) t := by
  have hz : toU32 (t.length : Int) = t.length := by unfold toU32; omega
  constructor
  · show (if 0 ∈ (path ++ 0 :: (t ++ rest)).drop 0 then Exec.ok (some (cstring ((path ++ 0 :: (t ++ rest)).drop 0))) else .ub) = _
    rw [List.drop_zero, if_pos (by simp), cstring_append h]
  · unfold getBody
    dsimp only
    rw [hz, if_pos (by simp; omega)]
    congr 1
    rw [show path ++ 0 :: (t ++ rest) = (path ++ [0]) ++ (t ++ rest) by simp, List.drop_left' (by simp), List.take_left' rfl]

theorem holds_none {x t rest : List UInt8} (hx : x.length = 1) (ht : t.length < 2 ^ 31) (f : Bool) :
    Holds ⟨x ++ (t ++ rest), none, 1, t.length, f⟩ none t := by
  have hz : toU32 (t.length : Int) = t.length := by unfold toU32; omega
  constructor
  · rfl
  · unfold getBody
    dsimp only
    rw [hz, if_pos (by simp; omega)]
    congr 1
    rw [List.drop_left' hx, List.take_left' rfl]

theorem toI32_range (x : Int) : -2147483648 ≤ toI32 x ∧ toI32 x < 2147483648 := by
  unfold toI32
  have h1 := Int.le_bmod (x := x) (m := 2 ^ 32) (by decide)
  have h2 := Int.bmod_lt (x := x) (m := 2 ^ 32) (by decide)
  constructor
  · exact Int.le_trans (by decide) h1
  · exact Int.lt_of_lt_of_le h2 (by decide)

theorem small {n : Nat} {z : Int} (h : (n : Int) ≤ z) (hz : z < 2147483648) : toI32 n = n := by
  refine toI32_of_isI32 ⟨?_, ?_⟩
  · exact Int.le_trans (by decide) (Int.natCast_nonneg n)
  · exact Int.lt_of_le_of_lt h hz

theorem fromFile_step {path c c' : List UInt8} {z : Int} (junk : UInt8) (hz : toI32 c.length = z) (hr : z < 2147483648) (h0 : 0 ≤ z) :
    fromFile path c c' true junk =
      if toI32 (c'.take z.toNat).length ≠ z then .err
      else .ok ⟨path ++ 0 :: (c'.take z.toNat ++ 0 :: List.replicate (z.toNat - (c'.take z.toNat).length) junk), some 0, path.length + 1, z, true⟩ := by
  unfold fromFile
  dsimp only
  rw [hz, if_neg (by omega), if_neg (by simp)]
  have hl : (c'.take z.toNat).length ≤ z.toNat := by rw [List.length_take]; omega
  have h1 : path.length + z.toNat + 2 - (path ++ [0]).length = z.toNat + 1 := by
    rw [List.length_append, List.length_singleton]
    omega
  rw [store_front (by simp; omega), Exec.bind_ok, List.drop_replicate, h1]
  rw [store_at (a := path ++ [0]) (b := List.replicate (z.toNat + 1) junk) rfl (by simp) (by simp; omega), Exec.bind_ok, List.drop_replicate]
  by_cases hq : toI32 (c'.take z.toNat).length ≠ z
  · rw [if_pos hq, if_pos hq]
  · rw [if_neg hq, if_neg hq]
    have hw : (c'.take z.toNat).length = z.toNat := by
      rw [small (z := z) (by omega) hr] at hq
      omega
    rw [show z.toNat + 1 - (c'.take z.toNat).length = 1 by omega]
    rw [store_at (a := path ++ [0] ++ c'.take z.toNat) (b := List.replicate 1 junk) rfl (by simp only [List.length_append, List.length_singleton]; omega) (by simp), Exec.bind_ok, hw]
    simp

/-- What becomes of a file, exactly: it is refused if its size, as an `int`, is negative or more than can be read; otherwise the source
has as much of it as that `int` says. -/
theorem C98_file (path c c' : List UInt8) (junk : UInt8) (hp : 0 ∉ path) :
    (toI32 c.length < 0 ∨ (c'.length : Int) < toI32 c.length → fromFile path c c' true junk = .err) ∧
    (0 ≤ toI32 c.length → toI32 c.length ≤ c'.length →
      ∃ s, fromFile path c c' true junk = .ok s ∧ Holds s (some path) (c'.take (toI32 c.length).toNat)) := by
  have hr := toI32_range c.length
  generalize hz : toI32 (c.length : Int) = z at *
  have step := fun h0 => fromFile_step (path := path) (c' := c') junk hz hr.2 h0
  constructor
  · rintro (h | h)
    · unfold fromFile
      dsimp only
      rw [hz, if_pos h]
    · rw [step (by omega), if_pos]
      have : (c'.take z.toNat).length = c'.length := by rw [List.length_take]; omega
      rw [this, small (z := z) (by omega) hr.2]
      omega
  · intro h0 h1
    have hw : (c'.take z.toNat).length = z.toNat := by rw [List.length_take]; omega
    have hq : toI32 (c'.take z.toNat).length = z := by
      rw [hw, small (z := z) (by omega) hr.2]
      omega
    rw [step h0, if_neg (by rw [hq]; simp)]
    refine ⟨_, rfl, ?_⟩
    have := holds_some hp (t := c'.take z.toNat) (rest := 0 :: List.replicate (z.toNat - (c'.take z.toNat).length) junk) (by omega) true
    rw [show ((c'.take z.toNat).length : Int) = z by omega] at this
    exact this

theorem strncpy_exact {t rest : List UInt8} (h : 0 ∉ t) : strncpy (t ++ rest) t.length = .ok t := by
  unfold strncpy
  rw [if_neg (by rw [List.length_append]; omega)]
  congr 1
  have : ∃ r, cstring (t ++ rest) = t ++ r := by
    unfold cstring
    rw [List.takeWhile_append_of_pos (fun x hx => by simp; rintro rfl; exact h hx)]
    exact ⟨_, rfl⟩
  obtain ⟨r, hr⟩ := this
  rw [hr, List.take_left' rfl, show t.length - (t ++ r).length = 0 by simp]
  simp

theorem fromString_rest {name : Option (List UInt8)} {t rest : List UInt8} (junk : UInt8) (hn : 0 ∉ name.getD []) (ht : 0 ∉ t)
    (hl : t.length < 2 ^ 31) (hnl : (name.getD []).length < 2 ^ 31) : ∃ s, fromString name (t ++ rest) t.length true junk = .ok s ∧ Holds s name t := by
  have hs : toSize (t.length : Int) = t.length := by unfold toSize; omega
  unfold fromString
  rw [if_neg (by omega), Exec.bind_ok, if_neg (by simp), hs, strncpy_exact ht]
  cases name with
  | none =>
    have hk : toSize (40 + (([] : List UInt8).length : Nat) + (t.length : Int) + 2) - 40 = 1 + (t.length + 1) := by
      unfold toSize
      rw [List.length_nil]
      omega
    simp only [Option.getD_none]
    rw [hk, Exec.bind_ok, Exec.bind_ok, ← List.replicate_append_replicate, store_at rfl (by simp) (by simp), Exec.bind_ok]
    refine ⟨_, rfl, ?_⟩
    rw [List.append_assoc]
    exact holds_none (by simp) hl false
  | some n =>
    have hk : toSize (40 + (n.length : Nat) + (t.length : Int) + 2) - 40 = (n.length + 1) + (t.length + 1) := by
      rw [Option.getD_some] at hnl
      unfold toSize
      omega
    simp only [Option.getD_some]
    have h1 : n.length + 1 + (t.length + 1) - (n ++ [0]).length = t.length + 1 := by
      rw [List.length_append, List.length_singleton]
      omega
    rw [hk, store_front (by simp), Exec.bind_ok, Exec.bind_ok,
      List.drop_replicate, h1, store_at (a := n ++ [0]) (b := List.replicate (t.length + 1) junk) rfl (by simp) (by simp),
      Exec.bind_ok]
    refine ⟨_, rfl, ?_⟩
    rw [List.append_assoc, List.append_assoc]
    exact holds_some hn hl false

/-- **C98, partial**: files that are not changed meanwhile and strings, of less than 2^31 bytes, become sources with their text and name, if there is
memory; texts with zero bytes only as files. -/
theorem C98_partial :
    (∀ (path c : List UInt8) (junk : UInt8), 0 ∉ path → c.length < 2 ^ 31 → ∃ s, fromFile path c c true junk = .ok s ∧ Holds s (some path) c) ∧
    (∀ (name : Option (List UInt8)) (t rest : List UInt8) (junk : UInt8), 0 ∉ name.getD [] → (name.getD []).length < 2 ^ 31 → 0 ∉ t → t.length < 2 ^ 31 →
      ∃ s, fromString name (t ++ 0 :: rest) (-1) true junk = .ok s ∧ Holds s name t) ∧
    ∀ (name : Option (List UInt8)) (t rest : List UInt8) (junk : UInt8), 0 ∉ name.getD [] → (name.getD []).length < 2 ^ 31 → 0 ∉ t → t.length < 2 ^ 31 →
      ∃ s, fromString name (t ++ rest) t.length true junk = .ok s ∧ Holds s name t := by
  refine ⟨fun path c junk hp hc => ?_, fun name t rest junk hn hnl ht hl => ?_, fun name t rest junk hn hnl ht hl => fromString_rest junk hn ht hl hnl⟩
  · have hz : toI32 c.length = c.length := toI32_of_isI32 (by unfold IsI32; omega)
    have := (C98_file path c c junk hp).2 (by omega) (by omega)
    rw [hz, Int.toNat_natCast, List.take_length] at this
    exact this
  · have : fromString name (t ++ 0 :: rest) (-1) true junk = fromString name (t ++ 0 :: rest) t.length true junk := by
      unfold fromString
      rw [if_pos (by decide), if_pos (by simp), cstring_append ht, toI32_of_isI32 (by unfold IsI32; omega), if_neg (by omega)]
    rw [this]
    exact fromString_rest junk hn ht hl hnl

/-- No memory is an error. -/
theorem C98_room (path c c' : List UInt8) (junk : UInt8) : fromFile path c c' false junk = .err := by
  unfold fromFile
  dsimp only
  by_cases h : toI32 c.length < 0
  · rw [if_pos h]
  · rw [if_neg h, if_pos rfl]

/-- C98 does not hold: of a file with 2^32 + 1 bytes only the first is read. -/
theorem C98_violated : ¬ C98Statement := by
  intro h
  have hl : (List.replicate (2 ^ 32 + 1) (65 : UInt8)).length = 2 ^ 32 + 1 := List.length_replicate
  have hz : toI32 ((List.replicate (2 ^ 32 + 1) (65 : UInt8)).length : Nat) = 1 := by rw [hl]; decide
  obtain ⟨s, h1, h2, h3⟩ := (C98_file [47] (List.replicate (2 ^ 32 + 1) 65) (List.replicate (2 ^ 32 + 1) 65) 0 (by decide)).2
    (by rw [hz]; decide) (by rw [hz, hl]; decide)
  rcases h.1 [47] (List.replicate (2 ^ 32 + 1) 65) true 0 (by decide) with q | ⟨s', q1, q2, q3⟩
  · rw [h1] at q
    cases q
  · rw [h1] at q1
    cases q1
    rw [h3, hz] at q3
    have := congrArg List.length (Exec.ok.inj q3)
    rw [List.length_take, hl] at this
    omega

/-- C98 does not hold: of a text with a zero byte the rest is replaced by zero bytes. -/
theorem C98_violated_zero : ¬ C98Statement := by
  intro h
  rcases h.2.2 none [65, 0, 66] [] true 7 (by decide) (by decide) with q | ⟨s, q1, q2, q3⟩
  · cases q
  · cases q1
    exact absurd q3 (by decide)

/-- C98 does not hold: a string of 2^32 - 50 bytes and a name of 60 is written outside the block. -/
theorem C98_violated_long : ¬ C98Statement := by
  intro h
  have key : ∀ t : List UInt8, 0 ∉ t → t.length = 2 ^ 32 - 50 →
      fromString (some (List.replicate 60 65)) (t ++ [0]) (-1) true 0 = .ub := by
    intro t ht hl
    unfold fromString
    rw [if_pos (by decide), if_pos (by simp), cstring_append ht, hl]
    rw [show toI32 ((2 ^ 32 - 50 : Nat) : Int) = -50 by decide, Exec.bind_ok, if_neg (by simp)]
    rw [show toSize (40 + ((((some (List.replicate 60 (65 : UInt8))).getD []).length : Nat) : Int) + -50 + 2) - 40 = 12 by rw [Option.getD_some, List.length_replicate]; decide]
    rfl
  rcases h.2.1 (some (List.replicate 60 65)) (List.replicate (2 ^ 32 - 50) 65) [] true 0 (by decide)
    (by rw [List.mem_replicate]; intro h; exact absurd h.2 (by decide)) with q | ⟨s, q, -⟩
  · rw [key _ (by rw [List.mem_replicate]; intro h; exact absurd h.2 (by decide)) List.length_replicate] at q
    cases q
  · rw [key _ (by rw [List.mem_replicate]; intro h; exact absurd h.2 (by decide)) List.length_replicate] at q
    cases q

/-- A file and a string. -/
example : fromFile [47, 97] [49, 43, 50] [49, 43, 50] true 9 = .ok ⟨[47, 97, 0, 49, 43, 50, 0], some 0, 3, 3, true⟩ ∧
    fromString (some [97]) [49, 43, 50, 0] (-1) true 9 = .ok ⟨[97, 0, 49, 43, 50, 9], some 0, 2, 3, false⟩ := by
  constructor <;> decide +kernel

end Noja.Source
