import Verif.Builtin.Args
import Verif.Str.Props
import Verif.Utf8.Props
import Verif.Obj.Buffer

/-! # Text builtins: src/lib/builtins/string.c, and the conversions of buffer.c

Arguments are those handed over by `parseArgs` (`Verif.Builtin.Args`). -/

namespace Noja.Builtin
open Str (Str mk fromString fromCString)
open Utf8 (Units)

set_option linter.unusedSimpArgs false

/-- What a builtin returns. -/
inductive Ret where
  | int (v : Int)
  | float (x : BitVec 64)
  | str (s : Str)
  /-- a new buffer with these bytes -/
  | buffer (b : List UInt8)
  /-- `(none, message)` -/
  | fail (msg : String)
deriving DecidableEq

/-! ## string.toInt -/

/-- `isdigit` in the "C" locale. -/
def isDigit (b : UInt8) : Bool := decide (48 ≤ b.toNat ∧ b.toNat ≤ 57)

def INT64_MAX : Int := 2 ^ 63 - 1

/-- string.c:251-257, the `do ... while` loop; `none` is the overflow return. -/
def toIntLoop (body : List UInt8) (srclen : Nat) : (fuel : Nat) → (i : Nat) → (result : Int) →
    Exec (Option (Nat × Int))
  | 0, _, _ => .diverge
  | fuel + 1, i, result => do
    let b ← rd body i
    let digit : Int := (b.toNat : Int) - 48
    if result > (INT64_MAX - digit) / 10 then .ok none
    else do
      let result := result * 10 + digit
      let i := i + 1
      if i < srclen then do
        let b ← rd body i
        if isDigit b then toIntLoop body srclen fuel i result else .ok (some (i, result))
      else .ok (some (i, result))

/-- string.c:235-266 `bin_toInt`.  The result goes through `va_arg(va, int)` (utils.c:15): only its
low 32 bits arrive. -/
def toInt (s : Str) : Exec Ret :=
  if s.bytes = 0 then .ok (.fail "String doesn't contain an integer")
  else do
    let b ← rd s.body 0
    if !isDigit b then .ok (.fail "String doesn't contain an integer")
    else do
      let r ← toIntLoop s.body s.bytes s.bytes 0 0
      match r with
      | none => .ok (.fail "An overflow occurred")
      | some (i, result) =>
        if i < s.bytes then .ok (.fail "String doesn't contain an integer")
        else .ok (.int (toI32 result))

/-- The number written by decimal digits. -/
def value (ds : List UInt8) : Nat := ds.foldl (fun a b => a * 10 + (b.toNat - 48)) 0

/-- A string is a decimal integer. -/
def IsNumber (bs : List UInt8) : Prop := bs ≠ [] ∧ ∀ b ∈ bs, 48 ≤ b.toNat ∧ b.toNat ≤ 57

/-- The full statement. -/
def C60Statement : Prop := ∀ (ps : List (List UInt8)), Units ps →
  (IsNumber ps.flatten → value ps.flatten < 2 ^ 63 → toInt (mk ps) = .ok (.int (value ps.flatten))) ∧
  (IsNumber ps.flatten → 2 ^ 63 ≤ value ps.flatten → ∃ m, toInt (mk ps) = .ok (.fail m)) ∧
  (¬ IsNumber ps.flatten → ∃ m, toInt (mk ps) = .ok (.fail m))

theorem value_mono (ds es : List UInt8) : value ds ≤ value (ds ++ es) := by
  unfold value
  rw [List.foldl_append]
  generalize ds.foldl _ 0 = v
  induction es generalizing v with
  | nil => simp
  | cons e es ih =>
    simp only [List.foldl_cons]
    exact Nat.le_trans (by omega) (ih _)

theorem value_snoc (ds : List UInt8) (b : UInt8) : value (ds ++ [b]) = value ds * 10 + (b.toNat - 48) := by
  unfold value; rw [List.foldl_append]; rfl

theorem isDigit_iff (b : UInt8) : isDigit b = true ↔ 48 ≤ b.toNat ∧ b.toNat ≤ 57 := by
  simp [isDigit]

/-- The loop reads on to the first non-digit. -/
theorem toIntLoop_spec (post : List UInt8) : ∀ (fuel : Nat) (rest done : List UInt8) (b : UInt8),
    (∀ x ∈ done, 48 ≤ x.toNat ∧ x.toNat ≤ 57) → (48 ≤ b.toNat ∧ b.toNat ≤ 57) →
    value done < 2 ^ 63 → rest.length < fuel →
    ∃ as bs, rest = as ++ bs ∧ (∀ x ∈ as, 48 ≤ x.toNat ∧ x.toNat ≤ 57) ∧
      ((toIntLoop (done ++ b :: rest ++ post) (done.length + 1 + rest.length) fuel done.length (value done) =
          .ok none ∧ 2 ^ 63 ≤ value (done ++ b :: as)) ∨
       (toIntLoop (done ++ b :: rest ++ post) (done.length + 1 + rest.length) fuel done.length (value done) =
          .ok (some (done.length + 1 + as.length, value (done ++ b :: as))) ∧
        value (done ++ b :: as) < 2 ^ 63 ∧ (∀ c cs, bs = c :: cs → isDigit c = false))) := by
  intro fuel
  induction fuel with
  | zero => intro rest done b _ _ _ h; omega
  | succ fuel ih =>
    intro rest done b hd hb hv hf
    have vs := value_snoc done b
    have r0 : rd (done ++ b :: rest ++ post) done.length = .ok b := by
      rw [rd_ok_iff, List.append_assoc, List.getElem?_append_right (by omega)]; simp
    by_cases ov : value (done ++ [b]) < 2 ^ 63
    · have c1 : ¬ ((value done : Int) > (INT64_MAX - ((b.toNat : Int) - 48)) / 10) := by
        unfold INT64_MAX; omega
      have c2 : (value done : Int) * 10 + ((b.toNat : Int) - 48) = (value (done ++ [b]) : Nat) := by
        rw [vs]; omega
      cases rest with
      | nil =>
        refine ⟨[], [], rfl, by simp, .inr ⟨?_, by simpa using ov, by simp⟩⟩
        unfold toIntLoop
        rw [r0, Exec.bind_ok]
        simp only []
        rw [if_neg c1, c2, if_neg (by simp)]
        simp
      | cons c rest =>
        have r1 : rd (done ++ b :: (c :: rest) ++ post) (done.length + 1) = .ok c := by
          rw [rd_ok_iff, List.append_assoc, List.getElem?_append_right (by omega)]; simp
        by_cases dc : isDigit c = true
        · obtain ⟨as, bs, e, has, h⟩ := ih rest (done ++ [b]) c
            (by intro x hx; simp at hx; rcases hx with hx | rfl
                · exact hd x hx
                · exact hb)
            ((isDigit_iff c).mp dc) ov (by simp at hf; omega)
          refine ⟨c :: as, bs, by rw [e]; rfl, ?_, ?_⟩
          · intro x hx; simp at hx
            rcases hx with rfl | hx
            · exact (isDigit_iff _).mp dc
            · exact has x hx
          · have step : toIntLoop (done ++ b :: (c :: rest) ++ post) (done.length + 1 + (c :: rest).length)
                (fuel + 1) done.length (value done) =
                toIntLoop (done ++ [b] ++ c :: rest ++ post) ((done ++ [b]).length + 1 + rest.length)
                  fuel (done ++ [b]).length (value (done ++ [b])) := by
              conv => lhs; unfold toIntLoop
              rw [r0, Exec.bind_ok]
              simp only []
              rw [if_neg c1, c2, if_pos (by simp), r1, Exec.bind_ok, if_pos dc]
              congr 1
              · simp
              · simp; omega
              · simp
            rw [step]
            rcases h with ⟨h1, h2⟩ | ⟨h1, h2, h3⟩
            · exact .inl ⟨h1, by simpa using h2⟩
            · refine .inr ⟨?_, by simpa using h2, h3⟩
              rw [h1]
              simp
              omega
        · refine ⟨[], c :: rest, rfl, by simp, .inr ⟨?_, by simpa using ov, ?_⟩⟩
          · unfold toIntLoop
            rw [r0, Exec.bind_ok]
            simp only []
            rw [if_neg c1, c2, if_pos (by simp), r1, Exec.bind_ok, if_neg dc]
            simp
          · intro c' cs e; cases e; simpa using dc
    · refine ⟨[], rest, rfl, by simp, .inl ⟨?_, by simpa using ov⟩⟩
      unfold toIntLoop
      rw [r0, Exec.bind_ok]
      simp only []
      rw [if_pos (by unfold INT64_MAX; omega)]

/-- Behaviour of `toInt` on every string: what is returned is the number, cut to 32 bits. -/
theorem toInt_spec (bs : List UInt8) (count : Nat) :
    (IsNumber bs → value bs < 2 ^ 63 → toInt ⟨count, bs.length, bs ++ [0]⟩ = .ok (.int (toI32 (value bs)))) ∧
    (IsNumber bs → 2 ^ 63 ≤ value bs → ∃ m, toInt ⟨count, bs.length, bs ++ [0]⟩ = .ok (.fail m)) ∧
    (¬ IsNumber bs → ∃ m, toInt ⟨count, bs.length, bs ++ [0]⟩ = .ok (.fail m)) := by
  cases bs with
  | nil => simp [IsNumber, toInt]
  | cons b bs =>
    have r0 : rd ((b :: bs) ++ [0]) 0 = .ok b := (rfl)
    by_cases db : isDigit b = true
    · obtain ⟨as, cs, e, has, h⟩ := toIntLoop_spec [0] (bs.length + 1) bs [] b (by simp)
        ((isDigit_iff b).mp db) (by decide) (by omega)
      have e0 : value [] = 0 := rfl
      have hl : ([] : List UInt8).length + 1 + bs.length = bs.length + 1 := by simp; omega
      rw [hl, e0] at h
      have un : ∀ r, toIntLoop ([] ++ b :: bs ++ [0]) (bs.length + 1) (bs.length + 1) ([] : List UInt8).length 0 = .ok r →
          toInt ⟨count, (b :: bs).length, b :: bs ++ [0]⟩ = match r with
            | none => .ok (.fail "An overflow occurred")
            | some (i, result) =>
              if i < (b :: bs).length then .ok (.fail "String doesn't contain an integer")
              else .ok (.int (toI32 result)) := by
        intro r hr
        unfold toInt
        rw [if_neg (by simp)]
        simp only [r0, Exec.bind_ok, db, Bool.not_true, Bool.false_eq_true, if_false]
        have : toIntLoop (b :: bs ++ [0]) (b :: bs).length (b :: bs).length 0 0 = .ok r := hr
        rw [this, Exec.bind_ok]
      have num : cs = [] → IsNumber (b :: bs) := by
        intro hc
        refine ⟨by simp, ?_⟩
        intro x hx
        rw [e, hc] at hx
        simp at hx
        rcases hx with rfl | hx
        · exact (isDigit_iff _).mp db
        · exact has x hx
      rcases h with ⟨h1, h2⟩ | ⟨h1, h2, h3⟩
      · have hm := value_mono (b :: as) cs
        rw [un _ h1]
        have : 2 ^ 63 ≤ value (b :: bs) := by
          rw [e]
          have hm' : value (b :: as) ≤ value (b :: (as ++ cs)) := hm
          have h2' : 2 ^ 63 ≤ value (b :: as) := h2
          omega
        exact ⟨fun _ h => by omega, fun _ _ => ⟨_, rfl⟩, fun _ => ⟨_, rfl⟩⟩
      · rw [un _ h1]
        cases cs with
        | nil =>
          have hb : as = bs := by simpa using e.symm
          subst hb
          have n := num rfl
          have h2' : value (b :: as) < 2 ^ 63 := h2
          refine ⟨fun _ _ => ?_, fun _ h => by omega, fun h => absurd n h⟩
          simp only []
          rw [if_neg (by simp; omega)]
          rfl
        | cons c cs =>
          have nn : ¬ IsNumber (b :: bs) := by
            intro h
            have := (isDigit_iff c).mpr (h.2 c (by rw [e]; simp))
            rw [h3 c cs rfl] at this; cases this
          refine ⟨fun h => absurd h nn, fun h => absurd h nn, fun _ => ?_⟩
          simp only []
          rw [if_pos (by simp [e]; omega)]
          exact ⟨_, rfl⟩
    · have nn : ¬ IsNumber (b :: bs) := fun h => db ((isDigit_iff b).mpr (h.2 b (by simp)))
      refine ⟨fun h => absurd h nn, fun h => absurd h nn, fun _ => ?_⟩
      unfold toInt
      rw [if_neg (by simp)]
      simp only [r0, Exec.bind_ok, db]
      exact ⟨_, rfl⟩

/-- What comes back, with the messages: the digits that the string begins with decide. -/
theorem toInt_exact (ds es : List UInt8) (count : Nat) (hd : ∀ d ∈ ds, 48 ≤ d.toNat ∧ d.toNat ≤ 57)
    (he : ∀ c cs, es = c :: cs → ¬ (48 ≤ c.toNat ∧ c.toNat ≤ 57)) :
    toInt ⟨count, (ds ++ es).length, ds ++ es ++ [0]⟩ = .ok (
      if ds = [] then .fail "String doesn't contain an integer"
      else if 2 ^ 63 ≤ value ds then .fail "An overflow occurred"
      else if es ≠ [] then .fail "String doesn't contain an integer"
      else .int (toI32 (value ds))) := by
  cases ds with
  | nil =>
    rw [if_pos rfl]
    unfold toInt
    cases es with
    | nil => rfl
    | cons c cs =>
      rw [if_neg (by simp)]
      have r0 : rd ([] ++ c :: cs ++ [0]) 0 = .ok c := (rfl)
      have nd : isDigit c = false := by
        cases hc : isDigit c with
        | false => rfl
        | true => exact absurd ((isDigit_iff c).mp hc) (he c cs rfl)
      simp only [r0, Exec.bind_ok, nd]
      rfl
  | cons b ds =>
    rw [if_neg (by simp)]
    have hb := hd b (by simp)
    have db := (isDigit_iff b).mpr hb
    obtain ⟨as, cs, e, has, h⟩ := toIntLoop_spec [0] ((ds ++ es).length + 1) (ds ++ es) [] b (by simp) hb (by decide) (by omega)
    have e0 : value [] = 0 := rfl
    have hl : ([] : List UInt8).length + 1 + (ds ++ es).length = (ds ++ es).length + 1 := by
      simp only [List.length_nil]; omega
    rw [hl, e0] at h
    have un : ∀ r, toIntLoop ([] ++ b :: (ds ++ es) ++ [0]) ((ds ++ es).length + 1) ((ds ++ es).length + 1) ([] : List UInt8).length 0 = .ok r →
        toInt ⟨count, (b :: ds ++ es).length, b :: ds ++ es ++ [0]⟩ = match r with
          | none => .ok (.fail "An overflow occurred")
          | some (i, result) =>
            if i < (b :: ds ++ es).length then .ok (.fail "String doesn't contain an integer")
            else .ok (.int (toI32 result)) := by
      intro r hr
      unfold toInt
      have r0 : rd (b :: ds ++ es ++ [0]) 0 = .ok b := (rfl)
      rw [if_neg (by simp)]
      simp only [r0, Exec.bind_ok, db, Bool.not_true, Bool.false_eq_true, if_false]
      have : toIntLoop (b :: ds ++ es ++ [0]) (b :: ds ++ es).length (b :: ds ++ es).length 0 0 = .ok r := hr
      rw [this, Exec.bind_ok]
    -- the digits that were read are among those at the beginning
    have pre : ∃ x, ds = as ++ x ∧ cs = x ++ es := by
      rcases List.append_eq_append_iff.1 e with ⟨x, h1, h2⟩ | ⟨x, h1, h2⟩
      · cases x with
        | nil => exact ⟨[], by simpa using h1.symm, by simpa using h2.symm⟩
        | cons c x =>
          exact absurd (has c (by rw [h1]; simp)) (he c _ h2)
      · exact ⟨x, h1, h2⟩
    obtain ⟨x, h1, h2⟩ := pre
    rcases h with ⟨hr, hv⟩ | ⟨hr, hv, hn⟩
    · rw [un _ hr, if_pos]
      have := value_mono ([] ++ b :: as) x
      rw [h1]
      simp only [List.nil_append, List.cons_append] at this hv
      omega
    · rw [un _ hr]
      have hx : x = [] := by
        cases x with
        | nil => rfl
        | cons c x =>
          have := hn c (x ++ es) (by rw [h2]; rfl)
          have := (isDigit_iff c).mpr (hd c (by rw [h1]; simp))
          simp_all
      subst hx
      simp only [List.append_nil] at h1
      subst h1
      simp only [List.nil_append] at hv h2 ⊢
      have hv' : ¬ 2 ^ 63 ≤ value (b :: ds) := by omega
      cases es with
      | nil => rw [if_neg hv', if_neg (by simp; omega), if_neg (by simp)]
      | cons c es => rw [if_neg hv', if_pos (by simp; omega), if_pos (by simp)]

example : toInt ⟨3, 3, [49, 50, 97, 0]⟩ = .ok (.fail "String doesn't contain an integer") ∧
    toInt ⟨20, 20, (List.replicate 20 57) ++ [0]⟩ = .ok (.fail "An overflow occurred") :=
  ⟨toInt_exact [49, 50] [97] 3 (by decide) (by intro c cs h; cases h; decide),
   toInt_exact (List.replicate 20 57) [] 20 (by decide) nofun⟩

/-- C60 for numbers of at most 31 bits, and for everything that must be refused.  Missing: larger
numbers, which lose their upper bits on return. -/
theorem C60_toInt_partial (ps : List (List UInt8)) :
    (IsNumber ps.flatten → value ps.flatten < 2 ^ 31 → toInt (mk ps) = .ok (.int (value ps.flatten))) ∧
    (IsNumber ps.flatten → 2 ^ 63 ≤ value ps.flatten → ∃ m, toInt (mk ps) = .ok (.fail m)) ∧
    (¬ IsNumber ps.flatten → ∃ m, toInt (mk ps) = .ok (.fail m)) := by
  obtain ⟨h1, h2, h3⟩ := toInt_spec ps.flatten ps.length
  refine ⟨fun a b => ?_, h2, h3⟩
  have := h1 a (by omega)
  rw [toI32_of_isI32 (by unfold IsI32; omega)] at this
  exact this

/-- Violated: "4294967296" gives 0. -/
theorem C60_violated : ¬ C60Statement := by
  intro h
  have hu : Units ([52, 50, 57, 52, 57, 54, 55, 50, 57, 54].map fun b => [b]) :=
    Utf8.units_singletons _ (by decide)
  have := (h _ hu).1 ⟨by decide, by decide⟩ (by decide)
  have e : toInt (mk ([52, 50, 57, 52, 57, 54, 55, 50, 57, 54].map fun b => [b])) = .ok (.int 0) := by
    decide +kernel
  rw [e] at this
  simp only [Exec.ok.injEq, Ret.int.injEq] at this
  exact absurd this (by decide)

example : IsNumber [55, 48] ∧ value [55, 48] = 70 := ⟨⟨by decide, by decide⟩, by decide⟩

/-! ## string.cat -/

/-- string.c:85-102: the arguments must be strings; the total is an `unsigned int`. -/
def catTotal : List Arg → Nat → Exec Nat
  | [], t => .ok t
  | .str s :: args, t => catTotal args ((t + s.bytes) % 2 ^ 32)
  | _ :: _, _ => .err

/-- string.c:118-125: `memcpy` of every string into a buffer of `cap` bytes. -/
def catCopy (cap : Nat) : List Arg → List UInt8 → Exec (List UInt8)
  | [], out => .ok out
  | .str s :: args, out =>
    if out.length + s.bytes > cap ∨ s.body.length < s.bytes then .ub
    else catCopy cap args (out ++ s.body.take s.bytes)
  | _ :: _, _ => .err

/-- string.c:83-139 `bin_cat`. -/
def cat (args : List Arg) : Exec Ret := do
  let total ← catTotal args 0
  let cap := if total > 127 then (total + 1) % 2 ^ 32 else 128
  let out ← catCopy cap args []
  let len := toI32 total
  let s ← (if len < 0 then fromCString (out.take total ++ [0]) else fromString (out.take total ++ [0]) len.toNat)
  .ok (.str s)

theorem catTotal_strs (pss : List (List (List UInt8))) (t : Nat) (ht : t < 2 ^ 32) :
    catTotal (pss.map fun ps => Arg.str (mk ps)) t = .ok ((t + pss.flatten.flatten.length) % 2 ^ 32) := by
  induction pss generalizing t with
  | nil => simp [catTotal]; omega
  | cons ps pss ih =>
    simp only [List.map_cons, catTotal]
    rw [ih _ (by omega)]
    simp only [mk, List.flatten_cons, List.flatten_append, List.length_append]
    congr 1; omega

theorem catCopy_strs (cap : Nat) (pss : List (List (List UInt8))) (out : List UInt8)
    (h : out.length + pss.flatten.flatten.length ≤ cap) :
    catCopy cap (pss.map fun ps => Arg.str (mk ps)) out = .ok (out ++ pss.flatten.flatten) := by
  induction pss generalizing out with
  | nil => simp [catCopy]
  | cons ps pss ih =>
    simp only [List.flatten_cons, List.flatten_append, List.length_append] at h
    have e : (mk ps).body.take (mk ps).bytes = ps.flatten := List.take_left' rfl
    simp only [List.map_cons, catCopy]
    rw [e, if_neg (by simp only [mk, List.length_append]; omega),
      ih _ (by rw [List.length_append]; omega)]
    simp [-List.length_flatten]

/-- The full statement. -/
def C61Statement : Prop :=
  (∀ pss : List (List (List UInt8)), (∀ ps ∈ pss, Units ps ∧ ps.flatten.length < 2 ^ 31 - 1) →
    cat (pss.map fun ps => .str (mk ps)) = .ok (.str (mk pss.flatten))) ∧
  ∀ args : List Arg, (∃ a ∈ args, ∀ s, a ≠ .str s) → cat args = .err

/-- C61 when the result is shorter than 2^31 bytes: the result consists of the characters of all
arguments, one after the other (so its character count is the sum of theirs).  Missing: longer
results. -/
theorem C61_cat_partial :
    (∀ pss : List (List (List UInt8)), (∀ ps ∈ pss, Units ps) → pss.flatten.flatten.length < 2 ^ 31 →
      cat (pss.map fun ps => .str (mk ps)) = .ok (.str (mk pss.flatten)) ∧
      (mk pss.flatten).count = (pss.map fun ps => (mk ps).count).sum ∧
      Str.Spec.contents (mk pss.flatten) = (pss.map fun ps => Str.Spec.contents (mk ps)).flatten) ∧
    ∀ args : List Arg, (∃ a ∈ args, ∀ s, a ≠ .str s) → cat args = .err := by
  constructor
  · intro pss hu hl
    refine ⟨?_, ?_, ?_⟩
    · unfold cat
      rw [catTotal_strs pss 0 (by decide), Nat.zero_add, Nat.mod_eq_of_lt (by omega)]
      simp only [Exec.bind_ok]
      rw [catCopy_strs _ _ _ (by split <;> simp only [List.length_nil] <;> omega)]
      simp only [Exec.bind_ok, List.nil_append]
      rw [toI32_of_isI32 (by unfold IsI32; omega), if_neg (by omega), Int.toNat_natCast,
        List.take_length, Str.fromString_units]
      · rfl
      · intro u hu'
        obtain ⟨ps, h1, h2⟩ := List.mem_flatten.mp hu'
        exact hu ps h1 u h2
    · simp only [mk, List.length_flatten]
    · simp only [Str.Spec.contents, mk]
      rw [List.take_left' rfl]
      have : (fun ps : List (List UInt8) => List.take ps.flatten.length (ps.flatten ++ [0])) = List.flatten := by
        funext ps; rw [List.take_left' rfl]
      rw [this, List.flatten_flatten]
  · intro args
    have key : ∀ t, (∃ a ∈ args, ∀ s, a ≠ Arg.str s) → catTotal args t = .err := by
      induction args with
      | nil => simp
      | cons a args ih =>
        intro t h
        cases a with
        | str s =>
          obtain ⟨a, ha, hs⟩ := h
          simp at ha
          rcases ha with rfl | ha
          · exact absurd rfl (hs s)
          · exact ih _ ⟨a, ha, hs⟩
        | _ => rfl
    intro h
    unfold cat
    rw [key 0 h]; rfl

/-- Violated: with a total of 2^32 bytes or more the size is computed modulo 2^32 and the copies run
over the end of the buffer. -/
theorem C61_violated : ¬ C61Statement := by
  intro h
  obtain ⟨n, hn⟩ : ∃ n : Nat, n = 1500000000 := ⟨_, rfl⟩
  obtain ⟨ps, hps⟩ : ∃ ps : List (List UInt8), ps = (List.replicate n (97 : UInt8)).map fun b => [b] :=
    ⟨_, rfl⟩
  have hu : Units ps := by
    rw [hps]; exact Utf8.units_singletons _ (by intro b hb; rw [(List.mem_replicate.mp hb).2]; decide)
  have hf : ps.flatten.length = n := by rw [hps, Utf8.flatten_singletons]; simp
  have h1 := h.1 [ps, ps, ps] (by
    intro q hq
    simp at hq
    subst hq
    exact ⟨hu, by rw [hf, hn]; decide⟩)
  have hb : (mk ps).bytes = n := hf
  have hbl : (mk ps).body.length = n + 1 := by simp only [mk, List.length_append, hf]; rfl
  have t : catTotal ([ps, ps, ps].map fun ps => Arg.str (mk ps)) 0 = .ok (4500000000 % 2 ^ 32) := by
    rw [catTotal_strs _ 0 (by decide)]
    simp only [List.flatten_cons, List.flatten_append, List.length_append, hf, hn]
    rfl
  unfold cat at h1
  rw [t] at h1
  simp only [Exec.bind_ok, List.map_cons, List.map_nil] at h1
  have c : catCopy (if 4500000000 % 2 ^ 32 > 127 then (4500000000 % 2 ^ 32 + 1) % 2 ^ 32 else 128)
      [.str (mk ps), .str (mk ps), .str (mk ps)] [] = .ub := by
    unfold catCopy
    rw [if_pos]
    left
    rw [hb, hn]
    decide
  rw [c] at h1
  cases h1

example : cat [.str (mk [[97], [98]]), .str (mk []), .str (mk [[99]])] = .ok (.str (mk [[97], [98], [99]])) := by
  decide +kernel

/-! ## string.slice -/

/-- string.c:141-192 `bin_slice` after `parseArgs`; arithmetic is that of `size_t`.  The length is
passed on as `int`. -/
def slice (s : Str) (o n : Option Int) : Exec Ret := do
  let srclen := s.bytes
  let offset ← (match o with
    | some v => if v < 0 then .err else .ok v.toNat
    | none => .ok 0)
  let length ← (match n with
    | some v => if v < 0 then .err else .ok v.toNat
    | none => .ok (toSize ((srclen : Int) - offset)))
  if offset > srclen then .err
  else if (offset + length) % 2 ^ 64 > srclen then .err
  else do
    let len := toI32 length
    let r ← (if len < 0 then fromCString (s.body.drop offset) else fromString (s.body.drop offset) len.toNat)
    .ok (.str r)

/-- Window of the slice: offset and length, given the optional arguments. -/
def SliceOf (s : Str) (o n : Option Int) (off len : Nat) : Prop :=
  (off : Int) = o.getD 0 ∧ (len : Int) = n.getD (s.bytes - off) ∧ off + len ≤ s.bytes

/-- The full statement. -/
def C62Statement : Prop := ∀ (ps : List (List UInt8)) (o n : Option Int), Units ps →
  ps.flatten.length < 2 ^ 31 → (∀ v ∈ o, IsI64 v) → (∀ v ∈ n, IsI64 v) →
  (∀ off len, SliceOf (mk ps) o n off len → ∃ r, slice (mk ps) o n = .ok (.str r) ∧
    Str.Spec.contents r = (ps.flatten.drop off).take len) ∧
  ((¬ ∃ off len, SliceOf (mk ps) o n off len) → slice (mk ps) o n = .err)

/-- What a slice inside the string is made from. -/
theorem slice_inside (ps : List (List UInt8)) (o n : Option Int) (hl : ps.flatten.length < 2 ^ 31) :
    ∀ off len, SliceOf (mk ps) o n off len →
      slice (mk ps) o n = (fromString ((mk ps).body.drop off) len >>= fun r => .ok (.str r)) := by
  have hb : (mk ps).bytes = ps.flatten.length := rfl
  rintro off len ⟨h1, h2, h3⟩
  rw [hb] at h2 h3
  unfold slice
  have e1 : (match o with | some v => if v < 0 then Exec.err else .ok v.toNat | none => .ok 0) = .ok off := by
    cases o with
    | none => simp at h1 ⊢; omega
    | some v =>
      simp at h1 ⊢
      rw [if_neg (by omega)]; congr 1; omega
  have e2 : (match n with
      | some v => if v < 0 then Exec.err else .ok v.toNat
      | none => .ok (toSize (((mk ps).bytes : Int) - off))) = .ok len := by
    cases n with
    | none => simp [toSize, hb] at h2 ⊢; omega
    | some v =>
      simp at h2 ⊢
      rw [if_neg (by omega)]; congr 1; omega
  simp only [e1, e2, Exec.bind_ok]
  rw [if_neg (by rw [hb]; omega), if_neg (by rw [hb, Nat.mod_eq_of_lt (by omega)]; omega)]
  rw [toI32_of_isI32 (by unfold IsI32; omega), if_neg (by omega), Int.toNat_natCast]

/-- In general, slices outside the string are errors; slices inside hold the bytes asked for or are
refused as invalid UTF-8; they are not refused when cut between characters.  Missing: a slice that
cuts a character is an error. -/
theorem C62_slice_partial (ps : List (List UInt8)) (o n : Option Int) (hu : Units ps)
    (hl : ps.flatten.length < 2 ^ 31) (ho : ∀ v ∈ o, IsI64 v) (hn : ∀ v ∈ n, IsI64 v) :
    (∀ off len, SliceOf (mk ps) o n off len →
      slice (mk ps) o n = .err ∨ ∃ r, slice (mk ps) o n = .ok (.str r) ∧
        Str.Spec.contents r = (ps.flatten.drop off).take len) ∧
    (∀ as bs cs, ps = as ++ bs ++ cs → SliceOf (mk ps) o n as.flatten.length bs.flatten.length →
      slice (mk ps) o n = .ok (.str (mk bs))) ∧
    ((¬ ∃ off len, SliceOf (mk ps) o n off len) → slice (mk ps) o n = .err) := by
  have hb : (mk ps).bytes = ps.flatten.length := rfl
  have inside := slice_inside ps o n hl
  refine ⟨?_, ?_, ?_⟩
  · intro off len h
    rw [inside off len h]
    have h3 := h.2.2
    rw [hb] at h3
    rcases Str.fromString_spec ((mk ps).body.drop off) len
      (by simp only [mk, List.length_drop, List.length_append]; simp only [List.length_singleton]; omega)
      with e | ⟨qs, hq, hf, e⟩
    · left; rw [e]; rfl
    · right
      refine ⟨mk qs, by rw [e]; rfl, ?_⟩
      simp only [Str.Spec.contents]
      have : (mk qs).body.take (mk qs).bytes = qs.flatten := by
        simp only [mk]; rw [List.take_left' rfl]
      rw [this, hf]
      simp only [mk]
      rw [List.drop_append_of_le_length (by omega), List.take_append_of_le_length (by simp only [List.length_drop]; omega)]
  · intro as bs cs e h
    rw [inside _ _ h]
    have : (mk ps).body.drop as.flatten.length = bs.flatten ++ (cs.flatten ++ [0]) := by
      simp only [mk, e, List.flatten_append, List.append_assoc]
      rw [List.drop_left' rfl]
    rw [this, Str.fromString_units]
    · rfl
    · intro u hu'; exact hu u (by rw [e]; simp [hu'])
  · intro h
    have off_cases : (∃ off : Nat, (off : Int) = o.getD 0) ∨ (∃ v, o = some v ∧ v < 0) := by
      cases o with
      | none => exact .inl ⟨0, rfl⟩
      | some v =>
        by_cases c : v < 0
        · exact .inr ⟨v, rfl, c⟩
        · exact .inl ⟨v.toNat, by simp; omega⟩
    rcases off_cases with ⟨off, hoff⟩ | ⟨v, rfl, hv⟩
    · have e1 : (match o with | some v => if v < 0 then Exec.err else .ok v.toNat | none => .ok 0) = .ok off := by
        cases o with
        | none => simp at hoff ⊢; omega
        | some v => simp at hoff ⊢; rw [if_neg (by omega)]; congr 1; omega
      have lo : (off : Int) < 2 ^ 63 := by
        cases o with
        | none => simp at hoff; omega
        | some v => have := ho v rfl; unfold IsI64 at this; simp at hoff; omega
      unfold slice
      simp only [e1, Exec.bind_ok]
      cases n with
      | some w =>
        by_cases c : w < 0
        · simp [c]
        · simp only []
          rw [if_neg c, Exec.bind_ok]
          have := hn w rfl
          unfold IsI64 at this
          by_cases c2 : off > (mk ps).bytes
          · rw [if_pos c2]
          · rw [if_neg c2, if_pos]
            rw [hb] at c2 ⊢
            rw [Nat.mod_eq_of_lt (by omega)]
            refine Nat.lt_of_not_le (fun hle => h ⟨off, w.toNat, hoff, ?_, ?_⟩)
            · simp; omega
            · rw [hb]; exact hle
      | none =>
        simp only [Exec.bind_ok]
        by_cases c2 : off > (mk ps).bytes
        · rw [if_pos c2]
        · exact absurd ⟨off, (mk ps).bytes - off, hoff, by simp; omega, by omega⟩ h
    · unfold slice
      simp only [if_pos hv, Exec.bind_err]

/-- Violated: the first byte of "é" cannot be sliced out. -/
theorem C62_violated : ¬ C62Statement := by
  intro h
  have hu : Units [Utf8.Spec.encode 0xE9] := by
    intro u hu
    simp at hu
    subst hu
    exact ⟨_, Utf8.isUnit_encode _ (by unfold Utf8.Spec.Valid; omega)⟩
  obtain ⟨r, h1, -⟩ := (h _ (some 0) (some 1) hu (by decide) (by decide) (by decide)).1 0 1
    ⟨rfl, rfl, by decide⟩
  have : slice (mk [Utf8.Spec.encode 0xE9]) (some 0) (some 1) = .err := by decide
  rw [this] at h1
  cases h1

example : SliceOf (mk [[97], [98], [99]]) (some 1) none 1 2 := ⟨rfl, rfl, by decide⟩

/-! ## string.trim -/

/-- string.c:208-209: skipping leading spaces; returns the offset. -/
def trimLead (body : List UInt8) (srclen : Nat) : (fuel : Nat) → (offset : Nat) → Exec Nat
  | 0, _ => .diverge
  | fuel + 1, offset =>
    if offset < srclen then do
      let b ← rd body offset
      if b = 32 then trimLead body srclen fuel (offset + 1) else .ok offset
    else .ok offset

/-- string.c:223-224: `while (srcstr[offset + length - 1] == ' ') length--`. -/
def trimTrail (body : List UInt8) (offset : Nat) : (length : Nat) → Exec Nat
  | 0 => if offset = 0 then .ub else do
    let b ← rd body (offset - 1)
    if b = 32 then .ub else .ok 0
  | length + 1 => do
    let b ← rd body (offset + length)
    if b = 32 then trimTrail body offset length else .ok (length + 1)

/-- string.c:194-233 `bin_trim`; the length is passed on as `int`. -/
def trim (s : Str) : Exec Ret := do
  let offset ← trimLead s.body s.bytes (s.bytes + 1) 0
  if offset = s.bytes then do
    let r ← fromString [0] 0
    .ok (.str r)
  else do
    let length ← trimTrail s.body offset s.bytes
    let len := toI32 length
    let r ← (if len < 0 then fromCString (s.body.drop offset) else fromString (s.body.drop offset) len.toNat)
    .ok (.str r)

/-- A string without its leading and trailing spaces. -/
def Trimmed (bs ts : List UInt8) : Prop :=
  ∃ a b, bs = List.replicate a 32 ++ ts ++ List.replicate b 32 ∧
    ts.head? ≠ some 32 ∧ ts.getLast? ≠ some 32

/-- The full statement. -/
def C63Statement : Prop := ∀ ps : List (List UInt8), Units ps → ps.flatten.length < 2 ^ 31 →
  ∃ r, trim (mk ps) = .ok (.str r) ∧ Trimmed ps.flatten (Str.Spec.contents r)

/-- Violated: for two leading spaces the loop reads past the end of the string. -/
theorem C63_violated : ¬ C63Statement := by
  intro h
  obtain ⟨r, h1, -⟩ := h ([32, 32, 97].map fun b => [b]) (Utf8.units_singletons _ (by decide)) (by decide)
  have : trim (mk ([32, 32, 97].map fun b => [b])) = .ub := by decide +kernel
  rw [this] at h1
  cases h1

/-- With one leading space a NUL is added. -/
theorem C63_one_space : trim (mk ([32, 97].map fun b => [b])) = .ok (.str (mk [[97], [0]])) := by
  decide +kernel

theorem trimTrail_spec (post : List UInt8) : ∀ (n : Nat) (bs : List UInt8), bs.length = n →
    (∃ x ∈ bs, x ≠ 32) →
    ∃ ts b, bs = ts ++ List.replicate b 32 ∧ ts.getLast? ≠ some 32 ∧
      trimTrail (bs ++ post) 0 n = .ok ts.length := by
  intro n
  induction n generalizing post with
  | zero =>
    intro bs hl ⟨x, hx, _⟩
    have : bs = [] := List.eq_nil_of_length_eq_zero hl
    subst this; simp at hx
  | succ n ih =>
    intro bs hl hx
    obtain ⟨cs, c, rfl⟩ : ∃ cs c, bs = cs ++ [c] := by
      refine ⟨bs.dropLast, bs.getLast (by intro h; simp [h] at hl), ?_⟩
      rw [List.dropLast_concat_getLast]
    have hc : cs.length = n := by simp at hl; exact hl
    have r0 : rd (cs ++ [c] ++ post) (0 + n) = .ok c := by
      rw [rd_ok_iff, List.append_assoc, List.getElem?_append_right (by omega)]; simp [hc]
    unfold trimTrail
    rw [r0, Exec.bind_ok]
    by_cases e : c = 32
    · rw [if_pos e]
      subst e
      obtain ⟨ts, b, h1, h2, h3⟩ := ih (32 :: post) cs hc (by
        obtain ⟨x, hm, hne⟩ := hx
        simp at hm
        rcases hm with hm | hm
        · exact ⟨x, hm, hne⟩
        · exact absurd hm hne)
      refine ⟨ts, b + 1, ?_, h2, ?_⟩
      · rw [h1, List.replicate_succ', List.append_assoc]
      · rw [List.append_assoc]; exact h3
    · rw [if_neg e]
      exact ⟨cs ++ [c], 0, by simp, by simp [e], by simp [hc]⟩

theorem trimLead_spaces (post : List UInt8) (srclen : Nat) : ∀ (a pre fuel : Nat),
    pre + a ≤ srclen → a < fuel → (pre + a < srclen → ∃ c cs, post = c :: cs ∧ c ≠ 32) →
    trimLead (List.replicate (pre + a) 32 ++ post) srclen fuel pre = .ok (pre + a) := by
  intro a
  induction a with
  | zero =>
    intro pre fuel h1 h2 h3
    obtain ⟨fuel, rfl⟩ : ∃ f, fuel = f + 1 := ⟨fuel - 1, by omega⟩
    unfold trimLead
    by_cases c : pre < srclen
    · obtain ⟨d, ds, rfl, hd⟩ := h3 (by omega)
      have : rd (List.replicate (pre + 0) 32 ++ d :: ds) pre = .ok d := by
        rw [rd_ok_iff, List.getElem?_append_right (by simp)]; simp
      rw [if_pos c, this, Exec.bind_ok, if_neg hd]; rfl
    · rw [if_neg c]; rfl
  | succ a ih =>
    intro pre fuel h1 h2 h3
    obtain ⟨fuel, rfl⟩ : ∃ f, fuel = f + 1 := ⟨fuel - 1, by omega⟩
    unfold trimLead
    have : rd (List.replicate (pre + (a + 1)) 32 ++ post) pre = .ok (32 : UInt8) := by
      rw [rd_ok_iff, List.getElem?_append_left (by simp)]; simp
    rw [if_pos (by omega), this, Exec.bind_ok, if_pos rfl]
    have := ih (pre + 1) fuel (by omega) (by omega) (fun h => h3 (by omega))
    rw [show pre + 1 + a = pre + (a + 1) from by omega] at this
    exact this

/-- Removing trailing spaces has one result. -/
theorem strip_unique {ts us : List UInt8} {a b : Nat} (ht : ts.getLast? ≠ some 32) (hu : us.getLast? ≠ some 32)
    (h : ts ++ List.replicate a 32 = us ++ List.replicate b 32) : ts = us := by
  induction a generalizing b with
  | zero =>
    cases b with
    | zero => simpa using h
    | succ b =>
      rw [List.replicate_zero, List.append_nil, List.replicate_succ', ← List.append_assoc] at h
      rw [h] at ht; simp at ht
  | succ a ih =>
    cases b with
    | zero =>
      rw [List.replicate_zero, List.append_nil, List.replicate_succ', ← List.append_assoc] at h
      rw [← h] at hu; simp at hu
    | succ b =>
      rw [List.replicate_succ', List.replicate_succ', ← List.append_assoc, ← List.append_assoc] at h
      exact ih (List.append_inj_left' h rfl)

/-- C63 for strings without leading spaces, and strings of nothing but spaces.  Missing: strings with
leading spaces. -/
theorem C63_trim_partial :
    (∀ (qs : List (List UInt8)) (b : Nat), Units qs → qs.flatten ≠ [] → qs.flatten.length < 2 ^ 31 →
      qs.flatten.head? ≠ some 32 → qs.flatten.getLast? ≠ some 32 →
      trim (mk (qs ++ List.replicate b [32])) = .ok (.str (mk qs)) ∧
      Trimmed (mk (qs ++ List.replicate b [32])).body.dropLast qs.flatten) ∧
    ∀ b : Nat, trim (mk (List.replicate b [32])) = .ok (.str (mk [])) := by
  have fl : ∀ b : Nat, (List.replicate b [(32 : UInt8)]).flatten = List.replicate b 32 := by
    intro b
    induction b with
    | zero => rfl
    | succ b ih => rw [List.replicate_succ, List.flatten_cons, ih]; rfl
  constructor
  · intro qs b hu hne h31 hh hg
    constructor
    · have hf : (qs ++ List.replicate b [32]).flatten = qs.flatten ++ List.replicate b 32 := by
        rw [List.flatten_append, fl]
      obtain ⟨c, cs, hc⟩ : ∃ c cs, qs.flatten = c :: cs := by
        cases h : qs.flatten with
        | nil => exact absurd h hne
        | cons c cs => exact ⟨c, cs, rfl⟩
      have hc32 : c ≠ 32 := by rw [hc] at hh; simpa using hh
      unfold trim
      have e1 : trimLead (mk (qs ++ List.replicate b [32])).body (mk (qs ++ List.replicate b [32])).bytes
          ((mk (qs ++ List.replicate b [32])).bytes + 1) 0 = .ok 0 := by
        have := trimLead_spaces ((mk (qs ++ List.replicate b [32])).body)
          (mk (qs ++ List.replicate b [32])).bytes 0 0 ((mk (qs ++ List.replicate b [32])).bytes + 1)
          (by omega) (by omega) (fun _ => ⟨c, cs ++ List.replicate b 32 ++ [0], by simp only [mk]; rw [hf, hc]; rfl, hc32⟩)
        simpa using this
      rw [e1, Exec.bind_ok]
      have hb : (mk (qs ++ List.replicate b [32])).bytes = qs.flatten.length + b := by
        simp only [mk]; rw [hf]; simp only [List.length_append, List.length_replicate]
      have hl : 0 < qs.flatten.length := by rw [hc]; simp
      rw [if_neg (by rw [hb]; omega)]
      obtain ⟨ts, b', h1, h2, h3⟩ := trimTrail_spec [0] (mk (qs ++ List.replicate b [32])).bytes
        (qs.flatten ++ List.replicate b 32) (by rw [hb]; simp only [List.length_append, List.length_replicate])
        ⟨c, by rw [hc]; simp, hc32⟩
      have hts : ts = qs.flatten := strip_unique h2 hg h1.symm
      have h3' : trimTrail (mk (qs ++ List.replicate b [32])).body 0 (mk (qs ++ List.replicate b [32])).bytes =
          .ok ts.length := by
        rw [← h3]; simp only [mk]; rw [hf]
      rw [h3', Exec.bind_ok, List.drop_zero, hts]
      have : (mk (qs ++ List.replicate b [32])).body = qs.flatten ++ (List.replicate b 32 ++ [0]) := by
        simp only [mk]; rw [hf, List.append_assoc]
      rw [this]
      dsimp only
      rw [toI32_of_isI32 (by unfold IsI32; omega), if_neg (by omega), Int.toNat_natCast, Str.fromString_units hu]
      rfl
    · refine ⟨0, b, ?_, hh, hg⟩
      simp only [mk]
      rw [List.dropLast_concat, List.flatten_append, fl]
      simp
  · intro b
    have hb : (mk (List.replicate b [32])).bytes = b := by simp only [mk]; rw [fl]; simp
    have hbd : (mk (List.replicate b [32])).body = List.replicate b 32 ++ [0] := by simp only [mk]; rw [fl]
    unfold trim
    have := trimLead_spaces [0] b b 0 (b + 1) (by omega) (by omega) (by omega)
    rw [Nat.zero_add] at this
    rw [hb, hbd, this, Exec.bind_ok, if_pos rfl]
    rfl

/-- Every string with leading spaces goes wrong: with one leading space the result ends in a NUL that
was not there, with more the code reads outside of the string. -/
theorem C63_leading (a : Nat) (c : UInt8) (cs : List UInt8) (hc : c ≠ 32) :
    (2 ≤ a → ∀ ps : List (List UInt8), ps.flatten = List.replicate a 32 ++ c :: cs → trim (mk ps) = .ub) ∧
    (∀ ps qs : List (List UInt8), Units qs → qs.flatten = c :: cs → qs.flatten.length < 2 ^ 31 - 1 → ps = [32] :: qs →
      trim (mk ps) = .ok (.str (mk (qs ++ [[0]])))) := by
  constructor
  · intro h2 ps hp
    have hb : (mk ps).bytes = a + cs.length + 1 := by simp only [mk]; rw [hp]; simp; omega
    have hbd : (mk ps).body = List.replicate a 32 ++ (c :: cs ++ [0]) := by
      simp only [mk]; rw [hp, List.append_assoc]
    unfold trim
    have := trimLead_spaces (c :: cs ++ [0]) (mk ps).bytes a 0 ((mk ps).bytes + 1) (by omega) (by omega)
      (fun _ => ⟨c, cs ++ [0], rfl, hc⟩)
    rw [Nat.zero_add] at this
    rw [hbd, this, Exec.bind_ok, if_neg (by omega), hb]
    unfold trimTrail
    have : rd (List.replicate a 32 ++ (c :: cs ++ [0])) (a + (a + cs.length)) = .ub := by
      unfold rd
      rw [List.getElem?_eq_none (by simp; omega)]
    rw [this]; rfl
  · intro ps qs hu hq h31 hp
    have hfl : ps.flatten = 32 :: (c :: cs) := by rw [hp, List.flatten_cons, hq]; rfl
    have hb : (mk ps).bytes = cs.length + 2 := by simp only [mk]; rw [hfl]; simp
    have hbd : (mk ps).body = List.replicate (0 + 1) 32 ++ (c :: cs ++ [0]) := by
      simp only [mk]; rw [hfl]; rfl
    unfold trim
    have := trimLead_spaces (c :: cs ++ [0]) (mk ps).bytes 1 0 ((mk ps).bytes + 1) (by omega) (by omega)
      (fun _ => ⟨c, cs ++ [0], rfl, hc⟩)
    rw [hbd, this, Exec.bind_ok, if_neg (by omega), hb]
    unfold trimTrail
    have : rd (List.replicate (0 + 1) 32 ++ (c :: cs ++ [0])) (0 + 1 + (cs.length + 1)) = .ok (0 : UInt8) := by
      rw [rd_ok_iff, List.getElem?_append_right (by simp)]
      simp
    rw [this, Exec.bind_ok, if_neg (by decide), Exec.bind_ok]
    have e : List.drop (0 + 1) (List.replicate (0 + 1) 32 ++ (c :: cs ++ [0])) = (qs ++ [[0]]).flatten ++ [] := by
      simp [List.flatten_append, hq]
    have e2 : cs.length + 1 + 1 = (qs ++ [[0]]).flatten.length := by
      rw [List.flatten_append, hq]; simp
    have h32 : (qs ++ [[0]]).flatten.length < 2 ^ 31 := by rw [← e2]; rw [hq] at h31; simp at h31; omega
    rw [e, e2]
    dsimp only
    rw [toI32_of_isI32 (by unfold IsI32; omega), if_neg (by omega), Int.toNat_natCast, Str.fromString_units]
    · rfl
    · intro u hu'
      simp at hu'
      rcases hu' with hu' | rfl
      · exact hu u hu'
      · exact ⟨_, Utf8.isUnit1 0 (by decide)⟩

/-! ## string.ord and string.chr -/

/-- string.c:51-81 `bin_chr`; the value is cut to `int`, the encoder takes an `uint32_t`. -/
def chr : Arg → Exec Ret
  | .int v => do
    let bs ← Utf8.encode 32 (UInt32.ofNat (toU32 (toI32 v)))
    let s ← fromString bs bs.length
    .ok (.str s)
  | _ => .err

/-- string.c:11-49 `bin_ord`; a failing decoder leaves 0 in `ret`. -/
def ord : Arg → Exec Ret
  | .str s =>
    if s.bytes = 0 then .err
    else match Utf8.decode s.body 0 s.bytes with
      | .ok (c, _) => .ok (.int c)
      | .err => .ok (.int 0)
      | .ub => .ub
      | .diverge => .diverge
  | _ => .err

/-- The full statement. -/
def C64Statement : Prop := ∀ v : Int, IsI64 v →
  (0 ≤ v ∧ v ≤ 0x10FFFF → ∃ s, chr (.int v) = .ok (.str s) ∧ ord (.str s) = .ok (.int v)) ∧
  (¬ (0 ≤ v ∧ v ≤ 0x10FFFF) → chr (.int v) = .err)

/-- `chr` for every integer: the character whose code point is the value modulo 2^32. -/
theorem chr_spec (v : Int) :
    (toU32 v ≤ 0x10FFFF → chr (.int v) = .ok (.str (mk [Utf8.Spec.encode (toU32 v)]))) ∧
    (0x10FFFF < toU32 v → chr (.int v) = .err) := by
  have hu : toU32 (toI32 v) = toU32 v := by
    unfold toU32 toI32; have := Int.bmod_emod (x := v) (m := 2 ^ 32)
    congr 1
  have hlt : toU32 v < 2 ^ 32 := by unfold toU32; omega
  have hn : (UInt32.ofNat (toU32 v)).toNat = toU32 v := by
    rw [UInt32.toNat_ofNat']; exact Nat.mod_eq_of_lt hlt
  constructor
  · intro h
    unfold chr
    simp only [hu]
    rw [Utf8.C01_encode, hn, if_pos ⟨h, Nat.le_trans (Utf8.encode_length_le _ h) (by decide)⟩, Exec.bind_ok]
    have := Str.fromString_units (ps := [Utf8.Spec.encode (toU32 v)])
      (by intro u hu'; simp at hu'; subst hu'; exact ⟨_, Utf8.isUnit_encode _ h⟩) []
    rw [List.flatten_cons, List.flatten_nil, List.append_nil, List.append_nil] at this
    rw [this]; rfl
  · intro h
    unfold chr
    simp only [hu]
    rw [Utf8.C01_encode, hn, if_neg (by omega)]; rfl

/-- C64 for integers of 32 bits.  Missing: larger ones, of which `chr` only looks at the low 32
bits. -/
theorem C64_ord_chr_partial (v : Int) (hv : IsI32 v) :
    (0 ≤ v ∧ v ≤ 0x10FFFF → ∃ s, chr (.int v) = .ok (.str s) ∧ ord (.str s) = .ok (.int v)) ∧
    (¬ (0 ≤ v ∧ v ≤ 0x10FFFF) → chr (.int v) = .err) := by
  unfold IsI32 at hv
  have hs := chr_spec v
  constructor
  · rintro ⟨h0, h1⟩
    have e : toU32 v = v.toNat := by unfold toU32; omega
    rw [e] at hs
    refine ⟨_, hs.1 (by omega), ?_⟩
    have hb : (mk [Utf8.Spec.encode v.toNat]).bytes = (Utf8.Spec.encode v.toNat).length := by
      simp [mk]
    have hbd : (mk [Utf8.Spec.encode v.toNat]).body = [] ++ Utf8.Spec.encode v.toNat ++ [0] := by
      simp [mk]
    obtain ⟨hne, hd⟩ := Utf8.isUnit_encode v.toNat (show v.toNat ≤ 0x10FFFF by omega)
    unfold ord
    simp only []
    rw [if_neg (by rw [hb]; exact fun h => hne (List.eq_nil_of_length_eq_zero h)), hb, hbd]
    have := hd [] [0] _ (Nat.le_refl _)
    rw [List.length_nil] at this
    rw [this]
    simp only []
    congr 2; omega
  · intro h
    apply hs.2
    unfold toU32
    omega

/-- Violated: `chr(2^32 + 65)` is "A". -/
theorem C64_violated : ¬ C64Statement := by
  intro h
  have := (h (2 ^ 32 + 65) (by unfold IsI64; omega)).2 (by omega)
  have e := (chr_spec (2 ^ 32 + 65)).1 (by decide)
  rw [this] at e
  cases e

example : IsI32 0x20AC ∧ chr (.int 0x20AC) = .ok (.str (mk [[0xE2, 0x82, 0xAC]])) := by
  refine ⟨by unfold IsI32; omega, by decide⟩

/-! ## buffer.toString and buffer.fromString -/

/-- builtins/buffer.c:64-91 `bin_toString` of buffer `b`. -/
def bufToString (st : Buffer.State) (b : Nat) : Exec Ret := do
  let (buf, p) ← Buffer.deref st b
  let mem := p.body.drop buf.offset
  match Utf8.strlen mem buf.length with
  | .err => .ok (.fail "Buffer doesn't contain valid UTF-8")
  | .ok _ => do
    let s ← fromString mem buf.length
    .ok (.str s)
  | .ub => .ub
  | .diverge => .diverge

/-- builtins/buffer.c:48-62 `bin_fromString`: the new state; the new buffer is the last one. -/
def bufFromString (st : Buffer.State) (s : Str) (mem : Bool) : Exec Buffer.State :=
  if s.body.length < s.bytes then .ub else Buffer.fromBytes st (s.body.take s.bytes) mem

theorem fromBytes_spec (st : Buffer.State) (bytes : List UInt8) (h : bytes.length < 2 ^ 63) :
    Buffer.fromBytes st bytes true = .ok {
      pays := st.pays ++ [{ refs := 1, size := bytes.length, body := bytes, frees := 0 }]
      bufs := st.bufs ++ [{ payload := st.pays.length, offset := 0, length := bytes.length }] } := by
  unfold Buffer.fromBytes Buffer.newBuffer
  rw [if_neg (by simp), if_neg (by rw [Nat.mod_eq_of_lt (by omega)]; omega), Exec.bind_ok]
  have : Buffer.deref {
      pays := st.pays ++ [{ refs := 1, size := bytes.length, body := List.replicate bytes.length 0, frees := 0 }]
      bufs := st.bufs ++ [{ payload := st.pays.length, offset := 0, length := bytes.length }] } st.bufs.length =
      .ok ({ payload := st.pays.length, offset := 0, length := bytes.length },
        { refs := 1, size := bytes.length, body := List.replicate bytes.length 0, frees := 0 }) := by
    unfold Buffer.deref
    have r1 : rd (st.bufs ++ [({ payload := st.pays.length, offset := 0, length := bytes.length } : Buffer.Buf)])
        st.bufs.length = .ok { payload := st.pays.length, offset := 0, length := bytes.length } := by
      rw [rd_ok_iff]; simp
    have r2 : rd (st.pays ++ [({ refs := 1, size := bytes.length, body := List.replicate bytes.length 0, frees := 0 } : Buffer.Payload)])
        st.pays.length = .ok { refs := 1, size := bytes.length, body := List.replicate bytes.length 0, frees := 0 } := by
      rw [rd_ok_iff]; simp
    simp only [r1, r2, Exec.bind_ok, if_true]
  simp only [this, Exec.bind_ok, Buffer.overwrite]
  rw [if_pos (by simp), Exec.bind_ok]
  simp

/-- Valid UTF-8 is the encoding of a text. -/
def ValidUtf8 (bytes : List UInt8) : Prop :=
  ∃ t : List Nat, (∀ c ∈ t, Utf8.Spec.Valid c) ∧ bytes = Utf8.Spec.encodeText t

/-- A buffer of `n` bytes of a payload from `off` on. -/
def HasBytes (st : Buffer.State) (b : Nat) (bytes : List UInt8) : Prop :=
  ∃ buf p, Buffer.deref st b = .ok (buf, p) ∧ buf.offset + buf.length ≤ p.body.length ∧
    bytes = (p.body.drop buf.offset).take buf.length

/-- The full statement. -/
def C71Statement : Prop :=
  (∀ (st st' : Buffer.State) (ps : List (List UInt8)), Units ps → ps.flatten.length < 2 ^ 63 →
    bufFromString st (mk ps) true = .ok st' → bufToString st' st.bufs.length = .ok (.str (mk ps))) ∧
  ∀ (st : Buffer.State) (b : Nat) (bytes : List UInt8), HasBytes st b bytes → ¬ ValidUtf8 bytes →
    ∃ m, bufToString st b = .ok (.fail m)

/-- `toString` gives the bytes of the buffer as text exactly if they divide into sequences the
decoder takes. -/
theorem bufToString_spec (st : Buffer.State) (b : Nat) (bytes : List UInt8) (h : HasBytes st b bytes) :
    (∀ ps, Units ps → ps.flatten = bytes → bufToString st b = .ok (.str (mk ps))) ∧
    ((¬ ∃ ps, Units ps ∧ ps.flatten = bytes) → ∃ m, bufToString st b = .ok (.fail m)) := by
  obtain ⟨buf, p, hd, hl, rfl⟩ := h
  unfold bufToString
  rw [hd, Exec.bind_ok]
  simp only []
  constructor
  · intro ps hu hf
    have hm : p.body.drop buf.offset = ps.flatten ++ (p.body.drop buf.offset).drop buf.length := by
      rw [hf, List.take_append_drop]
    have hlen : buf.length = ps.flatten.length := by
      rw [hf, List.length_take, List.length_drop]; omega
    rw [hm, hlen, Utf8.strlen_units hu]
    simp only []
    rw [Str.fromString_units hu]; rfl
  · intro hn
    rcases Utf8.strlen_spec (p.body.drop buf.offset) buf.length (by rw [List.length_drop]; omega)
      with e | ⟨ps, hu, hf, e⟩
    · rw [e]; exact ⟨_, rfl⟩
    · exact absurd ⟨ps, hu, hf⟩ hn

/-- C71: round trip for every string; `toString` accepts all of valid UTF-8 and otherwise gives a
string of the buffer's bytes or `(none, message)`.  Missing: the decoder takes some byte sequences
that are not UTF-8. -/
theorem C71_conversions_partial :
    (∀ (st : Buffer.State) (ps : List (List UInt8)), Units ps → ps.flatten.length < 2 ^ 63 →
      ∃ st', bufFromString st (mk ps) true = .ok st' ∧
        bufToString st' st.bufs.length = .ok (.str (mk ps))) ∧
    ∀ (st : Buffer.State) (b : Nat) (bytes : List UInt8), HasBytes st b bytes →
      (∀ t, (∀ c ∈ t, Utf8.Spec.Valid c) → bytes = Utf8.Spec.encodeText t →
        bufToString st b = .ok (.str (Str.Spec.ofText t))) ∧
      ((∃ m, bufToString st b = .ok (.fail m)) ∨
        ∃ s, bufToString st b = .ok (.str s) ∧ Str.Spec.contents s = bytes) := by
  constructor
  · intro st ps hu hl
    have hbs : (mk ps).body.take (mk ps).bytes = ps.flatten := List.take_left' rfl
    have e := fromBytes_spec st ps.flatten hl
    refine ⟨{
      pays := st.pays ++ [{ refs := 1, size := ps.flatten.length, body := ps.flatten, frees := 0 }]
      bufs := st.bufs ++ [{ payload := st.pays.length, offset := 0, length := ps.flatten.length }] }, ?_, ?_⟩
    · unfold bufFromString
      rw [if_neg (by simp only [mk, List.length_append]; omega), hbs]
      exact e
    · refine (bufToString_spec _ _ ps.flatten ⟨{ payload := st.pays.length, offset := 0, length := ps.flatten.length },
          { refs := 1, size := ps.flatten.length, body := ps.flatten, frees := 0 }, ?_, ?_, ?_⟩).1 ps hu rfl
      · unfold Buffer.deref
        have r1 : rd (st.bufs ++ [({ payload := st.pays.length, offset := 0, length := ps.flatten.length } : Buffer.Buf)])
            st.bufs.length = .ok { payload := st.pays.length, offset := 0, length := ps.flatten.length } := by
          rw [rd_ok_iff]; simp
        have r2 : rd (st.pays ++ [({ refs := 1, size := ps.flatten.length, body := ps.flatten, frees := 0 } : Buffer.Payload)])
            st.pays.length = .ok { refs := 1, size := ps.flatten.length, body := ps.flatten, frees := 0 } := by
          rw [rd_ok_iff]; simp
        simp only [r1, r2, Exec.bind_ok, if_true]
      · simp only [Nat.zero_add]; exact Nat.le_refl _
      · simp only [List.drop_zero, List.take_length]
  · intro st b bytes h
    have sp := bufToString_spec st b bytes h
    refine ⟨fun t ht hb => ?_, ?_⟩
    · have := sp.1 (t.map Utf8.Spec.encode) (Utf8.units_encodeText t ht) (by rw [hb, Utf8.encodeText_eq])
      rw [this, Str.ofText_eq]
    · by_cases c : ∃ ps, Units ps ∧ ps.flatten = bytes
      · obtain ⟨ps, hu, hf⟩ := c
        refine .inr ⟨_, sp.1 ps hu hf, ?_⟩
        simp only [Str.Spec.contents, mk]
        rw [List.take_left' rfl, hf]
      · exact .inl (sp.2 c)

/-- Violated: a lone continuation byte is taken for text. -/
theorem C71_violated : ¬ C71Statement := by
  intro h
  have hb : HasBytes { pays := [⟨1, 1, [0x80], 0⟩], bufs := [⟨0, 0, 1⟩] } 0 [0x80] :=
    ⟨⟨0, 0, 1⟩, ⟨1, 1, [0x80], 0⟩, rfl, by decide, rfl⟩
  obtain ⟨m, hm⟩ := h.2 _ _ _ hb (by
    rintro ⟨t, ht, e⟩
    cases t with
    | nil => simp [Utf8.Spec.encodeText] at e
    | cons c t =>
      have hc := ht c (by simp)
      simp only [Utf8.Spec.encodeText, List.flatMap_cons] at e
      have hl := congrArg List.length e
      simp only [List.length_append, List.length_singleton] at hl
      obtain ⟨hne, hd⟩ := Utf8.isUnit_encode c hc
      have h1 : (Utf8.Spec.encode c).length ≠ 0 := fun h => hne (List.eq_nil_of_length_eq_zero h)
      have ht : (t.flatMap Utf8.Spec.encode) = [] := List.eq_nil_of_length_eq_zero (by omega)
      rw [ht, List.append_nil] at e
      unfold Utf8.Spec.encode Utf8.Spec.encodeNat at e
      split at e
      · rename_i hlt
        simp at e
        have := congrArg UInt8.toNat e
        simp at this
        omega
      · split at e
        · simp at e
        · split at e
          · simp at e
          · simp at e)
  have e := (bufToString_spec _ _ _ hb).1 [[0x80]]
    (by intro u hu; simp at hu; subst hu; exact ⟨_, Utf8.isUnit1 0x80 (by decide)⟩) rfl
  rw [hm] at e
  cases e

end Noja.Builtin
