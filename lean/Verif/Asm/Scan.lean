import Verif.Asm.Model

/-! # Operands of the assembler: integers (C57) and strings (C54) -/

namespace Noja.Asm

open Exe (Opcode Opd Builder Executable)

set_option linter.unusedSimpArgs false
set_option linter.unusedVariables false

/-! ## Runs of characters -/

theorem takeWhile_run (p : UInt8 → Bool) (a r : List UInt8) (ha : ∀ c ∈ a, p c = true)
    (hr : ∀ c, r.head? = some c → p c = false) : (a ++ r).takeWhile p = a := by
  rw [List.takeWhile_append_of_pos ha]
  cases r with
  | nil => simp
  | cons c r => simp [hr c rfl]

theorem dropWhile_run (p : UInt8 → Bool) (a r : List UInt8) (ha : ∀ c ∈ a, p c = true)
    (hr : ∀ c, r.head? = some c → p c = false) : (a ++ r).dropWhile p = r := by
  rw [List.dropWhile_append_of_pos ha]
  cases r with
  | nil => simp
  | cons c r => simp [hr c rfl]

/-! ## Integers -/

/-- The number written by a string of decimal digits. -/
def decimal (ds : List UInt8) : Nat := ds.foldl (fun a c => a * 10 + (c.toNat - 48)) 0

/-- The largest `long long int`. -/
def maxInt : Int := 9223372036854775807

theorem isDigit_iff (c : UInt8) : isDigit c = true ↔ 48 ≤ c.toNat ∧ c.toNat ≤ 57 := by
  simp [isDigit, UInt8.le_iff_toNat_le]

theorem foldl_ge (ds : List UInt8) : ∀ (a : Nat), a ≤ ds.foldl (fun a c => a * 10 + (c.toNat - 48)) a := by
  induction ds with
  | nil => intro a; exact Nat.le_refl _
  | cons d ds ih =>
    intro a
    simp only [List.foldl_cons]
    have := ih (a * 10 + (d.toNat - 48))
    omega

theorem intLoop_spec (ds : List UInt8) : ∀ (d : UInt8) (r : List UInt8) (a : Nat),
    (∀ c ∈ d :: ds, isDigit c = true) → (∀ c, r.head? = some c → isDigit c = false) →
    intLoop (d :: ds ++ r) a =
      if (((d :: ds).foldl (fun a c => a * 10 + (c.toNat - 48)) a : Nat) : Int) ≤ maxInt then
        .ok ((((d :: ds).foldl (fun a c => a * 10 + (c.toNat - 48)) a : Nat) : Int), r)
      else .err := by
  induction ds with
  | nil =>
    intro d r a hd hr
    have h1 := (isDigit_iff d).mp (hd d (by simp))
    have hh : (r.head?.map isDigit).getD false = false := by
      cases r with
      | nil => rfl
      | cons c r => simp [hr c rfl]
    have ed : ((a * 10 + (d.toNat - 48) : Nat) : Int) = (a : Int) * 10 + ((d.toNat : Int) - 48) := by omega
    rw [show List.foldl (fun (a : Nat) (c : UInt8) => a * 10 + (c.toNat - 48)) a [d] = a * 10 + (d.toNat - 48) from rfl, ed]
    simp only [List.cons_append, List.nil_append, intLoop, hh]
    by_cases hc : (a : Int) > (9223372036854775807 - ((d.toNat : Int) - 48)) / 10
    · rw [if_pos hc, if_neg (by simp only [maxInt]; omega)]
    · rw [if_neg hc, if_neg (by decide), if_pos (by simp only [maxInt]; omega)]
  | cons e ds ih =>
    intro d r a hd hr
    have h1 := (isDigit_iff d).mp (hd d (by simp))
    have h2 : isDigit e = true := hd e (by simp)
    have ed : ((a * 10 + (d.toNat - 48) : Nat) : Int) = (a : Int) * 10 + ((d.toNat : Int) - 48) := by omega
    have hi := ih e r (a * 10 + (d.toNat - 48)) (fun c hc => hd c (List.mem_cons_of_mem _ hc)) hr
    have hg := foldl_ge (e :: ds) (a * 10 + (d.toNat - 48))
    rw [List.foldl_cons]
    generalize hF : List.foldl (fun (a : Nat) (c : UInt8) => a * 10 + (c.toNat - 48)) (a * 10 + (d.toNat - 48)) (e :: ds) = F at *
    rw [List.cons_append, intLoop]
    have hh : (((e :: ds ++ r).head?).map isDigit).getD false = true := by simp [h2]
    simp only [hh]
    by_cases hc : (a : Int) > (9223372036854775807 - ((d.toNat : Int) - 48)) / 10
    · rw [if_pos hc, if_neg (by simp only [maxInt]; omega)]
    · rw [if_neg hc, if_pos trivial, ← ed, hi]

/-- The sign written before an integer. -/
inductive Sign where
  | none | plus | minus

/-- The text of a sign. -/
def Sign.text : Sign → List UInt8
  | .none => []
  | .plus => [43]
  | .minus => [45]

/-- The signed number. -/
def Sign.apply : Sign → Nat → Int
  | .minus, n => -n
  | _, n => n

/-- Text that does not continue a number: no digit, and no dot with a digit. -/
def EndsNumber : List UInt8 → Prop
  | [] => True
  | [c] => isDigit c = false
  | c :: d :: _ => isDigit c = false ∧ (c = 46 → isDigit d = false)

theorem EndsNumber.head {r : List UInt8} (h : EndsNumber r) : ∀ c, r.head? = some c → isDigit c = false := by
  intro c hc
  match r, h with
  | [_], h => simp at hc; subst hc; exact h
  | _ :: _ :: _, h => simp at hc; subst hc; exact h.1

theorem digit_not_sign {c : UInt8} (h : isDigit c = true) : c ≠ 43 ∧ c ≠ 45 ∧ c ≠ 34 := by
  have := (isDigit_iff c).mp h
  refine ⟨?_, ?_, ?_⟩ <;> · rintro rfl; simp at this

theorem parseIntegerOperand_spec (sg : Sign) (d : UInt8) (ds r : List UInt8) (hd : ∀ c ∈ d :: ds, isDigit c = true)
    (hr : ∀ c, r.head? = some c → isDigit c = false) :
    parseIntegerOperand (sg.text ++ (d :: ds ++ r)) =
      if (decimal (d :: ds) : Int) ≤ maxInt then .ok (.int (sg.apply (decimal (d :: ds))), r) else .err := by
  have key := intLoop_spec ds d r 0 hd hr
  have ns := digit_not_sign (hd d (by simp))
  have ec : ((0 : Nat) : Int) = 0 := rfl
  rw [ec] at key
  cases sg with
  | none =>
    have : parseIntegerOperand (d :: ds ++ r) = (do
        let (v, r) ← intLoop (d :: ds ++ r) 0
        .ok (.int v, r)) := by
      rw [List.cons_append]
      simp only [parseIntegerOperand]
      split
      · rename_i h; simp at h; exact absurd h.1 ns.1
      · rename_i h; simp at h; exact absurd h.1 ns.2.1
      · rfl
    show parseIntegerOperand (d :: ds ++ r) = _
    rw [this, key]
    unfold decimal
    split <;> rfl
  | plus =>
    show (do
        let (v, r) ← intLoop (d :: ds ++ r) 0
        .ok (Opd.int v, r)) = _
    rw [key]
    unfold decimal
    split <;> rfl
  | minus =>
    show (do
        let (v, r) ← intLoop (d :: ds ++ r) 0
        .ok (Opd.int (-1 * v), r)) = _
    rw [key]
    unfold decimal
    split
    · show Exec.ok _ = Exec.ok _
      congr 3
      show -1 * _ = -_
      omega
    · rfl

/-- **C57**: an integer operand is exactly the number its digits write, with its sign, and the text
after it is what comes next; if the digits write more than `2^63 - 1` there is an error. -/
theorem C57_integers (flt : Bool → List UInt8 → List UInt8 → BitVec 64) (past : UInt8) (ll : Labels.LL)
    (sg : Sign) (ds r : List UInt8) (hne : ds ≠ []) (hd : ∀ c ∈ ds, isDigit c = true) (hr : EndsNumber r) :
    parseOperand flt past (sg.text ++ (ds ++ r)) ll =
      if (decimal ds : Int) ≤ 2 ^ 63 - 1 then .ok (.int (sg.apply (decimal ds)), r, ll) else .err := by
  obtain ⟨d, ds, rfl⟩ : ∃ d ds', ds = d :: ds' := by
    cases ds with
    | nil => exact absurd rfl hne
    | cons d ds => exact ⟨d, ds, rfl⟩
  have hd0 : isDigit d = true := hd d (by simp)
  have ns := digit_not_sign hd0
  have hnum : parseNumber flt (sg.text ++ (d :: ds ++ r)) = parseIntegerOperand (sg.text ++ (d :: ds ++ r)) := by
    have hk : (if ((sg.text ++ (d :: ds ++ r)).head? == some 45 || (sg.text ++ (d :: ds ++ r)).head? == some 43) = true
        then (sg.text ++ (d :: ds ++ r)).tail else sg.text ++ (d :: ds ++ r)) = d :: ds ++ r := by
      cases sg <;> simp [Sign.text, ns]
    unfold parseNumber
    simp only [hk]
    rw [dropWhile_run isDigit _ _ hd hr.head]
    have hh : ((d :: ds ++ r).head?.map isDigit).getD false = true := by simp [hd0]
    rw [hh]
    simp only [Bool.not_true, Bool.and_false, Bool.false_eq_true, if_false]
    split
    · rename_i c r' 
      have : isDigit c = false := hr.2 rfl
      simp [this]
    · rfl
  have hp := parseIntegerOperand_spec sg d ds r hd hr.head
  have hmax : (2 ^ 63 - 1 : Int) = maxInt := rfl
  rw [hmax]
  have hop : parseOperand flt past (sg.text ++ (d :: ds ++ r)) ll = (do
      let (o, r) ← parseNumber flt (sg.text ++ (d :: ds ++ r))
      .ok (o, r, ll)) := by
    cases sg with
    | none =>
      show parseOperand flt past (d :: (ds ++ r)) ll = _
      simp only [parseOperand]
      rw [if_neg ns.2.2, if_pos (by simp [hd0])]
      rfl
    | plus => rfl
    | minus => rfl
  rw [hop, hnum, hp]
  split <;> rfl

example : parseOperand (fun _ _ _ => 0) 0 (bytes "-9223372036854775807;") Labels.new =
    .ok (.int (-9223372036854775807), bytes ";", Labels.new) ∧
    parseOperand (fun _ _ _ => 0) 0 (bytes "9223372036854775808") Labels.new = .err := by
  refine ⟨?_, ?_⟩
  · have := C57_integers (fun _ _ _ => 0) 0 Labels.new .minus (bytes "9223372036854775807") (bytes ";")
      (by decide) (by decide) (by simp [bytes, EndsNumber]; decide)
    exact this
  · have := C57_integers (fun _ _ _ => 0) 0 Labels.new .none (bytes "9223372036854775808") []
      (by decide) (by decide) trivial
    exact this

/-! ## Strings -/

/-- The documented way to write a character of a string. -/
def escape (c : UInt8) : List UInt8 := if c = 34 ∨ c = 92 then [92, c] else [c]

/-- A text as it is written between quotes. -/
def escapes (s : List UInt8) : List UInt8 := s.flatMap escape

/-- A spelling of a text between quotes: a quote and a backslash are written with a backslash, so may be a line feed, a
tab and a carriage return, and every other byte stands for itself. -/
inductive Spelled : List UInt8 → List UInt8 → Prop
  | nil : Spelled [] []
  | plain {c : UInt8} {b s : List UInt8} : c ≠ 34 → c ≠ 92 → Spelled b s → Spelled (c :: b) (c :: s)
  | esc {e c : UInt8} {b s : List UInt8} :
      (e, c) ∈ [((34 : UInt8), (34 : UInt8)), (92, 92), (110, 10), (116, 9), (114, 13)] → Spelled b s →
      Spelled (92 :: e :: b) (c :: s)

theorem Spelled.escapes : ∀ s : List UInt8, Spelled (escapes s) s
  | [] => .nil
  | c :: s => by
    have ih := Spelled.escapes s
    by_cases h : c = 34 ∨ c = 92
    · have : Asm.escapes (c :: s) = 92 :: c :: Asm.escapes s := by simp [Asm.escapes, escape, h]
      rw [this]
      refine .esc ?_ ih
      rcases h with rfl | rfl <;> decide
    · have : Asm.escapes (c :: s) = c :: Asm.escapes s := by simp [Asm.escapes, escape, h]
      rw [this]
      exact .plain (fun e => h (.inl e)) (fun e => h (.inr e)) ih

theorem Spelled.length {b s : List UInt8} (h : Spelled b s) : s.length ≤ b.length := by
  induction h with
  | nil => simp
  | plain _ _ _ ih => simpa using ih
  | esc _ _ ih => simp only [List.length_cons]; omega

/-- A spelling starts with plain bytes, then ends or goes on with an escape. -/
theorem Spelled.split {b s : List UInt8} (h : Spelled b s) : ∃ p : List UInt8, (∀ c ∈ p, c ≠ 34 ∧ c ≠ 92) ∧
    ((b = p ∧ s = p) ∨ ∃ e c b' s', unescape e = some c ∧ Spelled b' s' ∧ b = p ++ 92 :: e :: b' ∧ s = p ++ c :: s') := by
  induction h with
  | nil => exact ⟨[], by simp, .inl ⟨rfl, rfl⟩⟩
  | @plain c b s h1 h2 hs ih =>
    obtain ⟨p, hp, ih⟩ := ih
    refine ⟨c :: p, ?_, ?_⟩
    · intro d hd
      rcases List.mem_cons.mp hd with rfl | hd
      · exact ⟨h1, h2⟩
      · exact hp d hd
    · rcases ih with ⟨rfl, rfl⟩ | ⟨e, c', b', s', h3, h4, rfl, rfl⟩
      · exact .inl ⟨rfl, rfl⟩
      · exact .inr ⟨e, c', b', s', h3, h4, rfl, rfl⟩
  | @esc e c b s h1 hs ih =>
    refine ⟨[], by simp, .inr ⟨e, c, b, s, ?_, hs, rfl, rfl⟩⟩
    simp only [List.mem_cons, Prod.mk.injEq, List.not_mem_nil, or_false] at h1
    rcases h1 with ⟨rfl, rfl⟩ | ⟨rfl, rfl⟩ | ⟨rfl, rfl⟩ | ⟨rfl, rfl⟩ | ⟨rfl, rfl⟩ <;> rfl

theorem stringLoop_spelled (n : Nat) : ∀ (b s r buffer : List UInt8), Spelled b s → s.length < n → buffer.length ≤ 1024 →
    stringLoop n (b ++ 34 :: r) buffer =
      if buffer.length + s.length ≤ 1024 then .ok (buffer ++ s, r) else .err := by
  induction n with
  | zero => intro b s r buffer _ h; omega
  | succ n ih =>
    intro b s r buffer hsp hn hb
    obtain ⟨p, hp, hcase⟩ := hsp.split
    have hpp : ∀ c ∈ p, (c != 92 && c != 34) = true := by
      intro c hc; simp [hp c hc]
    rcases hcase with ⟨e1, e2⟩ | ⟨e, c, b', s', hu, hs', rfl, rfl⟩
    · rw [e1, e2]
      unfold stringLoop
      rw [takeWhile_run _ p (34 :: r) hpp (by simp), dropWhile_run _ p (34 :: r) hpp (by simp)]
      dsimp only
      by_cases hc : buffer.length + p.length > 1024
      · rw [if_pos hc, if_neg (by omega)]
      · rw [if_neg hc, if_pos (by omega)]; rfl
    · have assoc : p ++ 92 :: e :: b' ++ 34 :: r = p ++ 92 :: e :: (b' ++ 34 :: r) := by simp
      rw [assoc]
      unfold stringLoop
      rw [takeWhile_run _ p (92 :: e :: (b' ++ 34 :: r)) hpp (by simp),
        dropWhile_run _ p (92 :: e :: (b' ++ 34 :: r)) hpp (by simp)]
      dsimp only
      simp only [List.length_append, List.length_cons] at hn ⊢
      by_cases hc : buffer.length + p.length > 1024
      · rw [if_pos hc, if_neg (by omega)]
      · rw [if_neg hc, hu]
        by_cases hc2 : buffer.length + p.length + 1 > 1024
        · simp only [List.length_append, if_pos hc2]
          rw [if_neg (by omega)]; rfl
        · simp only [List.length_append, if_neg hc2]
          have hbl : (buffer ++ p ++ [c]).length = buffer.length + p.length + 1 := by simp; omega
          have hi := ih b' s' r (buffer ++ p ++ [c]) hs' (by omega) (by omega)
          rw [hbl] at hi
          have ha : buffer ++ p ++ [c] ++ s' = buffer ++ (p ++ c :: s') := by simp
          rw [ha] at hi
          have hsum : buffer.length + (p.length + (s'.length + 1)) = buffer.length + p.length + 1 + s'.length := by omega
          rw [hsum, ← hi]
          cases hs' with
          | nil =>
            have : (if buffer.length + p.length + 1 + ([] : List UInt8).length ≤ 1024
                then Exec.ok (buffer ++ (p ++ [c]), r) else Exec.err) = Exec.ok (buffer ++ (p ++ [c]), r) := by
              rw [if_pos (by simp; omega)]
            rw [hi, this]
            show Exec.ok (buffer ++ p ++ [c], r) = _
            simp
          | @plain f _ _ h1 _ _ =>
            show (if f = 34 then _ else _) = _
            rw [if_neg h1]
          | esc _ _ => rfl

/-- C54 for the assembler: a quoted text of up to 1024 bytes without NUL, spelled with the escapes for quotes,
backslashes, line feeds, tabs and carriage returns, is read as that text; a longer one is refused. -/
theorem C54_assembler {b s : List UInt8} (r : List UInt8) (hb : Spelled b s) (hs : (0 : UInt8) ∉ s) :
    parseStringOperand (34 :: (b ++ 34 :: r)) = if s.length ≤ 1024 then .ok (.str s, r) else .err := by
  unfold parseStringOperand
  have hl := hb.length
  rw [show (34 :: (b ++ 34 :: r)).tail = b ++ 34 :: r from rfl,
    stringLoop_spelled _ b s r [] hb (by simp; omega) (by simp)]
  simp only [List.length_nil, Nat.zero_add, List.nil_append]
  have : s.takeWhile (· ≠ 0) = s := Str.takeWhile_eq_self_of_noNul s hs
  split
  · show Exec.ok _ = _
    rw [this]
  · rfl

example : parseStringOperand (bytes "\"a\\tb\\n\\\"\", 3") = .ok (.str (bytes "a\tb\n\""), bytes ", 3") := by
  refine C54_assembler (b := bytes "a\\tb\\n\\\"") (s := bytes "a\tb\n\"") (bytes ", 3") ?_ (by decide)
  exact .plain (by decide) (by decide) (.esc (by decide) (.plain (by decide) (by decide) (.esc (by decide) (.esc (by decide) .nil))))

/-- Every text can be spelled: with a backslash before quotes and backslashes. -/
theorem parseStringOperand_spec (s r : List UInt8) (hs : (0 : UInt8) ∉ s) :
    parseStringOperand (34 :: (escapes s ++ 34 :: r)) =
      if s.length ≤ 1024 then .ok (.str s, r) else .err :=
  C54_assembler r (Spelled.escapes s) hs

example : parseStringOperand (bytes "\"say \\\"hi\\\\\\\"\", 3") = .ok (.str (bytes "say \"hi\\\""), bytes ", 3") := by
  have := parseStringOperand_spec (bytes "say \"hi\\\"") (bytes ", 3") (by decide)
  exact this

end Noja.Asm
