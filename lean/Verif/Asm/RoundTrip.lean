import Verif.Asm.Scan

/-! # Printing a program and assembling it (C58) -/

namespace Noja.Asm

open Exe (Opcode OpType Opd FOpd Builder Executable optypes Ev App build appends given opdValue)

set_option linter.unusedSimpArgs false
set_option linter.unusedVariables false

/-! ## Printing -/

/-- The decimal digits of a number. -/
def dec (n : Nat) : List UInt8 :=
  if n < 10 then [(48 + n).toUInt8] else dec (n / 10) ++ [(48 + n % 10).toUInt8]

/-- The label printed for instruction `k`. -/
def label (k : Nat) : List UInt8 := 76 :: dec k

/-- How a floating-point number is written: sign, digits before the dot, digits after it. -/
structure Digits where
  neg : Bool
  whole : List UInt8
  frac : List UInt8

/-- The text of an operand; `num` says how to write floating-point numbers. -/
def printOpd (num : BitVec 64 → Digits) : FOpd → List UInt8
  | .idx v => label v.toNat
  | .int v => if v < 0 then 45 :: dec (-v).toNat else dec v.toNat
  | .float x => (if (num x).neg then [45] else []) ++ ((num x).whole ++ 46 :: (num x).frac)
  | .str s => 34 :: (escapes s ++ [34])

/-- Operands after the first. -/
def printMore (num : BitVec 64 → Digits) : List FOpd → List UInt8
  | [] => []
  | o :: os => 44 :: 32 :: (printOpd num o ++ printMore num os)

/-- All operands. -/
def printOpds (num : BitVec 64 → Digits) : List FOpd → List UInt8
  | [] => []
  | o :: os => 32 :: (printOpd num o ++ printMore num os)

/-- One line: `L3: PUSHINT 5;` -/
def printLine (num : BitVec 64 → Digits) (k : Nat) (i : Opcode × List FOpd) : List UInt8 :=
  label k ++ 58 :: 32 :: (opName i.1 ++ (printOpds num i.2 ++ [59, 10]))

/-- A program, the first instruction being number `k`. -/
def print (num : BitVec 64 → Digits) : Nat → List (Opcode × List FOpd) → List UInt8
  | _, [] => []
  | k, i :: is => printLine num k i ++ print num (k + 1) is

/-! ## Statement -/

/-- An operand has the type its instruction asks for. -/
def KindOf : OpType → FOpd → Prop
  | .idx, .idx _ => True
  | .int, .int _ => True
  | .float, .float _ => True
  | .str, .str _ => True
  | _, _ => False

/-- The operand can be held by an instruction of a program of `n` instructions: jump targets are
instructions, integers have 64 bits, strings are C strings. -/
def Holds (n : Nat) : FOpd → Prop
  | .idx v => 0 ≤ v ∧ v < n
  | .int v => -2 ^ 63 ≤ v ∧ v < 2 ^ 63
  | .float _ => True
  | .str s => (0 : UInt8) ∉ s

/-- A program. -/
def Program (prog : List (Opcode × List FOpd)) : Prop :=
  ∀ i ∈ prog, i.2.length = (optypes i.1).length ∧
    (∀ (j : Nat) t o, (optypes i.1)[j]? = some t → i.2[j]? = some o → KindOf t o) ∧
    ∀ o ∈ i.2, Holds prog.length o

/-- What the notation can express, given how it reads decimal fractions: integers other than the
smallest, strings of up to 1024 bytes, floating-point numbers that some decimal fraction is read
as. -/
def Writable (flt : Bool → List UInt8 → List UInt8 → BitVec 64) (num : BitVec 64 → Digits) : FOpd → Prop
  | .idx _ => True
  | .int v => v ≠ -2 ^ 63
  | .float x => flt (num x).neg (num x).whole (num x).frac = x ∧ (num x).whole ≠ [] ∧ (num x).frac ≠ [] ∧
      (∀ c ∈ (num x).whole, isDigit c = true) ∧ ∀ c ∈ (num x).frac, isDigit c = true
  | .str s => s.length ≤ 1024

/-- **C58**, full statement: every program has a text that is assembled, without an error, to it. -/
def C58Statement (flt : Bool → List UInt8 → List UInt8 → BitVec 64) (past : UInt8) : Prop :=
  ∀ prog, Program prog → ∃ text e, assemble flt past text = .ok (e, false) ∧ ∀ i, Exe.fetch e i = prog[i]?

/-! ## Characters -/

theorem digitChar (d : Nat) (h : d < 10) : ((48 + d).toUInt8).toNat = 48 + d ∧ isDigit (48 + d).toUInt8 = true := by
  have : ((48 + d).toUInt8).toNat = 48 + d := by
    show (48 + d) % 256 = 48 + d
    omega
  refine ⟨this, ?_⟩
  rw [isDigit_iff, this]
  omega

theorem dec_digits (n : Nat) : (∀ c ∈ dec n, isDigit c = true) ∧ dec n ≠ [] ∧ decimal (dec n) = n := by
  induction n using Nat.strongRecOn with
  | ind n ih =>
    unfold dec
    by_cases h : n < 10
    · rw [if_pos h]
      have := digitChar n h
      refine ⟨by simpa using this.2, by simp, ?_⟩
      show 0 * 10 + ((48 + n).toUInt8.toNat - 48) = n
      rw [this.1]
      omega
    · rw [if_neg h]
      obtain ⟨h1, h2, h3⟩ := ih (n / 10) (by omega)
      have := digitChar (n % 10) (by omega)
      refine ⟨?_, by simp, ?_⟩
      · intro c hc
        rcases List.mem_append.mp hc with hc | hc
        · exact h1 c hc
        · rw [List.mem_singleton.mp hc]; exact this.2
      · unfold decimal at h3 ⊢
        rw [List.foldl_append, h3]
        simp only [List.foldl_cons, List.foldl_nil, this.1]
        omega

theorem digit_ident {c : UInt8} (h : isDigit c = true) : identChar c = true ∧ isSpace c = false ∧ c ≠ 0 ∧ c ≠ 58 ∧
    c ≠ 59 ∧ c ≠ 44 := by
  have := (isDigit_iff c).mp h
  refine ⟨by simp [identChar, h], ?_, ?_, ?_, ?_, ?_⟩
  · simp only [isSpace, UInt8.le_iff_toNat_le, Bool.or_eq_false_iff, Bool.and_eq_false_iff, decide_eq_false_iff_not, beq_eq_false_iff_ne]
    refine ⟨.inr ?_, ?_⟩
    · show ¬ c.toNat ≤ 13
      omega
    · rintro rfl; simp at this
  all_goals rintro rfl; simp at this

theorem label_chars (k : Nat) : ∀ c ∈ label k, identChar c = true ∧ c ≠ 0 := by
  intro c hc
  rcases List.mem_cons.mp hc with rfl | hc
  · decide
  · have := digit_ident ((dec_digits k).1 c hc)
    exact ⟨this.1, this.2.2.1⟩

theorem label_name (k : Nat) : Labels.Name (label k) := fun h => (label_chars k 0 h).2 rfl

theorem label_inj {j k : Nat} (h : label j = label k) : j = k := by
  have h : dec j = dec k := (List.cons.inj h).2
  rw [← (dec_digits j).2.2, ← (dec_digits k).2.2, h]

theorem opName_spec (op : Opcode) : (∀ c ∈ opName op, identChar c = true) ∧ opcodeByName (opName op) = some op ∧
    ∃ c r, opName op = c :: r ∧ identStart c = true ∧ isSpace c = false := by
  cases op <;> refine ⟨by decide, by decide, _, _, rfl, by decide, by decide⟩

/-! ## Operands -/

/-- What an operand is parsed to. -/
def Parsed (ll : Labels.LL) (f : FOpd) (o : Opd) : Prop :=
  match f with
  | .idx v => ∃ p, o = .promise p ∧ Labels.Has ll (label v.toNat) p
  | .int v => o = .int v
  | .float x => o = .float x
  | .str s => o = .str s

theorem Parsed.mono {ll ll' : Labels.LL} (h : ∀ m q, Labels.Has ll m q → Labels.Has ll' m q) {f : FOpd} {o : Opd}
    (hp : Parsed ll f o) : Parsed ll' f o := by
  cases f with
  | idx v =>
    obtain ⟨p, e, hh⟩ := hp
    exact ⟨p, e, h _ _ hh⟩
  | _ => exact hp

/-- The labels an operand uses. -/
def uses : FOpd → List Labels.Op
  | .idx v => [.use (label v.toNat)]
  | _ => []

theorem endsNumber_sep {c : UInt8} (h : c = 44 ∨ c = 59) (r : List UInt8) : EndsNumber (c :: r) := by
  cases r with
  | nil => rcases h with rfl | rfl <;> exact rfl
  | cons d r => rcases h with rfl | rfl <;> exact ⟨by decide, by intro h; simp at h⟩

theorem parseOperand_print (flt : Bool → List UInt8 → List UInt8 → BitVec 64) (past : UInt8) (num : BitVec 64 → Digits)
    (n : Nat) (f : FOpd) (hh : Holds n f) (hw : Writable flt num f) (c : UInt8) (r : List UInt8) (hc : c = 44 ∨ c = 59)
    (ll : Labels.LL) (hist : List Labels.Op) (hi : Labels.Inv ll hist) :
    ∃ o ll', parseOperand flt past (printOpd num f ++ c :: r) ll = .ok (o, c :: r, ll') ∧
      Labels.Inv ll' (hist ++ uses f) ∧ Parsed ll' f o ∧ ∀ m q, Labels.Has ll m q → Labels.Has ll' m q := by
  have hcd : isDigit c = false := by rcases hc with rfl | rfl <;> decide
  have hci : identChar c = false := by rcases hc with rfl | rfl <;> decide
  cases f with
  | idx v =>
    obtain ⟨ll', p, h1, h2, h3, h4⟩ := Labels.getLabel_spec ll hist hi (label v.toNat) (label_name _)
    refine ⟨.promise p, ll', ?_, h2, ⟨p, rfl, h3⟩, h4⟩
    have e1 : identifier (label v.toNat ++ c :: r) = label v.toNat :=
      takeWhile_run _ _ _ (fun x hx => (label_chars _ x hx).1) (by simpa using hci)
    have e2 : skipIdentifier (label v.toNat ++ c :: r) = c :: r :=
      dropWhile_run _ _ _ (fun x hx => (label_chars _ x hx).1) (by simpa using hci)
    show (do
      let (ll, p) ← Labels.getLabel ll (identifier (label v.toNat ++ c :: r))
      .ok (Opd.promise p, skipIdentifier (label v.toNat ++ c :: r), ll)) = _
    rw [e1, h1, e2]
    rfl
  | int v =>
    obtain ⟨hv1, hv2⟩ := hh
    have hw : v ≠ -2 ^ 63 := hw
    refine ⟨.int v, ll, ?_, by simpa [uses] using hi, rfl, fun _ _ h => h⟩
    simp only [printOpd]
    by_cases hneg : v < 0
    · obtain ⟨d1, d2, d3⟩ := dec_digits (-v).toNat
      rw [if_pos hneg]
      have := C57_integers flt past ll .minus (dec (-v).toNat) (c :: r) d2 d1 (endsNumber_sep hc r)
      rw [d3, if_pos (by omega)] at this
      have e : Sign.minus.apply (-v).toNat = v := by simp only [Sign.apply]; omega
      rw [e] at this
      exact this
    · obtain ⟨d1, d2, d3⟩ := dec_digits v.toNat
      rw [if_neg hneg]
      have := C57_integers flt past ll .none (dec v.toNat) (c :: r) d2 d1 (endsNumber_sep hc r)
      rw [d3, if_pos (by omega)] at this
      have e : Sign.none.apply v.toNat = v := by simp only [Sign.apply]; omega
      rw [e] at this
      exact this
  | float x =>
    obtain ⟨hx, h1, h2, h3, h4⟩ := hw
    refine ⟨.float x, ll, ?_, by simpa [uses] using hi, rfl, fun _ _ h => h⟩
    simp only [printOpd]
    generalize num x = w at *
    obtain ⟨neg, whole, frac⟩ := w
    obtain ⟨a, whole, rfl⟩ := List.exists_cons_of_ne_nil h1
    obtain ⟨b, frac, rfl⟩ := List.exists_cons_of_ne_nil h2
    have ha : isDigit a = true := h3 a (by simp)
    have hb : isDigit b = true := h4 b (by simp)
    have ns := digit_not_sign ha
    dsimp only at hx h3 h4 ⊢
    have d1 : (a :: whole ++ 46 :: b :: (frac ++ c :: r)).takeWhile isDigit = a :: whole :=
      takeWhile_run _ _ _ h3 (by intro c hc; simp at hc; subst hc; decide)
    have d2 : (a :: whole ++ 46 :: b :: (frac ++ c :: r)).dropWhile isDigit = 46 :: b :: (frac ++ c :: r) :=
      dropWhile_run _ _ _ h3 (by intro c hc; simp at hc; subst hc; decide)
    have d3 : (b :: frac ++ c :: r).takeWhile isDigit = b :: frac := takeWhile_run _ _ _ h4 (by simpa using hcd)
    have d4 : (b :: frac ++ c :: r).dropWhile isDigit = c :: r := dropWhile_run _ _ _ h4 (by simpa using hcd)
    have e46 : (46 :: b :: (frac ++ c :: r)).tail = b :: frac ++ c :: r := rfl
    cases neg with
    | false =>
      have et : (if (false : Bool) = true then [45] else []) ++ (a :: whole ++ 46 :: b :: frac) ++ c :: r =
          a :: whole ++ 46 :: b :: (frac ++ c :: r) := by simp
      rw [et]
      have hd : (a :: whole ++ 46 :: b :: (frac ++ c :: r)).head? = some a := rfl
      have hs1 : (some a == some (45 : UInt8)) = false := by simp [ns]
      have hs2 : (some a == some (43 : UInt8)) = false := by simp [ns]
      have hpn : parseNumber flt (a :: whole ++ 46 :: b :: (frac ++ c :: r)) = .ok (.float x, c :: r) := by
        unfold parseNumber
        simp only [hd, hs1, hs2, Bool.or_self, Bool.false_and, Bool.false_eq_true, if_false]
        rw [d2]
        simp only [hb, if_true]
        unfold parseFloatingOperand
        simp only [hd, hs1, hs2, Bool.or_self, Bool.false_and, Bool.false_eq_true, if_false]
        rw [d1, d2, e46, d3, d4, hx]
      show parseOperand flt past (a :: (whole ++ 46 :: b :: (frac ++ c :: r))) ll = _
      simp only [parseOperand]
      rw [if_neg ns.2.2, if_pos (by simp [ha])]
      rw [List.cons_append] at hpn
      rw [hpn]
      rfl
    | true =>
      have et : (if (true : Bool) = true then [45] else []) ++ (a :: whole ++ 46 :: b :: frac) ++ c :: r =
          45 :: (a :: whole ++ 46 :: b :: (frac ++ c :: r)) := by simp
      rw [et]
      have hd : (45 :: (a :: whole ++ 46 :: b :: (frac ++ c :: r))).head? = some 45 := rfl
      have htl : (45 :: (a :: whole ++ 46 :: b :: (frac ++ c :: r))).tail = a :: whole ++ 46 :: b :: (frac ++ c :: r) := rfl
      have hs1 : (some (45 : UInt8) == some (45 : UInt8)) = true := by decide
      have hd2 : ((a :: whole ++ 46 :: b :: (frac ++ c :: r)).head?.map isDigit).getD false = true := by simp [ha]
      have hpn : parseNumber flt (45 :: (a :: whole ++ 46 :: b :: (frac ++ c :: r))) = .ok (.float x, c :: r) := by
        unfold parseNumber
        simp only [hd, hs1, Bool.true_or, if_true, htl, hd2, Bool.not_true, Bool.and_false, Bool.false_eq_true, if_false]
        rw [d2]
        simp only [hb, if_true]
        unfold parseFloatingOperand
        simp only [hd, hs1, Bool.true_or, if_true, htl]
        rw [d1, d2, e46, d3, d4, hx]
      show (do
        let (o, r) ← parseNumber flt (45 :: (a :: whole ++ 46 :: b :: (frac ++ c :: r)))
        .ok (o, r, ll)) = _
      rw [hpn]
      rfl
  | str s =>
    have hw : s.length ≤ 1024 := hw
    refine ⟨.str s, ll, ?_, by simpa [uses] using hi, rfl, fun _ _ h => h⟩
    have := parseStringOperand_spec s (c :: r) hh
    rw [if_pos hw] at this
    have et : printOpd num (.str s) ++ c :: r = 34 :: (escapes s ++ 34 :: c :: r) := by simp [printOpd]
    rw [et]
    show (do
      let (o, r) ← parseStringOperand (34 :: (escapes s ++ 34 :: c :: r))
      .ok (o, r, ll)) = _
    rw [this]
    rfl

/-- Parsed operands, in order. -/
def ParsedAll (ll : Labels.LL) (fs : List FOpd) (os : List Opd) : Prop :=
  fs.length = os.length ∧ ∀ (j : Nat) f o, fs[j]? = some f → os[j]? = some o → Parsed ll f o

theorem ParsedAll.cons {ll : Labels.LL} {f : FOpd} {o : Opd} {fs : List FOpd} {os : List Opd} (h : Parsed ll f o)
    (hs : ParsedAll ll fs os) : ParsedAll ll (f :: fs) (o :: os) := by
  refine ⟨by simp [hs.1], ?_⟩
  intro j f' o' h1 h2
  cases j with
  | zero => simp at h1 h2; subst h1 h2; exact h
  | succ j => simp at h1 h2; exact hs.2 j f' o' h1 h2

theorem ParsedAll.mono {ll ll' : Labels.LL} (h : ∀ m q, Labels.Has ll m q → Labels.Has ll' m q) {fs : List FOpd}
    {os : List Opd} (hp : ParsedAll ll fs os) : ParsedAll ll' fs os :=
  ⟨hp.1, fun j f o h1 h2 => (hp.2 j f o h1 h2).mono h⟩

theorem skipSpaces_sep {c : UInt8} (h : c = 44 ∨ c = 59) (r : List UInt8) : skipSpaces (c :: r) = c :: r := by
  rcases h with rfl | rfl <;> simp [skipSpaces, isSpace] <;> decide

theorem printOpd_start (flt : Bool → List UInt8 → List UInt8 → BitVec 64) (num : BitVec 64 → Digits) (f : FOpd)
    (hw : Writable flt num f) : ∃ c r, printOpd num f = c :: r ∧ isSpace c = false ∧ c ≠ 59 := by
  have dd : ∀ {l : List UInt8}, l ≠ [] → (∀ c ∈ l, isDigit c = true) → ∃ c r, l = c :: r ∧ isSpace c = false ∧ c ≠ 59 := by
    intro l h1 h2
    obtain ⟨c, r, rfl⟩ := List.exists_cons_of_ne_nil h1
    have := digit_ident (h2 c (by simp))
    exact ⟨c, r, rfl, this.2.1, this.2.2.2.2.1⟩
  cases f with
  | idx v => exact ⟨76, _, rfl, by decide, by decide⟩
  | int v =>
    simp only [printOpd]
    split
    · exact ⟨45, _, rfl, by decide, by decide⟩
    · exact dd (dec_digits _).2.1 (dec_digits _).1
  | float x =>
    obtain ⟨-, h1, -, h3, -⟩ := hw
    obtain ⟨c, r, e, h4, h5⟩ := dd h1 h3
    simp only [printOpd]
    split
    · exact ⟨45, _, rfl, by decide, by decide⟩
    · exact ⟨c, _, by rw [e]; rfl, h4, h5⟩
  | str s => exact ⟨34, _, rfl, by decide, by decide⟩

theorem operandLoop_print (flt : Bool → List UInt8 → List UInt8 → BitVec 64) (past : UInt8) (num : BitVec 64 → Digits)
    (n : Nat) (r : List UInt8) (fs : List FOpd) : ∀ (f : FOpd) (fuel : Nat) (opv : List Opd) (ll : Labels.LL)
    (hist : List Labels.Op), fs.length < fuel → opv.length + fs.length < 8 → (∀ o ∈ f :: fs, Holds n o) →
    (∀ o ∈ f :: fs, Writable flt num o) → Labels.Inv ll hist →
    ∃ os ll', operandLoop flt past fuel (printOpd num f ++ (printMore num fs ++ 59 :: r)) opv ll =
        .ok (opv ++ os, 59 :: r, ll') ∧
      Labels.Inv ll' (hist ++ (f :: fs).flatMap uses) ∧ ParsedAll ll' (f :: fs) os ∧
      ∀ m q, Labels.Has ll m q → Labels.Has ll' m q := by
  induction fs with
  | nil =>
    intro f fuel opv ll hist hf hl hh hw hi
    obtain ⟨fuel, rfl⟩ : ∃ k, fuel = k + 1 := ⟨fuel - 1, by omega⟩
    obtain ⟨o, ll', h1, h2, h3, h4⟩ := parseOperand_print flt past num n f (hh f (by simp)) (hw f (by simp)) 59 r
      (.inr rfl) ll hist hi
    refine ⟨[o], ll', ?_, by simpa using h2, ParsedAll.cons h3 ⟨rfl, by simp⟩, h4⟩
    show operandLoop flt past (fuel + 1) (printOpd num f ++ 59 :: r) opv ll = _
    unfold operandLoop
    rw [h1]
    show (if opv.length = 8 then _ else _) = _
    rw [if_neg (by simp at hl; omega), skipSpaces_sep (.inr rfl)]
    rfl
  | cons g fs ih =>
    intro f fuel opv ll hist hf hl hh hw hi
    simp only [List.length_cons] at hf hl
    obtain ⟨fuel, rfl⟩ : ∃ k, fuel = k + 1 := ⟨fuel - 1, by omega⟩
    obtain ⟨o, ll1, h1, h2, h3, h4⟩ := parseOperand_print flt past num n f (hh f (by simp)) (hw f (by simp)) 44
      (32 :: (printOpd num g ++ (printMore num fs ++ 59 :: r))) (.inl rfl) ll hist hi
    obtain ⟨os, ll', k1, k2, k3, k4⟩ := ih g fuel (opv ++ [o]) ll1 (hist ++ uses f) (by omega) (by simp; omega)
      (fun o ho => hh o (List.mem_cons_of_mem _ ho)) (fun o ho => hw o (List.mem_cons_of_mem _ ho)) h2
    refine ⟨o :: os, ll', ?_, by simpa using k2, ParsedAll.cons (h3.mono k4) k3, fun m q h => k4 m q (h4 m q h)⟩
    have et : printOpd num f ++ (printMore num (g :: fs) ++ 59 :: r) =
        printOpd num f ++ 44 :: 32 :: (printOpd num g ++ (printMore num fs ++ 59 :: r)) := by simp [printMore]
    rw [et]
    unfold operandLoop
    rw [h1]
    show (if opv.length = 8 then _ else _) = _
    rw [if_neg (by omega), skipSpaces_sep (.inl rfl)]
    obtain ⟨c, t, hg, hs, -⟩ := printOpd_start flt num g (hw g (by simp))
    have hsk : skipSpaces (32 :: (printOpd num g ++ (printMore num fs ++ 59 :: r))) =
        printOpd num g ++ (printMore num fs ++ 59 :: r) := by
      rw [hg]
      simp only [skipSpaces, List.cons_append]
      rw [List.dropWhile_cons_of_pos (by decide), List.dropWhile_cons_of_neg (by simp [hs])]
    show (if (44 : UInt8) = 59 then _ else if (44 : UInt8) = 44 then
      operandLoop flt past fuel (skipSpaces (32 :: (printOpd num g ++ (printMore num fs ++ 59 :: r)))) (opv ++ [o]) ll1
      else _) = _
    rw [if_neg (by decide), if_pos rfl, hsk, k1]
    simp

/-! ## Lines -/

theorem optypes_short (op : Opcode) : (optypes op).length ≤ 3 := by cases op <;> decide

theorem parseOperands_print (flt : Bool → List UInt8 → List UInt8 → BitVec 64) (past : UInt8) (num : BitVec 64 → Digits)
    (n : Nat) (r : List UInt8) (fs : List FOpd) (ll : Labels.LL) (hist : List Labels.Op) (hl : fs.length ≤ 8)
    (hh : ∀ o ∈ fs, Holds n o) (hw : ∀ o ∈ fs, Writable flt num o) (hi : Labels.Inv ll hist) :
    ∃ os ll', parseOperands flt past (skipSpaces (printOpds num fs ++ 59 :: r)) ll = .ok (os, 59 :: r, ll') ∧
      Labels.Inv ll' (hist ++ fs.flatMap uses) ∧ ParsedAll ll' fs os ∧
      ∀ m q, Labels.Has ll m q → Labels.Has ll' m q := by
  cases fs with
  | nil =>
    refine ⟨[], ll, ?_, by simpa using hi, ⟨rfl, by simp⟩, fun _ _ h => h⟩
    show parseOperands flt past (skipSpaces (59 :: r)) ll = _
    rw [skipSpaces_sep (.inr rfl)]
    rfl
  | cons f fs =>
    obtain ⟨c, t, hg, hs, hc⟩ := printOpd_start flt num f (hw f (by simp))
    have et : printOpds num (f :: fs) ++ 59 :: r = 32 :: (printOpd num f ++ (printMore num fs ++ 59 :: r)) := by
      simp [printOpds]
    have hsk : skipSpaces (32 :: (printOpd num f ++ (printMore num fs ++ 59 :: r))) =
        printOpd num f ++ (printMore num fs ++ 59 :: r) := by
      rw [hg]
      simp only [skipSpaces, List.cons_append]
      rw [List.dropWhile_cons_of_pos (by decide), List.dropWhile_cons_of_neg (by simp [hs])]
    have hlen : fs.length < (printOpd num f ++ (printMore num fs ++ 59 :: r)).length + 1 := by
      have : fs.length ≤ (printMore num fs).length := by
        clear et hsk hw hh hl
        induction fs with
        | nil => simp
        | cons g fs ih => simp only [printMore, List.length_cons, List.length_append]; omega
      simp only [List.length_append]
      omega
    obtain ⟨os, ll', k1, k2, k3, k4⟩ := operandLoop_print flt past num n r fs f
      ((printOpd num f ++ (printMore num fs ++ 59 :: r)).length + 1) [] ll hist hlen (by simp at hl ⊢; omega) hh hw hi
    refine ⟨os, ll', ?_, k2, k3, k4⟩
    rw [et, hsk]
    have : parseOperands flt past (printOpd num f ++ (printMore num fs ++ 59 :: r)) ll =
        operandLoop flt past ((printOpd num f ++ (printMore num fs ++ 59 :: r)).length + 1)
          (printOpd num f ++ (printMore num fs ++ 59 :: r)) [] ll := by
      rw [hg]
      simp only [List.cons_append, parseOperands]
      rw [if_neg hc]
    rw [this, k1]
    rfl

theorem parseHead_print (k : Nat) (op : Opcode) (rest : List UInt8) (hr : ∀ c, rest.head? = some c → identChar c = false) :
    parseLabelAndOpcode (label k ++ 58 :: 32 :: (opName op ++ rest)) =
      .ok ⟨some (label k), opName op, opName op ++ rest, skipSpaces rest, false⟩ := by
  obtain ⟨n1, n2, c, t, n3, n4, n5⟩ := opName_spec op
  have e1 : identifier (label k ++ 58 :: 32 :: (opName op ++ rest)) = label k :=
    takeWhile_run _ _ _ (fun x hx => (label_chars _ x hx).1) (by intro c hc; simp at hc; subst hc; decide)
  have e2 : skipIdentifier (label k ++ 58 :: 32 :: (opName op ++ rest)) = 58 :: 32 :: (opName op ++ rest) :=
    dropWhile_run _ _ _ (fun x hx => (label_chars _ x hx).1) (by intro c hc; simp at hc; subst hc; decide)
  have e3 : skipSpaces (58 :: 32 :: (opName op ++ rest)) = 58 :: 32 :: (opName op ++ rest) := by
    rw [skipSpaces, List.dropWhile_cons_of_neg (by decide)]
  have e4 : skipSpaces (32 :: (opName op ++ rest)) = opName op ++ rest := by
    rw [n3, skipSpaces, List.dropWhile_cons_of_pos (by decide), List.cons_append,
      List.dropWhile_cons_of_neg (by simp [n5])]
  have e5 : identifier (opName op ++ rest) = opName op := takeWhile_run _ _ _ n1 hr
  have e6 : skipIdentifier (opName op ++ rest) = rest := dropWhile_run _ _ _ n1 hr
  have hu : ∀ t, label k ++ t = 76 :: (dec k ++ t) := fun _ => rfl
  rw [hu]
  simp only [parseLabelAndOpcode]
  rw [← hu, e1, e2, e3]
  simp only [e4]
  rw [n3] at e5 e6 ⊢
  simp only [List.cons_append] at e5 e6 ⊢
  simp only [n4, if_true, e5, e6]
  rfl

theorem build_append (evs evs' : List Ev) : ∀ (b b' : Builder), build evs b = (b', true) →
    build (evs ++ evs') b = build evs' b' := by
  induction evs with
  | nil => intro b b' h; cases h; rfl
  | cons e evs ih =>
    intro b b' h
    cases e with
    | append op opv off len room =>
      simp only [List.cons_append, build] at h ⊢
      generalize Exe.append op opv off len room b = q at *
      obtain ⟨b1, ok⟩ := q
      cases ok with
      | true => exact ih _ _ h
      | false => cases h
    | resolve l v => exact ih _ _ h

theorem storeOps_ok (k : Nat) (ts : List OpType) : ∀ (os : List Opd) (i : Nat) (b : Builder), ts.length = os.length →
    (∀ (j : Nat) t o, ts[j]? = some t → os[j]? = some o → Exe.kindOk t o = true) →
    ∃ b', Exe.storeOps k i ts os b = (b', true) := by
  induction ts with
  | nil => intro os i b hl hk; exact ⟨b, by cases os <;> rfl⟩
  | cons t ts ih =>
    intro os i b hl hk
    cases os with
    | nil => simp at hl
    | cons o os =>
      have h0 : Exe.kindOk t o = true := hk 0 t o rfl rfl
      have hrec : ∀ b, ∃ b', Exe.storeOps k (i + 1) ts os b = (b', true) := fun b =>
        ih os (i + 1) b (by simpa using hl) (fun j t o h1 h2 => hk (j + 1) t o (by simpa using h1) (by simpa using h2))
      cases o with
      | promise l =>
        have : t ≠ .str := by rintro rfl; simp [Exe.kindOk] at h0
        simp only [Exe.storeOps, if_neg this]
        split <;> exact hrec _
      | str s =>
        have : t = .str := by cases t <;> first | rfl | (simp [Exe.kindOk] at h0)
        subst this
        simp only [Exe.storeOps, ne_eq, not_true_eq_false, if_false]
        exact hrec _
      | idx v =>
        have : t = .idx := by cases t <;> first | rfl | (simp [Exe.kindOk] at h0)
        subst this
        simp only [Exe.storeOps, ne_eq, not_true_eq_false, if_false]
        exact hrec _
      | int v =>
        have : t = .int := by cases t <;> first | rfl | (simp [Exe.kindOk] at h0)
        subst this
        simp only [Exe.storeOps, ne_eq, not_true_eq_false, if_false]
        exact hrec _
      | float v =>
        have : t = .float := by cases t <;> first | rfl | (simp [Exe.kindOk] at h0)
        subst this
        simp only [Exe.storeOps, ne_eq, not_true_eq_false, if_false]
        exact hrec _

theorem append_ok (op : Opcode) (opv : List Opd) (off len : Int) (b : Builder) (hl : opv.length = (optypes op).length)
    (hk : ∀ (j : Nat) t o, (optypes op)[j]? = some t → opv[j]? = some o → Exe.kindOk t o = true) :
    ∃ b', Exe.append op opv off len true b = (b', true) := by
  unfold Exe.append
  rw [if_neg (by simp [hl]), if_neg (by simp)]
  exact storeOps_ok _ _ _ _ _ hl.symm hk

/-! ## The main loop -/

/-- The state after the instructions of `prog` before number `k`. -/
structure At (prog : List (Opcode × List FOpd)) (k : Nat) (s : St) (evs : List Ev) (hist : List Labels.Op) : Prop where
  fine : s.occurred = false
  labels : Labels.Inv s.ll hist
  built : build evs Exe.new = (s.b, true)
  count : (appends evs).length = k
  apps : ∀ (j : Nat) a, (appends evs)[j]? = some a → ∃ i, prog[j]? = some i ∧ a.op = i.1 ∧ ParsedAll s.ll i.2 a.opv
  values : (given evs).map Prod.snd = (List.range k).map fun j : Nat => (j : Int)
  named : ∀ (j : Nat) p v, (given evs)[j]? = some (p, v) → Labels.Has s.ll (label j) p
  defined : ∀ j, j < k → Labels.Defined hist (label j)
  mentioned : ∀ o ∈ hist, ∃ j, j < prog.length ∧ o.name = label j

theorem appends_append (a b : List Ev) : appends (a ++ b) = appends a ++ appends b := by
  induction a with
  | nil => rfl
  | cons e a ih => cases e <;> simp [appends, ih]

theorem given_append (a b : List Ev) : given (a ++ b) = given a ++ given b := by
  induction a with
  | nil => rfl
  | cons e a ih => cases e <;> simp [given, ih]

theorem has_unique {ll : Labels.LL} {hist : List Labels.Op} (h : Labels.Inv ll hist) {a b : List UInt8} {p q : Nat}
    (h1 : Labels.Has ll a p) (h2 : Labels.Has ll b q) : p = q ↔ a = b := by
  obtain ⟨i, hi, rfl, rfl⟩ := h1
  obtain ⟨j, hj, rfl, rfl⟩ := h2
  exact Labels.inv_same_id h hi hj

theorem At.lengths {prog : List (Opcode × List FOpd)} {k : Nat} {s : St} {evs : List Ev} {hist : List Labels.Op}
    (h : At prog k s evs hist) : (given evs).length = k ∧ ∀ (j : Nat) p v, (given evs)[j]? = some (p, v) → v = j := by
  have hl : (given evs).length = k := by
    have := congrArg List.length h.values
    simpa using this
  refine ⟨hl, ?_⟩
  intro j p v hj
  have hlt : j < k := by
    rw [← hl]
    exact (List.getElem?_eq_some_iff.mp hj).1
  have := congrArg (fun l => l[j]?) h.values
  simp [hj, hlt] at this
  exact this

theorem At.nodup {prog : List (Opcode × List FOpd)} {k : Nat} {s : St} {evs : List Ev} {hist : List Labels.Op}
    (h : At prog k s evs hist) : ((given evs).map Prod.fst).Nodup := by
  rw [List.nodup_iff_pairwise_ne, List.pairwise_iff_getElem]
  intro i j hi hj hij e
  simp only [List.length_map] at hi hj
  simp only [List.getElem_map] at e
  have h1 := h.named i (given evs)[i].1 (given evs)[i].2 (List.getElem?_eq_getElem hi)
  have h2 := h.named j (given evs)[j].1 (given evs)[j].2 (List.getElem?_eq_getElem hj)
  have := label_inj ((has_unique h.labels h1 h2).mp e)
  omega

theorem assembleOne_print (flt : Bool → List UInt8 → List UInt8 → BitVec 64) (past : UInt8) (num : BitVec 64 → Digits)
    (size : Nat) (prog : List (Opcode × List FOpd)) (hp : Program prog) (hw : ∀ i ∈ prog, ∀ o ∈ i.2, Writable flt num o)
    (k : Nat) (i : Opcode × List FOpd) (hk : prog[k]? = some i) (s : St) (evs : List Ev) (hist : List Labels.Op)
    (h : At prog k s evs hist) (r : List UInt8) :
    ∃ s' evs' hist', assembleOne flt past size (printLine num k i ++ r) s = .ok (10 :: r, s') ∧
      At prog (k + 1) s' evs' hist' := by
  have hmem : i ∈ prog := List.mem_of_getElem? hk
  have hklt : k < prog.length := (List.getElem?_eq_some_iff.mp hk).1
  obtain ⟨hlen, hkind, hhold⟩ := hp i hmem
  have et : printLine num k i ++ r = label k ++ 58 :: 32 :: (opName i.1 ++ (printOpds num i.2 ++ 59 :: 10 :: r)) := by
    simp [printLine]
  have hhead : ∀ c, (printOpds num i.2 ++ 59 :: 10 :: r).head? = some c → identChar c = false := by
    intro c hc
    cases hi2 : i.2 with
    | nil => rw [hi2] at hc; simp [printOpds] at hc; subst hc; decide
    | cons f fs => rw [hi2] at hc; simp [printOpds] at hc; subst hc; decide
  have hinv := (Exe.build_inv evs Exe.new s.b [] [] Exe.inv_new h.built (by simp [Exe.new]) h.nodup (by simp)).1
  simp only [List.nil_append] at hinv
  have hcount : Exe.instrCount s.b = k := by
    show s.b.code.length = k
    rw [hinv.len, h.count]
  obtain ⟨ll1, p, l1, l2, l3, l4⟩ := Labels.step_spec s.ll hist h.labels (.define (label k) k) (label_name k)
  have l1 : Labels.setLabel s.ll (label k) k = .ok (ll1, p) := l1
  have l3 : Labels.Has ll1 (label k) p := l3
  obtain ⟨os, ll2, o1, o2, o3, o4⟩ := parseOperands_print flt past num prog.length (10 :: r) i.2 ll1 _
    (by have := optypes_short i.1; omega) hhold (hw i hmem) l2
  have hk2 : ∀ (j : Nat) t o, (optypes i.1)[j]? = some t → os[j]? = some o → Exe.kindOk t o = true := by
    intro j t o h1 h2
    have hj : j < i.2.length := by
      have := (List.getElem?_eq_some_iff.mp h1).1
      omega
    obtain ⟨f, hf⟩ : ∃ f, i.2[j]? = some f := ⟨_, List.getElem?_eq_getElem hj⟩
    have hkf := hkind j t f h1 hf
    have hpf := o3.2 j f o hf h2
    cases f with
    | idx v =>
      obtain ⟨q, rfl, -⟩ := hpf
      cases t <;> first | rfl | exact hkf.elim
    | int v =>
      have : o = .int v := hpf
      subst this
      cases t <;> first | rfl | exact hkf.elim
    | float v =>
      have : o = .float v := hpf
      subst this
      cases t <;> first | rfl | exact hkf.elim
    | str v =>
      have : o = .str v := hpf
      subst this
      cases t <;> first | rfl | exact hkf.elim
  obtain ⟨b', hb'⟩ := append_ok i.1 os ((size : Int) - (opName i.1 ++ (printOpds num i.2 ++ 59 :: 10 :: r)).length)
    (opName i.1).length (Exe.resolve p k s.b) (by rw [← o3.1, hlen]) hk2
  obtain ⟨-, n2, -⟩ := opName_spec i.1
  refine ⟨⟨ll2, b', false⟩, evs ++ [.resolve p k,
    .append i.1 os ((size : Int) - (opName i.1 ++ (printOpds num i.2 ++ 59 :: 10 :: r)).length) (opName i.1).length true],
    hist ++ [.define (label k) k] ++ i.2.flatMap uses, ?_, ?_⟩
  · rw [et]
    unfold assembleOne
    rw [parseHead_print k i.1 _ hhead]
    dsimp only [bind, Exec.bind]
    rw [hcount, l1]
    dsimp only [bind, Exec.bind]
    rw [n2]
    dsimp only
    rw [o1]
    dsimp only
    rw [hb']
    dsimp only
    rw [h.fine]
    rfl
  · refine ⟨rfl, o2, ?_, ?_, ?_, ?_, ?_, ?_, ?_⟩
    · rw [build_append _ _ _ _ h.built]
      simp only [build, hb']
    · simp [appends_append, appends, h.count]
    · intro j a ha
      rw [appends_append] at ha
      by_cases hj : j < k
      · rw [List.getElem?_append_left (by rw [h.count]; exact hj)] at ha
        obtain ⟨i', h1, h2, h3⟩ := h.apps j a ha
        exact ⟨i', h1, h2, h3.mono fun m q hm => o4 m q (l4 m q hm)⟩
      · rw [List.getElem?_append_right (by rw [h.count]; omega), h.count] at ha
        simp only [appends] at ha
        have hjk : j = k := by
          have := (List.getElem?_eq_some_iff.mp ha).1
          simp at this
          omega
        subst hjk
        simp at ha
        subst ha
        exact ⟨i, hk, rfl, o3⟩
    · rw [given_append, List.map_append, h.values, List.range_succ, List.map_append]
      rfl
    · intro j q v hj
      rw [given_append] at hj
      have hgl := h.lengths.1
      by_cases hjk : j < k
      · rw [List.getElem?_append_left (by rw [hgl]; exact hjk)] at hj
        exact o4 _ _ (l4 _ _ (h.named j q v hj))
      · rw [List.getElem?_append_right (by rw [hgl]; omega), hgl] at hj
        simp only [given] at hj
        have hjk : j = k := by
          have := (List.getElem?_eq_some_iff.mp hj).1
          simp at this
          omega
        subst hjk
        simp at hj
        obtain ⟨rfl, -⟩ := hj
        exact o4 _ _ l3
    · intro j hj
      by_cases hjk : j = k
      · subst hjk
        exact ⟨j, by simp⟩
      · obtain ⟨v, hv⟩ := h.defined j (by omega)
        exact ⟨v, by simp [hv]⟩
    · intro o ho
      rcases List.mem_append.mp ho with ho | ho
      · rcases List.mem_append.mp ho with ho | ho
        · exact h.mentioned o ho
        · simp at ho; subst ho; exact ⟨k, hklt, rfl⟩
      · obtain ⟨f, hf, hu⟩ := List.mem_flatMap.mp ho
        cases f with
        | idx v =>
          simp only [uses, List.mem_singleton] at hu
          subst hu
          have : 0 ≤ v ∧ v < prog.length := hhold _ hf
          exact ⟨v.toNat, by omega, rfl⟩
        | _ => simp [uses] at hu

theorem assembleLoop_print (flt : Bool → List UInt8 → List UInt8 → BitVec 64) (past : UInt8) (num : BitVec 64 → Digits)
    (size : Nat) (prog : List (Opcode × List FOpd)) (hp : Program prog) (hw : ∀ i ∈ prog, ∀ o ∈ i.2, Writable flt num o)
    (rest : List (Opcode × List FOpd)) : ∀ (k fuel : Nat) (s : St) (evs : List Ev) (hist : List Labels.Op) (lead : List UInt8),
    prog.drop k = rest → rest.length < fuel → At prog k s evs hist → (lead = [] ∨ lead = [10]) →
    ∃ s' evs' hist', assembleLoop flt past size fuel (lead ++ print num k rest) s = .ok s' ∧
      At prog prog.length s' evs' hist' := by
  induction rest with
  | nil =>
    intro k fuel s evs hist lead hd hf h hle
    obtain ⟨fuel, rfl⟩ : ∃ n, fuel = n + 1 := ⟨fuel - 1, by omega⟩
    have hk : k = prog.length := by
      have h1 : prog.length ≤ k := List.drop_eq_nil_iff.mp hd
      have h2 : k ≤ prog.length := by
        cases k with
        | zero => omega
        | succ k =>
          have hc := h.count
          obtain ⟨i, hi, -⟩ := h.apps k (appends evs)[k] (List.getElem?_eq_getElem (by omega))
          have := (List.getElem?_eq_some_iff.mp hi).1
          omega
      omega
    refine ⟨s, evs, hist, ?_, hk ▸ h⟩
    rcases hle with rfl | rfl <;> rfl
  | cons i rest ih =>
    intro k fuel s evs hist lead hd hf h hle
    obtain ⟨fuel, rfl⟩ : ∃ n, fuel = n + 1 := ⟨fuel - 1, by omega⟩
    have hk : prog[k]? = some i := by
      have := congrArg (fun l => l[0]?) hd
      simpa using this
    have hd' : prog.drop (k + 1) = rest := by
      have := congrArg List.tail hd
      simpa [List.tail_drop] using this
    obtain ⟨s1, evs1, hist1, a1, a2⟩ := assembleOne_print flt past num size prog hp hw k i hk s evs hist h
      (print num (k + 1) rest)
    obtain ⟨s2, evs2, hist2, b1, b2⟩ := ih (k + 1) fuel s1 evs1 hist1 [10] hd' (by simp at hf; omega) a2 (.inr rfl)
    refine ⟨s2, evs2, hist2, ?_, b2⟩
    have hsk : skipSpaces (lead ++ print num k (i :: rest)) = printLine num k i ++ print num (k + 1) rest := by
      have hb : ∀ t, skipSpaces (76 :: t) = 76 :: t := by
        intro t
        rw [skipSpaces, List.dropWhile_cons_of_neg (by decide)]
      rcases hle with rfl | rfl
      · exact hb _
      · show skipSpaces (10 :: _) = _
        rw [skipSpaces, List.dropWhile_cons_of_pos (by decide)]
        exact hb _
    unfold assembleLoop
    rw [hsk]
    have hcons : printLine num k i ++ print num (k + 1) rest = 76 :: (printLine num k i ++ print num (k + 1) rest).tail := rfl
    rw [hcons]
    dsimp only
    rw [← hcons, a1]
    exact b1

theorem length_print (num : BitVec 64 → Digits) (prog : List (Opcode × List FOpd)) : ∀ k, prog.length ≤ (print num k prog).length := by
  induction prog with
  | nil => intro k; simp
  | cons i is ih =>
    intro k
    have := ih (k + 1)
    simp only [print, printLine, List.length_append, List.length_cons]
    omega

theorem lookup_of_nodup : ∀ (l : List (Nat × Int)) (p : Nat) (v : Int), (l.map Prod.fst).Nodup → (p, v) ∈ l →
    l.lookup p = some v
  | [], _, _, _, h => by simp at h
  | (q, w) :: l, p, v, hn, hm => by
    simp only [List.map_cons, List.nodup_cons] at hn
    rcases List.mem_cons.mp hm with h | h
    · cases h; simp [List.lookup]
    · have hne : p ≠ q := by
        rintro rfl
        exact hn.1 (List.mem_map.mpr ⟨(p, v), h, rfl⟩)
      have := lookup_of_nodup l p v hn.2 h
      rw [List.lookup_cons, beq_eq_false_iff_ne.mpr hne]
      exact this

/-- **C58** for programs the notation can express: a program printed line by line, with a label for
every instruction, is assembled without an error, and the executable fetches exactly the program. -/
theorem C58_partial (flt : Bool → List UInt8 → List UInt8 → BitVec 64) (past : UInt8) (num : BitVec 64 → Digits)
    (prog : List (Opcode × List FOpd)) (hp : Program prog) (hw : ∀ i ∈ prog, ∀ o ∈ i.2, Writable flt num o) :
    ∃ e, assemble flt past (print num 0 prog) = .ok (e, false) ∧ ∀ i, Exe.fetch e i = prog[i]? := by
  have h0 : At prog 0 ⟨Labels.new, Exe.new, false⟩ [] [] := by
    refine ⟨rfl, ?_, rfl, rfl, by simp [appends], rfl, by simp [given], by simp, by simp⟩
    constructor <;> simp [Labels.new, Labels.Defined]
  obtain ⟨s, evs, hist, h1, h⟩ := assembleLoop_print flt past num (print num 0 prog).length prog hp hw prog 0
    ((print num 0 prog).length + 1) _ [] [] [] (by simp) (by have := length_print num prog 0; omega) h0 (.inl rfl)
  have hgl := h.lengths
  have hun : Labels.unresolved s.ll = 0 := by
    unfold Labels.unresolved
    rw [List.length_eq_zero_iff, List.filter_eq_nil_iff]
    intro i hi
    have hm := (h.labels.mentioned i.name).mp (List.mem_map.mpr ⟨i, hi, rfl⟩)
    obtain ⟨o, ho, hno⟩ := List.mem_map.mp hm
    obtain ⟨j, hj, hjn⟩ := h.mentioned o ho
    have := (h.labels.resolved i hi).mpr (by rw [← hno, hjn]; exact h.defined j hj)
    cases hv : i.value with
    | none => rw [hv] at this; simp at this
    | some v => simp
  have hval : ∀ p v, Labels.Has s.ll (label v) p → v < prog.length → (p, (v : Int)) ∈ given evs := by
    intro p v hq hv
    obtain ⟨q, w, hg⟩ : ∃ q w, (given evs)[v]? = some (q, w) :=
      ⟨_, _, List.getElem?_eq_getElem (by rw [hgl.1]; exact hv)⟩
    have hw := hgl.2 v q w hg
    have hh := h.named v q w hg
    have : q = p := (has_unique h.labels hh hq).mpr rfl
    rw [← this, ← hw]
    exact List.mem_of_getElem? hg
  have hall : Exe.AllGiven (appends evs) (given evs) := by
    intro a ha l hl
    obtain ⟨j, hj⟩ := List.mem_iff_getElem?.mp ha
    obtain ⟨i, hi, -, hpa⟩ := h.apps j a hj
    obtain ⟨m, hm⟩ := List.mem_iff_getElem?.mp hl
    have hlt : m < i.2.length := by rw [hpa.1]; exact (List.getElem?_eq_some_iff.mp hm).1
    have hf := List.getElem?_eq_getElem hlt
    have hpf := hpa.2 m _ _ hf hm
    have hho := (hp i (List.mem_of_getElem? hi)).2.2 i.2[m] (List.getElem_mem hlt)
    generalize i.2[m] = f at *
    cases f with
    | idx v =>
      obtain ⟨p, e, hhas⟩ := hpf
      cases e
      have : 0 ≤ v ∧ v < prog.length := hho
      exact ⟨_, hval l v.toNat hhas (by omega)⟩
    | int v => cases hpf
    | float v => cases hpf
    | str v => cases hpf
  obtain ⟨e, he⟩ := Option.isSome_iff_exists.mp ((Exe.C11_finalize evs s.b h.built h.nodup).mpr hall)
  refine ⟨e, ?_, ?_⟩
  · unfold assemble
    rw [List.nil_append] at h1
    rw [h1]
    show (if Labels.unresolved s.ll > 0 then _ else _) = _
    rw [if_neg (by omega), he, h.fine]
  · intro i
    have hcs : Exe.CStrings (appends evs) := by
      intro a ha t ht
      obtain ⟨j, hj⟩ := List.mem_iff_getElem?.mp ha
      obtain ⟨i, hi, -, hpa⟩ := h.apps j a hj
      obtain ⟨m, hm⟩ := List.mem_iff_getElem?.mp ht
      have hlt : m < i.2.length := by rw [hpa.1]; exact (List.getElem?_eq_some_iff.mp hm).1
      have hf := List.getElem?_eq_getElem hlt
      have hpf := hpa.2 m _ _ hf hm
      have hho := (hp i (List.mem_of_getElem? hi)).2.2 i.2[m] (List.getElem_mem hlt)
      generalize i.2[m] = f at *
      cases f with
      | idx v =>
        obtain ⟨p, e, hhas⟩ := hpf
        cases e
      | int v => cases hpf
      | float v => cases hpf
      | str v => cases hpf; exact hho
    rw [Exe.C11_fetch evs s.b e h.built he hcs h.nodup i]
    cases hai : (appends evs)[i]? with
    | none =>
      have : prog.length ≤ i := by
        have := List.getElem?_eq_none_iff.mp hai
        rw [h.count] at this
        exact this
      rw [List.getElem?_eq_none this]
      rfl
    | some a =>
      obtain ⟨ins, hi, hop, hpa⟩ := h.apps i a hai
      rw [hi]
      show some (a.op, _) = some ins
      rw [hop]
      obtain ⟨hlen, hkind, hhold⟩ := hp ins (List.mem_of_getElem? hi)
      have : List.zipWith (opdValue (given evs)) (optypes ins.1) a.opv = ins.2 := by
        apply List.ext_getElem?
        intro m
        rw [List.getElem?_zipWith]
        by_cases hm : m < ins.2.length
        · have hf := List.getElem?_eq_getElem hm
          have ho : a.opv[m]? = some (a.opv[m]'(by rw [← hpa.1]; exact hm)) := List.getElem?_eq_getElem _
          have ht : (optypes ins.1)[m]? = some ((optypes ins.1)[m]'(by rw [← hlen]; exact hm)) := List.getElem?_eq_getElem _
          have hkf := hkind m _ _ ht hf
          have hpf := hpa.2 m _ _ hf ho
          have hho := hhold _ (List.getElem_mem hm)
          rw [ho, ht, hf]
          generalize ins.2[m] = f at *
          generalize a.opv[m]'(by rw [← hpa.1]; exact hm) = o at *
          generalize (optypes ins.1)[m]'(by rw [← hlen]; exact hm) = t at *
          show some _ = some _
          congr 1
          cases f with
          | idx v =>
            obtain ⟨p, e, hhas⟩ := hpf
            subst e
            have hv : 0 ≤ v ∧ v < prog.length := hho
            have hlk := lookup_of_nodup (given evs) p _ h.nodup (hval p v.toNat hhas (by omega))
            have ht : t = .idx := by cases t <;> first | rfl | exact hkf.elim
            subst ht
            simp only [opdValue, hlk]
            congr 1
            omega
          | int v => cases hpf; rfl
          | float v => cases hpf; rfl
          | str v => cases hpf; rfl
        · have hnone : a.opv[m]? = none := List.getElem?_eq_none (by rw [← hpa.1]; omega)
          have hnone2 : ins.2[m]? = none := List.getElem?_eq_none (by omega)
          rw [hnone, hnone2]
          cases (optypes ins.1)[m]? <;> rfl
      rw [this]

/-- The hypotheses for `PUSHINT -7; JUMP` (to the third instruction)`; PUSHSTR "a<newline>"; EXIT`. -/
example (flt : Bool → List UInt8 → List UInt8 → BitVec 64) (num : BitVec 64 → Digits) :
    let prog : List (Opcode × List FOpd) := [(.PUSHINT, [.int (-7)]), (.JUMP, [.idx 2]), (.PUSHSTR, [.str [97, 10]]), (.EXIT, [])]
    Program prog ∧ ∀ i ∈ prog, ∀ o ∈ i.2, Writable flt num o := by
  intro prog
  constructor
  · intro i hi
    simp only [prog, List.mem_cons, List.not_mem_nil, or_false] at hi
    rcases hi with rfl | rfl | rfl | rfl <;> refine ⟨rfl, fun j t o ht ho => ?_, ?_⟩
    · match j, ht, ho with
      | 0, ht, ho => cases ht; cases ho; trivial
    · intro o ho; cases List.mem_singleton.1 ho; exact ⟨by decide, by decide⟩
    · match j, ht, ho with
      | 0, ht, ho => cases ht; cases ho; trivial
    · intro o ho; cases List.mem_singleton.1 ho; exact ⟨by decide, by decide⟩
    · match j, ht, ho with
      | 0, ht, ho => cases ht; cases ho; trivial
    · intro o ho; cases List.mem_singleton.1 ho; show (0 : UInt8) ∉ [97, 10]; decide
    · cases ho
    · intro o ho; cases ho
  · intro i hi o ho
    simp only [prog, List.mem_cons, List.not_mem_nil, or_false] at hi
    rcases hi with rfl | rfl | rfl | rfl
    · cases List.mem_singleton.1 ho; show (-7 : Int) ≠ -2 ^ 63; decide
    · cases List.mem_singleton.1 ho; trivial
    · cases List.mem_singleton.1 ho; show [97, 10].length ≤ 1024; decide
    · cases ho

end Noja.Asm
