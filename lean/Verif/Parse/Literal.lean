import Verif.Parse.Total
import Verif.Parse.Grammar

/-!
# Literals (C53, C54)

Each claim is about the whole program that consists of the literal and a semicolon; `Grammar.lean` has literals
anywhere in a program.
-/

namespace Noja.Parse

open Noja.VM (RExpr RExprs RPairs RCall RFun RParams ROpt RStmt RStmts Pos Name UnOp BinOp)

set_option linter.unusedSimpArgs false
set_option linter.unusedVariables false

/-- A program of one token and a semicolon. -/
theorem single_ok (flt : List UInt8 → Option (BitVec 64)) {t s d : Token} {e : RExpr} (n : Nat)
    (hx : exprStart t.kind = true) (hu : unOp t.kind = none) (hd : t.kind ≠ .done) (hs : s.kind = .ch 59) (hdd : d.kind = .done)
    (h : ∀ R, parsePrimary flt R [t, s, d] = .ok (e, [s, d])) :
    (recs flt (n + 5)).stmts .done [t, s, d] = .ok (.cons (.expr e) .nil, [d]) := by
  show stmtsBody (recs flt (n + 4)) .done [t, s, d] = _
  have hpre : (recs flt (n + 2)).pre [t, s, d] = .ok (e, [s, d]) := by
    show preBody flt (recs flt (n + 1)) [t, s, d] = _
    unfold preBody
    show (match unOp t.kind with | some op => _ | none => _) = _
    rw [hu]
    dsimp only
    rw [h]
    show postBody (recs flt n) e [s, d] = _
    unfold postBody
    show (match s.kind with | .ch 46 => _ | .arw => _ | .ch 91 => _ | .ch 40 => _ | _ => _) = _
    rw [hs]
    rfl
  have hexpr : (recs flt (n + 3)).expr true true [t, s, d] = .ok (e, [s, d]) := by
    show exprBody (recs flt (n + 2)) true true [t, s, d] = _
    unfold exprBody
    rw [hpre]
    show (if s.kind = .done then _ else expr2Body (recs flt (n + 1)) true true e (-1000000000) [s, d]) = _
    rw [if_neg (by rw [hs]; decide)]
    unfold expr2Body
    show (if (isBinop s.kind && _) = true then _ else _) = _
    rw [hs]
    rfl
  have hstmt : (recs flt (n + 4)).stmt [t, s, d] = .ok (.expr e, [d]) := by
    show stmtBody (recs flt (n + 3)) [t, s, d] = _
    unfold stmtBody
    show (if exprStart t.kind = true then _ else _) = _
    rw [if_pos hx]
    unfold parseExprStmt condition
    rw [hexpr]
    show (if s.kind ≠ .ch 59 then _ else _) >>= _ = _
    rw [if_neg (by rw [hs]; decide)]
    rfl
  unfold stmtsBody
  show (if t.kind = .done then _ else if t.kind = .done then _ else _) = _
  rw [if_neg hd, if_neg hd, hstmt]
  show stmtsBody (recs flt (n + 3)) .done [d] >>= _ = _
  unfold stmtsBody
  show (if d.kind = .done then _ else _) >>= _ = _
  rw [if_pos hdd]
  rfl

theorem single_err (flt : List UInt8 → Option (BitVec 64)) {t s d : Token} (n : Nat)
    (hx : exprStart t.kind = true) (hu : unOp t.kind = none) (hd : t.kind ≠ .done)
    (h : ∀ R, parsePrimary flt R [t, s, d] = .err) :
    (recs flt (n + 5)).stmts .done [t, s, d] = .err := by
  show stmtsBody (recs flt (n + 4)) .done [t, s, d] = _
  have hpre : (recs flt (n + 2)).pre [t, s, d] = .err := by
    show preBody flt (recs flt (n + 1)) [t, s, d] = _
    unfold preBody
    show (match unOp t.kind with | some op => _ | none => _) = _
    rw [hu]
    dsimp only
    rw [h]
    rfl
  have hexpr : (recs flt (n + 3)).expr true true [t, s, d] = .err := by
    show exprBody (recs flt (n + 2)) true true [t, s, d] = _
    unfold exprBody
    rw [hpre]
    rfl
  have hstmt : (recs flt (n + 4)).stmt [t, s, d] = .err := by
    show stmtBody (recs flt (n + 3)) [t, s, d] = _
    unfold stmtBody
    show (if exprStart t.kind = true then _ else _) = _
    rw [if_pos hx]
    unfold parseExprStmt condition
    rw [hexpr]
    rfl
  unfold stmtsBody
  show (if t.kind = .done then _ else if t.kind = .done then _ else _) = _
  rw [if_neg hd, if_neg hd, hstmt]
  rfl

/-- The tokens of a text that is one token and a semicolon. -/
theorem single_tokens (past : UInt8) {k : Kind} {w : List UInt8} (hne : w ≠ []) (hw : Lexeme k w [59])
    (hb : Blank [] (w ++ [59])) :
    tokenize past (w ++ [59]) = .ok [⟨k, 0, w⟩, ⟨.ch 59, w.length, [59]⟩, ⟨.done, (w.length + 1 : Nat), []⟩] := by
  rw [C50_tokens]
  have h2 : Split [59] (0 + 0 + w.length) [⟨.ch 59, w.length, [59]⟩, ⟨.done, (w.length + 1 : Nat), []⟩] := by
    have h3 : Split [] (0 + 0 + w.length + 0 + 1) [⟨.done, (w.length + 1 : Nat), []⟩] := by
      have := Split.done (g := []) (n := 0 + 0 + w.length + 0 + 1) .nil
      simpa using this
    have := Split.token (g := []) (w := [59]) (r := []) (k := .ch 59) (n := 0 + 0 + w.length) .nil (by simp)
      (.single (by decide) (by decide) (by decide) (by decide) (by decide) (by decide) (by decide)) h3
    simpa using this
  exact Split.token (g := []) (n := 0) hb hne hw h2

theorem single_parse_ok (flt : List UInt8 → Option (BitVec 64)) (past : UInt8) {k : Kind} {w : List UInt8} {e : RExpr}
    (hne : w ≠ []) (hw : Lexeme k w [59]) (hb : Blank [] (w ++ [59])) (hx : exprStart k = true) (hu : unOp k = none)
    (h : ∀ R, parsePrimary flt R [⟨k, 0, w⟩, ⟨.ch 59, w.length, [59]⟩, ⟨.done, (w.length + 1 : Nat), []⟩] =
      .ok (e, [⟨.ch 59, w.length, [59]⟩, ⟨.done, (w.length + 1 : Nat), []⟩])) :
    parse flt past (w ++ [59]) = .ok (.cons (.expr e) .nil) := by
  unfold parse
  rw [single_tokens past hne hw hb]
  show (recs flt (27 + 5)).stmts .done _ >>= _ = _
  rw [single_ok flt 27 hx hu (hw.ne_done) rfl rfl h]
  rfl

theorem single_parse_err (flt : List UInt8 → Option (BitVec 64)) (past : UInt8) {k : Kind} {w : List UInt8}
    (hne : w ≠ []) (hw : Lexeme k w [59]) (hb : Blank [] (w ++ [59])) (hx : exprStart k = true) (hu : unOp k = none)
    (h : ∀ R, parsePrimary flt R [⟨k, 0, w⟩, ⟨.ch 59, w.length, [59]⟩, ⟨.done, (w.length + 1 : Nat), []⟩] = .err) :
    parse flt past (w ++ [59]) = .err := by
  unfold parse
  rw [single_tokens past hne hw hb]
  show (recs flt (27 + 5)).stmts .done _ >>= _ = _
  rw [single_err flt 27 hx hu (hw.ne_done) h]
  rfl

/-! ## Integers -/


theorem decimal_snoc (ds : List UInt8) (d : UInt8) : decimal (ds ++ [d]) = decimal ds * 10 + (d.toNat - 48) := by
  simp [decimal]

theorem decimal_value (ds : List UInt8) : decimal ds.reverse = valueRev ds := by
  induction ds with
  | nil => rfl
  | cons d ds ih =>
    rw [List.reverse_cons, decimal_snoc, ih]
    simp only [valueRev]
    omega

/-- C53: a row of digits, as a program, is either read as exactly the number it stands for, or refused; it is refused
just when that number does not fit in 64 bits (with a sign) or when there are more than 63 digits. -/
theorem C53_integers (flt : List UInt8 → Option (BitVec 64)) (past : UInt8) (ds : List UInt8) (hne : ds ≠ [])
    (hd : ∀ d ∈ ds, isDigit d = true) :
    parse flt past (ds ++ [59]) =
      if ds.length < 64 ∧ valueRev ds.reverse < 2 ^ 63 then
        .ok (.cons (.expr (.int (valueRev ds.reverse) ⟨0, ds.length⟩)) .nil)
      else .err := by
  have hv : decimal ds = valueRev ds.reverse := by rw [← decimal_value, List.reverse_reverse]
  have hw : Lexeme .int ds [59] := .int hne hd (by intro d h; cases h; decide) (by intro d s h; cases h)
  have hb : Blank [] (ds ++ [59]) := .nil
  have red : ∀ R ts, parsePrimary flt R (⟨.int, 0, ds⟩ :: ts) = parseInt ⟨.int, 0, ds⟩ (⟨.int, 0, ds⟩ :: ts) := fun _ _ => rfl
  have hl : (⟨.int, 0, ds⟩ : Token).len = (ds.length : Int) := rfl
  by_cases h : ds.length < 64 ∧ valueRev ds.reverse < 2 ^ 63
  · rw [if_pos h]
    refine single_parse_ok flt past hne hw hb rfl rfl fun R => ?_
    rw [red]
    unfold parseInt
    rw [if_neg (by rw [hl]; omega)]
    have : strtoll ds = some (valueRev ds.reverse : Int) := by
      unfold strtoll
      rw [hv, if_pos (by have := h.2; omega)]
    show (match strtoll ds with | none => _ | some v => _) = _
    rw [this]
    rfl
  · rw [if_neg h]
    refine single_parse_err flt past hne hw hb rfl rfl fun R => ?_
    rw [red]
    unfold parseInt
    by_cases h1 : ds.length < 64
    · rw [if_neg (by rw [hl]; omega)]
      have : strtoll ds = none := by
        unfold strtoll
        rw [hv, if_neg (by intro h2; exact h ⟨h1, by omega⟩)]
      show (match strtoll ds with | none => _ | some v => _) = _
      rw [this]
    · rw [if_pos (by rw [hl]; omega)]

/-- The largest number that is read, and the first that is not. -/
example : parse (fun _ => none) 0 (bytes "9223372036854775807;") = .ok (.cons (.expr (.int 9223372036854775807 ⟨0, 19⟩)) .nil) ∧
    parse (fun _ => none) 0 (bytes "9223372036854775808;") = .err := by
  have h1 := C53_integers (fun _ => none) 0 (bytes "9223372036854775807") (by decide) (by decide)
  have h2 := C53_integers (fun _ => none) 0 (bytes "9223372036854775808") (by decide) (by decide)
  rw [if_pos (by decide)] at h1
  rw [if_neg (by decide)] at h2
  exact ⟨h1, h2⟩

/-! ## Strings -/

/-- A spelling of a text between quotes `q`: the quote and a backslash are written with a backslash, so may be the other
quote, a line feed, a tab and a carriage return; every other byte stands for itself. -/
inductive Spelled (q : UInt8) : List UInt8 → List UInt8 → Prop
  | nil : Spelled q [] []
  | plain {c : UInt8} {b s : List UInt8} : c ≠ q → c ≠ 92 → Spelled q b s → Spelled q (c :: b) (c :: s)
  | esc {e c : UInt8} {b s : List UInt8} :
      (e, c) ∈ [((34 : UInt8), (34 : UInt8)), (39, 39), (92, 92), (110, 10), (116, 9), (114, 13)] → Spelled q b s →
      Spelled q (92 :: e :: b) (c :: s)

/-- Quotes and backslashes written with a backslash. -/
def quote (q : UInt8) : List UInt8 → List UInt8
  | [] => []
  | c :: s => if c = q ∨ c = 92 then 92 :: c :: quote q s else c :: quote q s

/-- Every text can be spelled. -/
theorem quote_spelled {q : UInt8} (hq : q = 39 ∨ q = 34) : ∀ s : List UInt8, Spelled q (quote q s) s
  | [] => .nil
  | c :: s => by
    have ih := quote_spelled hq s
    unfold quote
    by_cases h : c = q ∨ c = 92
    · rw [if_pos h]
      refine .esc ?_ ih
      rcases h with rfl | rfl
      · rcases hq with rfl | rfl <;> decide
      · decide
    · rw [if_neg h]
      exact .plain (fun e => h (.inl e)) (fun e => h (.inr e)) ih

theorem Spelled.length {q : UInt8} {b s : List UInt8} (h : Spelled q b s) : s.length ≤ b.length := by
  induction h with
  | nil => simp
  | plain _ _ _ ih => simpa using ih
  | esc _ _ ih => simp only [List.length_cons]; omega

/-- A spelling ends, for the tokenizer, where it does. -/
theorem Spelled.quoted {q : UInt8} (hq : q = 39 ∨ q = 34) {b s : List UInt8} (h : Spelled q b s) : Quoted q b := by
  induction h with
  | nil => exact .nil
  | plain h1 h2 _ ih => exact .plain h1 h2 ih
  | @esc e c b s h1 hs ih =>
    have other : ∀ e : UInt8, e ≠ 39 → e ≠ 34 → e ≠ 92 → Quoted q (92 :: e :: b) := fun e h1 h2 h3 =>
      .other h1 h2 h3 (.plain (by rcases hq with rfl | rfl <;> assumption) h3 ih)
    simp only [List.mem_cons, Prod.mk.injEq, List.not_mem_nil, or_false] at h1
    rcases h1 with ⟨rfl, rfl⟩ | ⟨rfl, rfl⟩ | ⟨rfl, rfl⟩ | ⟨rfl, rfl⟩ | ⟨rfl, rfl⟩ | ⟨rfl, rfl⟩
    · exact .escape (.inr (.inl rfl)) ih
    · exact .escape (.inl rfl) ih
    · exact .escape (.inr (.inr rfl)) ih
    · exact other _ (by decide) (by decide) (by decide)
    · exact other _ (by decide) (by decide) (by decide)
    · exact other _ (by decide) (by decide) (by decide)

theorem Spelled.split {q : UInt8} {b s : List UInt8} (h : Spelled q b s) : ∃ p : List UInt8, (∀ c ∈ p, c ≠ 92) ∧
    ((b = p ∧ s = p) ∨ ∃ e c b' s', unescape e = some c ∧ Spelled q b' s' ∧ b = p ++ 92 :: e :: b' ∧ s = p ++ c :: s') := by
  induction h with
  | nil => exact ⟨[], by simp, .inl ⟨rfl, rfl⟩⟩
  | @plain c b s h1 h2 hs ih =>
    obtain ⟨p, hp, ih⟩ := ih
    refine ⟨c :: p, ?_, ?_⟩
    · intro d hd
      rcases List.mem_cons.mp hd with rfl | hd
      · exact h2
      · exact hp d hd
    · rcases ih with ⟨rfl, rfl⟩ | ⟨e, c', b', s', h3, h4, rfl, rfl⟩
      · exact .inl ⟨rfl, rfl⟩
      · exact .inr ⟨e, c', b', s', h3, h4, rfl, rfl⟩
  | @esc e c b s h1 hs ih =>
    refine ⟨[], by simp, .inr ⟨e, c, b, s, ?_, hs, rfl, rfl⟩⟩
    simp only [List.mem_cons, Prod.mk.injEq, List.not_mem_nil, or_false] at h1
    rcases h1 with ⟨rfl, rfl⟩ | ⟨rfl, rfl⟩ | ⟨rfl, rfl⟩ | ⟨rfl, rfl⟩ | ⟨rfl, rfl⟩ | ⟨rfl, rfl⟩ <;> rfl

theorem stringLoop_spelled (q : UInt8) : ∀ (n : Nat) (b s temp : List UInt8), Spelled q b s → b.length < n → temp.length ≤ 4095 →
    stringLoop n b temp = if temp.length + s.length ≤ 4095 then .ok (temp ++ s) else .err
  | 0, _, _, _, _, h, _ => by omega
  | n + 1, b, s, temp, hsp, hn, ht => by
    obtain ⟨p, hp, hcase⟩ := hsp.split
    have hpp : ∀ c ∈ p, (c != 92) = true := by
      intro c hc; simp [hp c hc]
    rcases hcase with ⟨e1, e2⟩ | ⟨e, c, b', s', hu, hs', rfl, rfl⟩
    · rw [e1, e2]
      have h1 := Noja.Asm.takeWhile_run _ p [] hpp (by simp)
      have h2 := Noja.Asm.dropWhile_run _ p [] hpp (by simp)
      rw [List.append_nil] at h1 h2
      unfold stringLoop
      rw [h1, h2]
      dsimp only
      by_cases hc : temp.length + p.length ≥ 4096
      · rw [if_pos hc, if_neg (by omega)]
      · rw [if_neg hc, if_pos (by omega)]
    · unfold stringLoop
      rw [Noja.Asm.takeWhile_run _ p (92 :: e :: b') hpp (by simp), Noja.Asm.dropWhile_run _ p (92 :: e :: b') hpp (by simp)]
      dsimp only
      simp only [List.length_append, List.length_cons] at hn ⊢
      by_cases hc : temp.length + p.length ≥ 4096
      · rw [if_pos hc, if_neg (by omega)]
      · rw [if_neg hc]
        by_cases hc2 : temp.length + p.length + 1 ≥ 4096
        · rw [if_pos hc2, if_neg (by omega)]
        · rw [if_neg hc2, hu]
          dsimp only
          have hl : (temp ++ p ++ [c]).length = temp.length + p.length + 1 := by simp; omega
          have hi := stringLoop_spelled q n b' s' (temp ++ p ++ [c]) hs' (by omega) (by omega)
          have ha : temp ++ p ++ [c] ++ s' = temp ++ (p ++ c :: s') := by simp
          rw [hl, ha] at hi
          have hsum : temp.length + (p.length + (s'.length + 1)) = temp.length + p.length + 1 + s'.length := by omega
          rw [hsum, ← hi]
          cases hs' with
          | nil =>
            rw [hi, if_pos (show temp.length + p.length + 1 + ([] : List UInt8).length ≤ 4095 by simp only [List.length_nil]; omega)]
            show Exec.ok (temp ++ p ++ [c]) = _
            simp
          | plain _ _ _ => rfl
          | esc _ _ => rfl

theorem cString_noNul {s : List UInt8} (h : (0 : UInt8) ∉ s) : s.takeWhile (· ≠ 0) = s := by
  induction s with
  | nil => rfl
  | cons c s ih =>
    rw [List.takeWhile_cons_of_pos (by simp; rintro rfl; exact h (by simp)), ih (fun h' => h (List.mem_cons_of_mem _ h'))]

/-- The primary expression that is a string literal, wherever it is. -/
theorem parseString_spelled (t u : Token) (ts : List Token) {q : UInt8} {b s : List UInt8} (hb : Spelled q b s)
    (hw : t.text = q :: (b ++ [q])) :
    parseString t (t :: u :: ts) =
      if s.length ≤ 4095 then .ok (.str (s.takeWhile (· ≠ 0)) u.pos, u :: ts) else .err := by
  unfold parseString
  have hc : t.text.tail.dropLast = b := by rw [hw]; simp
  rw [hc, stringLoop_spelled q _ b s [] hb (by rw [hw]; simp; omega) (by simp)]
  simp only [List.length_nil, Nat.zero_add, List.nil_append]
  by_cases h : s.length ≤ 4095
  · rw [if_pos h, if_pos h]; rfl
  · rw [if_neg h, if_neg h]; rfl

/-- What becomes of a string literal, as a program: its text, up to the first NUL, if it is not too long. -/
theorem C54_exact (flt : List UInt8 → Option (BitVec 64)) (past : UInt8) {q : UInt8} (hq : q = 39 ∨ q = 34) {b s : List UInt8}
    (hb : Spelled q b s) :
    parse flt past (q :: (b ++ [q]) ++ [59]) =
      if s.length ≤ 4095 then .ok (.cons (.expr (.str (s.takeWhile (· ≠ 0)) ⟨(b.length + 2 : Nat), 1⟩)) .nil) else .err := by
  have hw : Lexeme .string (q :: (b ++ [q])) [59] := .string hq (hb.quoted hq)
  have hp : ∀ (t u : Token) ts R, t.kind = .string → t.text = q :: (b ++ [q]) → parsePrimary flt R (t :: u :: ts) =
      if s.length ≤ 4095 then .ok (.str (s.takeWhile (· ≠ 0)) u.pos, u :: ts) else .err := by
    intro t u ts R hk ht
    rw [← parseString_spelled t u ts hb ht]
    obtain ⟨k, o, w⟩ := t
    dsimp only at hk
    subst hk
    rfl
  by_cases h : s.length ≤ 4095
  · rw [if_pos h]
    refine single_parse_ok flt past (by simp) hw .nil rfl rfl fun R => ?_
    rw [hp _ _ _ R rfl rfl, if_pos h]
    simp [Token.pos, Token.len]
    omega
  · rw [if_neg h]
    refine single_parse_err flt past (by simp) hw .nil rfl rfl fun R => ?_
    rw [hp _ _ _ R rfl rfl, if_neg h]

/-- C54, as stated: every text, spelled as a literal, is read back, if it is not too long. -/
def C54Statement : Prop :=
  ∀ (flt : List UInt8 → Option (BitVec 64)) (past q : UInt8) (b s : List UInt8), q = 39 ∨ q = 34 → Spelled q b s → s.length ≤ 4095 →
    ∃ p, parse flt past (q :: (b ++ [q]) ++ [59]) = .ok (.cons (.expr (.str s p)) .nil)

/-- C54, what holds: it is if the text contains no NUL, and a longer text is refused.
What is missing: texts with a NUL byte, see `C54_violated`. -/
theorem C54_partial (flt : List UInt8 → Option (BitVec 64)) (past : UInt8) {q : UInt8} (hq : q = 39 ∨ q = 34) {b s : List UInt8}
    (hb : Spelled q b s) (hs : (0 : UInt8) ∉ s) :
    (s.length ≤ 4095 → ∃ p, parse flt past (q :: (b ++ [q]) ++ [59]) = .ok (.cons (.expr (.str s p)) .nil)) ∧
    (4095 < s.length → parse flt past (q :: (b ++ [q]) ++ [59]) = .err) := by
  rw [C54_exact flt past hq hb, cString_noNul hs]
  constructor
  · intro h; rw [if_pos h]; exact ⟨_, rfl⟩
  · intro h; rw [if_neg (by omega)]

example : ∃ p, parse (fun _ => none) 0 (bytes "'it\\'s\\n';") = .ok (.cons (.expr (.str (bytes "it's\n") p)) .nil) := by
  refine (C54_partial (fun _ => none) 0 (q := 39) (b := bytes "it\\'s\\n") (s := bytes "it's\n") (.inl rfl) ?_ (by decide)).1 (by decide)
  exact .plain (by decide) (by decide) (.plain (by decide) (by decide) (.esc (by decide) (.plain (by decide) (by decide)
    (.esc (by decide) .nil))))

/-- C54: a text with a NUL byte is cut there. -/
theorem C54_violated : ¬ C54Statement := by
  intro h
  obtain ⟨p, hp⟩ := h (fun _ => none) 0 34 [0] [0] (.inr rfl) (.plain (by decide) (by decide) .nil) (by decide)
  rw [C54_exact _ _ (.inr rfl) (.plain (by decide) (by decide) .nil : Spelled 34 [0] [0]), if_pos (by decide)] at hp
  simp at hp

end Noja.Parse
