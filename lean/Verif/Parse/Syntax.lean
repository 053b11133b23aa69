import Verif.Parse.Sound

/-!
# What the parser accepts (C80); precedence and associativity (C52)
-/

namespace Noja.Parse

open Noja.VM (RExpr RExprs RPairs RCall RFun RParams ROpt RStmt RStmts Pos Name UnOp BinOp)

set_option linter.unusedSimpArgs false
set_option linter.unusedVariables false

/-- C80: the parser accepts a text exactly if its words are a program of the grammar, and gives the tree that the
grammar gives. -/
theorem C80_parse (flt : List UInt8 → Option (BitVec 64)) (past : UInt8) (src : List UInt8) (ss : RStmts) :
    parse flt past src = .ok ss ↔ ∃ ts, Split src 0 ts ∧ Program flt ts ss := by
  constructor
  · intro h
    obtain ⟨ts, ht, hp⟩ := parse_sound h
    exact ⟨ts, (C50_tokens past src ts).mp ht, hp⟩
  · rintro ⟨ts, ht, hp⟩
    exact parse_complete ((C50_tokens past src ts).mpr ht) hp

/-- C80: the grammar gives a text one tree at most. -/
theorem C80_unambiguous (flt : List UInt8 → Option (BitVec 64)) {src : List UInt8} {ts ts' : List Token} {ss ss' : RStmts}
    (h1 : Split src 0 ts) (h2 : Program flt ts ss) (h1' : Split src 0 ts') (h2' : Program flt ts' ss') : ss = ss' := by
  have a := (C80_parse flt 0 src ss).mpr ⟨ts, h1, h2⟩
  have b := (C80_parse flt 0 src ss').mpr ⟨ts', h1', h2'⟩
  rw [a] at b
  cases b
  rfl

/-! ## Words with spaces after them -/

/-- A word: the kind of token it is and its text. -/
abbrev Word := Kind × List UInt8

/-- A text of words, each with a space after it. -/
def spaced : List Word → List UInt8
  | [] => []
  | w :: ws => w.2 ++ 32 :: spaced ws

/-- The tokens of such a text, from an offset on. -/
def placed : Nat → List Word → List Token
  | n, [] => [⟨.done, n, []⟩]
  | n, w :: ws => ⟨w.1, n, w.2⟩ :: placed (n + w.2.length + 1) ws

/-- What is a word also when a space follows. -/
def IsWord (w : Word) : Prop := w.2 ≠ [] ∧ ∀ r, Lexeme w.1 w.2 (32 :: r)

theorem split_blank {r : List UInt8} {c : UInt8} (hc : isSpace c = true) {n : Nat} {ts : List Token} (h : Split r (n + 1) ts) :
    Split (c :: r) n ts := by
  generalize hm : n + 1 = m at h
  cases h with
  | @done g _ hb =>
    subst hm
    have := Split.done (g := c :: r) (n := n) (.space hc hb)
    rw [show n + (c :: r).length = n + 1 + r.length by simp; omega] at this
    exact this
  | @token g w r' k _ ts hb hne hl hs =>
    subst hm
    have hs' : Split r' (n + (c :: g).length + w.length) ts := by
      rw [show n + (c :: g).length + w.length = n + 1 + g.length + w.length by simp; omega]
      exact hs
    have := Split.token (.space hc hb) hne hl hs'
    rw [show n + (c :: g).length = n + 1 + g.length by simp; omega] at this
    exact this

theorem split_spaced : ∀ (ws : List Word) (n : Nat), (∀ w ∈ ws, IsWord w) → Split (spaced ws) n (placed n ws)
  | [], n, _ => by
    have := Split.done (g := []) (n := n) .nil
    exact this
  | w :: ws, n, h => by
    obtain ⟨hne, hl⟩ := h w (by simp)
    have ih := split_spaced ws (n + w.2.length + 1) fun x hx => h x (by simp [hx])
    have h2 := split_blank (c := 32) rfl ih
    exact Split.token (g := []) (n := n) .nil hne (hl _) h2

/-- The words of tokens. -/
def words (ts : List Token) : List Word := ts.map fun t => (t.kind, t.text)

theorem words_placed : ∀ (ws : List Word) (n : Nat), ∃ ts d, placed n ws = ts ++ [d] ∧ words ts = ws ∧ d.kind = .done
  | [], n => ⟨[], _, rfl, rfl, rfl⟩
  | w :: ws, n => by
    obtain ⟨ts, d, h1, h2, h3⟩ := words_placed ws (n + w.2.length + 1)
    exact ⟨⟨w.1, n, w.2⟩ :: ts, d, by rw [placed, h1]; rfl, by rw [words, List.map_cons]; exact congrArg _ h2, h3⟩

theorem words_append {ts : List Token} {a b : List Word} (h : words ts = a ++ b) :
    ∃ us vs, ts = us ++ vs ∧ words us = a ∧ words vs = b := by
  obtain ⟨us, vs, h1, h2, h3⟩ := List.map_eq_append_iff.mp h
  exact ⟨us, vs, h1, h2, h3⟩

theorem words_cons {ts : List Token} {w : Word} {b : List Word} (h : words ts = w :: b) :
    ∃ t vs, ts = t :: vs ∧ t.kind = w.1 ∧ t.text = w.2 ∧ words vs = b := by
  obtain ⟨t, vs, h1, h2, h3⟩ := List.map_eq_cons_iff.mp h
  refine ⟨t, vs, h1, ?_, ?_, h3⟩
  · rw [← h2]
  · rw [← h2]

theorem words_nil {ts : List Token} (h : words ts = []) : ts = [] := List.map_eq_nil_iff.mp h

/-! ## Words that are words -/

theorem isWord_ident {w : List UInt8} {c : UInt8} {v : List UInt8} (e : w = c :: v) (hc : identStart c = true)
    (hv : ∀ d ∈ v, identChar d = true) (hk : kwords.lookup w = none) : IsWord (.ident, w) := by
  subst e
  refine ⟨by simp, fun r => ?_⟩
  have := Lexeme.word (r := 32 :: r) hc hv (by intro d hd; cases hd; decide)
  rw [hk] at this
  exact this

theorem isWord_key {w : List UInt8} {k : Kind} {c : UInt8} {v : List UInt8} (e : w = c :: v) (hc : identStart c = true)
    (hv : v.all identChar = true) (hk : kwords.lookup w = some k) : IsWord (k, w) := by
  subst e
  refine ⟨by simp, fun r => ?_⟩
  have := Lexeme.word (r := 32 :: r) hc (by simpa using hv) (by intro d hd; cases hd; decide)
  rw [hk] at this
  exact this

theorem isWord_int {w : List UInt8} (hw : w ≠ []) (hd : ∀ d ∈ w, isDigit d = true) : IsWord (.int, w) := by
  refine ⟨hw, fun r => .int hw hd (by intro d hd; cases hd; decide) ?_⟩
  intro d s e
  cases e

theorem isWord_oper {w : List UInt8} {k : Kind} (hw : w ≠ []) (h : w.all isOper = true) (hk : optable.lookup w = some k) :
    IsWord (k, w) :=
  ⟨hw, fun r => .oper (by simpa using h) (by intro d hd; cases hd; decide) hk⟩

/-- A single operator character that the table does not list. -/
theorem isWord_operFirst {c : UInt8} (h : isOper c = true) (hk : optable.lookup [c] = none) : IsWord (.ch c, [c]) :=
  ⟨by simp, fun r => .operFirst (w := []) (s := 32 :: r) h (by simp) (by intro d hd; cases hd; decide) hk rfl⟩

theorem isWord_single {c : UInt8} (h : (!identStart c && !isDigit c && !isOper c && c != 39 && c != 34 && !isSpace c && c != 35) = true) :
    IsWord (.ch c, [c]) := by
  simp only [Bool.and_eq_true, Bool.not_eq_true', bne_iff_ne] at h
  obtain ⟨⟨⟨⟨⟨⟨h1, h2⟩, h3⟩, h4⟩, h5⟩, h6⟩, h7⟩ := h
  exact ⟨by simp, fun r => .single h1 h2 h3 h4 h5 h6 h7⟩

/-! ## Trees of binary operators -/

/-- The binary operators of the language. -/
inductive Sign where
  | assign | bar | or | and | less | greater | lessEq | greaterEq | equal | notEqual | plus | minus | times | over | mod | comma
deriving DecidableEq

/-- The levels: those of a higher level bind more tightly. -/
def Sign.level : Sign → Nat
  | assign => 0
  | bar => 1
  | or => 2
  | and => 3
  | less | greater | lessEq | greaterEq | equal | notEqual => 4
  | plus | minus => 5
  | times | over | mod => 6
  | comma => 7

/-- How they are written, and the kind of token that is. -/
def Sign.word : Sign → Word
  | assign => (.ch 61, bytes "=")
  | bar => (.ch 124, bytes "|")
  | or => (.kwOr, bytes "or")
  | and => (.kwAnd, bytes "and")
  | less => (.ch 60, bytes "<")
  | greater => (.ch 62, bytes ">")
  | lessEq => (.leq, bytes "<=")
  | greaterEq => (.geq, bytes ">=")
  | equal => (.eql, bytes "==")
  | notEqual => (.nql, bytes "!=")
  | plus => (.ch 43, bytes "+")
  | minus => (.ch 45, bytes "-")
  | times => (.ch 42, bytes "*")
  | over => (.ch 47, bytes "/")
  | mod => (.ch 37, bytes "%")
  | comma => (.ch 44, bytes ",")

/-- A tree of binary operators; its leaves are variables and numbers. -/
inductive Tree where
  | var (name : List UInt8)
  | num (digits : List UInt8)
  | node (s : Sign) (a b : Tree)

/-- The text of a tree where operators of level `m` and above may stand: parentheses only around an operator of a lower
level.  The left operand of an operator may be one of the same level, the right one not; with `=` it is the other way round. -/
def Tree.words : Nat → Tree → List Word
  | _, var x => [(.ident, x)]
  | _, num ds => [(.int, ds)]
  | m, node s a b =>
    let body := if s = .assign then a.words 1 ++ s.word :: b.words 0 else a.words s.level ++ s.word :: b.words (s.level + 1)
    if s.level < m then (.ch 40, bytes "(") :: (body ++ [(.ch 41, bytes ")")]) else body

/-- The statement that consists of the tree. -/
def Tree.text (t : Tree) : List UInt8 := spaced (t.words 0 ++ [(.ch 59, bytes ";")])

/-- What may be a leaf: names that are no keywords, numbers that fit. -/
def Tree.Fits : Tree → Prop
  | var x => (∃ c v, x = c :: v ∧ identStart c = true ∧ ∀ d ∈ v, identChar d = true) ∧ kwords.lookup x = none
  | num ds => ds ≠ [] ∧ (∀ d ∈ ds, isDigit d = true) ∧ ds.length < 64 ∧ valueRev ds.reverse < 2 ^ 63
  | node _ a b => a.Fits ∧ b.Fits

/-- The syntax tree is this tree, whatever the positions. -/
inductive Reads : Tree → RExpr → Prop
  | var {x p} : Reads (.var x) (.ident x p)
  | num {ds p} : Reads (.num ds) (.int (valueRev ds.reverse) p)
  | assign {a b x y p} : Reads a x → Reads b y → Reads (.node .assign a b) (.ass x y p)
  | bar {a b x y p} : Reads a x → Reads b y → Reads (.node .bar a b) (.bin .sum x y p)
  | or {a b x y p} : Reads a x → Reads b y → Reads (.node .or a b) (.or x y p)
  | and {a b x y p} : Reads a x → Reads b y → Reads (.node .and a b) (.and x y p)
  | less {a b x y p} : Reads a x → Reads b y → Reads (.node .less a b) (.bin .lss x y p)
  | greater {a b x y p} : Reads a x → Reads b y → Reads (.node .greater a b) (.bin .grt x y p)
  | lessEq {a b x y p} : Reads a x → Reads b y → Reads (.node .lessEq a b) (.bin .leq x y p)
  | greaterEq {a b x y p} : Reads a x → Reads b y → Reads (.node .greaterEq a b) (.bin .geq x y p)
  | equal {a b x y p} : Reads a x → Reads b y → Reads (.node .equal a b) (.bin .eql x y p)
  | notEqual {a b x y p} : Reads a x → Reads b y → Reads (.node .notEqual a b) (.bin .nql x y p)
  | plus {a b x y p} : Reads a x → Reads b y → Reads (.node .plus a b) (.bin .add x y p)
  | minus {a b x y p} : Reads a x → Reads b y → Reads (.node .minus a b) (.bin .sub x y p)
  | times {a b x y p} : Reads a x → Reads b y → Reads (.node .times a b) (.bin .mul x y p)
  | over {a b x y p} : Reads a x → Reads b y → Reads (.node .over a b) (.bin .div x y p)
  | mod {a b x y p} : Reads a x → Reads b y → Reads (.node .mod a b) (.bin .mod x y p)
  | comma {a b x y p} : Reads a x → Reads b y → Reads (.node .comma a b) (.pair x y p)

theorem Sign.isWord (s : Sign) : IsWord s.word := by
  cases s
  all_goals first
    | exact isWord_single (by decide)
    | exact isWord_oper (by decide) (by decide) (by decide)
    | exact isWord_operFirst (by decide) (by decide)
    | exact isWord_key (c := 111) (v := [114]) (by decide) (by decide) (by decide) (by decide)
    | exact isWord_key (c := 97) (v := [110, 100]) (by decide) (by decide) (by decide) (by decide)

theorem Tree.isWord : ∀ (t : Tree) (m : Nat), t.Fits → ∀ w ∈ t.words m, IsWord w
  | .var x, m, h, w, hw => by
    simp only [Tree.words, List.mem_singleton] at hw
    subst hw
    obtain ⟨⟨c, v, e, hc, hv⟩, hk⟩ := h
    exact isWord_ident e hc hv hk
  | .num ds, m, h, w, hw => by
    simp only [Tree.words, List.mem_singleton] at hw
    subst hw
    exact isWord_int h.1 h.2.1
  | .node s a b, m, h, w, hw => by
    have ha := fun m => Tree.isWord a m h.1 w
    have hb := fun m => Tree.isWord b m h.2 w
    have body : w ∈ (if s = .assign then a.words 1 ++ s.word :: b.words 0 else a.words s.level ++ s.word :: b.words (s.level + 1)) →
        IsWord w := by
      intro hw
      split at hw
      · rcases List.mem_append.mp hw with hw | hw
        · exact ha _ hw
        · rcases List.mem_cons.mp hw with rfl | hw
          · exact s.isWord
          · exact hb _ hw
      · rcases List.mem_append.mp hw with hw | hw
        · exact ha _ hw
        · rcases List.mem_cons.mp hw with rfl | hw
          · exact s.isWord
          · exact hb _ hw
    unfold Tree.words at hw
    dsimp only at hw
    split at hw
    · rcases List.mem_cons.mp hw with rfl | hw
      · exact isWord_single (by decide)
      · rcases List.mem_append.mp hw with hw | hw
        · exact body hw
        · simp only [List.mem_singleton] at hw
          subst hw
          exact isWord_single (by decide)
    · exact body hw

/-- The operators other than `=` in the grammar. -/
theorem Sign.infix {s : Sign} (h : s ≠ .assign) : ∃ f, Infix s.word.1 s.level f ∧ 1 ≤ s.level ∧
    ∀ a b x y p, Reads a x → Reads b y → Reads (.node s a b) (f x y p) := by
  cases s
  · exact absurd rfl h
  · exact ⟨_, .sum, by decide, fun _ _ _ _ _ => .bar⟩
  · exact ⟨_, .or, by decide, fun _ _ _ _ _ => .or⟩
  · exact ⟨_, .and, by decide, fun _ _ _ _ _ => .and⟩
  · exact ⟨_, .lss, by decide, fun _ _ _ _ _ => .less⟩
  · exact ⟨_, .grt, by decide, fun _ _ _ _ _ => .greater⟩
  · exact ⟨_, .leq, by decide, fun _ _ _ _ _ => .lessEq⟩
  · exact ⟨_, .geq, by decide, fun _ _ _ _ _ => .greaterEq⟩
  · exact ⟨_, .eql, by decide, fun _ _ _ _ _ => .equal⟩
  · exact ⟨_, .nql, by decide, fun _ _ _ _ _ => .notEqual⟩
  · exact ⟨_, .add, by decide, fun _ _ _ _ _ => .plus⟩
  · exact ⟨_, .sub, by decide, fun _ _ _ _ _ => .minus⟩
  · exact ⟨_, .mul, by decide, fun _ _ _ _ _ => .times⟩
  · exact ⟨_, .div, by decide, fun _ _ _ _ _ => .over⟩
  · exact ⟨_, .mod, by decide, fun _ _ _ _ _ => .mod⟩
  · exact ⟨_, .pair, by decide, fun _ _ _ _ _ => .comma⟩

section
variable {flt : List UInt8 → Option (BitVec 64)}

/-- What the words of a tree are in the grammar. -/
def Tree.Meant (flt : List UInt8 → Option (BitVec 64)) (t : Tree) (m : Nat) (ts : List Token) : Prop :=
  ∃ e, Reads t e ∧ (∀ r, Derives flt (.asn true true e) (ts ++ r) r) ∧
    (1 ≤ m → ∀ r, Derives flt (.ops true m e) (ts ++ r) r)

theorem Tree.meant_prim {t : Tree} {m : Nat} {ts : List Token} {e : RExpr} (hr : Reads t e)
    (h : ∀ r, Derives flt (.prim e) (ts ++ r) r) : t.Meant flt m ts :=
  ⟨e, hr, fun r => .asn_ops (.ops_pre (.pre_post (.post_prim (h r)))), fun _ r => .ops_pre (.pre_post (.post_prim (h r)))⟩

theorem Tree.derives : ∀ (t : Tree) (m : Nat) (ts : List Token), t.Fits → Parse.words ts = t.words m → t.Meant flt m ts
  | .var x, m, ts, h, hw => by
    obtain ⟨t, vs, rfl, hk, hx, hv⟩ := words_cons hw
    have := words_nil hv
    subst this
    dsimp only at hk hx
    subst hx
    exact Tree.meant_prim .var fun r => .ident hk
  | .num ds, m, ts, h, hw => by
    obtain ⟨t, vs, rfl, hk, hx, hv⟩ := words_cons hw
    have := words_nil hv
    subst this
    dsimp only at hk hx
    subst hx
    exact Tree.meant_prim .num fun r => .int hk h.2.2.1 h.2.2.2
  | .node s a b, m, ts, h, hw => by
    -- without parentheses
    have body : ∀ (us : List Token),
        Parse.words us = (if s = .assign then a.words 1 ++ s.word :: b.words 0 else a.words s.level ++ s.word :: b.words (s.level + 1)) →
        ∃ e, Reads (.node s a b) e ∧ (∀ r, Derives flt (.asn true true e) (us ++ r) r) ∧
          (s ≠ .assign → ∀ (m : Int) r, m ≤ s.level → Derives flt (.ops true m e) (us ++ r) r) := by
      intro us hw
      by_cases hs : s = .assign
      · rw [if_pos hs] at hw
        subst hs
        obtain ⟨u1, u2, rfl, w1, w2⟩ := words_append hw
        obtain ⟨t, u3, rfl, hk, _, w3⟩ := words_cons w2
        obtain ⟨x, hx, _, hx2⟩ := Tree.derives a 1 u1 h.1 w1
        obtain ⟨y, hy, hy1, _⟩ := Tree.derives b 0 u3 h.2 w3
        refine ⟨.ass x y (upto x.pos y.pos), .assign hx hy, fun r => ?_, fun h => absurd rfl h⟩
        rw [List.append_assoc]
        exact .assign (hx2 (by omega) _) hk (hy1 r)
      · rw [if_neg hs] at hw
        obtain ⟨f, hi, h1, hf⟩ := Sign.infix hs
        obtain ⟨u1, u2, rfl, w1, w2⟩ := words_append hw
        obtain ⟨t, u3, rfl, hk, _, w3⟩ := words_cons w2
        obtain ⟨x, hx, _, hx2⟩ := Tree.derives a s.level u1 h.1 w1
        obtain ⟨y, hy, _, hy2⟩ := Tree.derives b (s.level + 1) u3 h.2 w3
        have hd : ∀ (m : Int) r, m ≤ s.level → Derives flt (.ops true m (f x y (upto x.pos y.pos))) (u1 ++ t :: u3 ++ r) r := by
          intro m r hm
          rw [List.append_assoc]
          refine .left (by rw [hk]; exact hi) hm (fun _ => rfl) (hx2 h1 _) ?_
          have := hy2 (by omega) r
          rw [Int.natCast_add] at this
          exact this
        exact ⟨_, hf _ _ _ _ _ hx hy, fun r => .asn_ops (hd 1 r (by omega)), fun _ m r hm => hd m r hm⟩
    unfold Tree.words at hw
    dsimp only at hw
    by_cases hl : s.level < m
    · rw [if_pos hl] at hw
      obtain ⟨o, us, rfl, ho, _, w1⟩ := words_cons hw
      obtain ⟨us, cs, rfl, w2, w3⟩ := words_append w1
      obtain ⟨c, cs, rfl, hc, _, w4⟩ := words_cons w3
      have := words_nil w4
      subst this
      obtain ⟨e, he, he1, _⟩ := body us w2
      refine Tree.meant_prim he fun r => ?_
      refine .parens ho ?_ hc
      show Derives flt _ (us ++ [c] ++ r) _
      rw [List.append_assoc]
      exact he1 (c :: r)
    · rw [if_neg hl] at hw
      obtain ⟨e, he, he1, he2⟩ := body ts hw
      refine ⟨e, he, he1, fun h1 r => he2 ?_ m r (by omega)⟩
      rintro rfl
      have : Sign.assign.level = 0 := rfl
      omega

theorem Tree.first : ∀ (t : Tree) (m : Nat), ∃ w ws, t.words m = w :: ws ∧ w.1 ≠ .ch 123
  | .var x, m => ⟨_, _, rfl, by simp⟩
  | .num x, m => ⟨_, _, rfl, by simp⟩
  | .node s a b, m => by
    unfold Tree.words
    dsimp only
    split
    · exact ⟨_, _, rfl, by simp⟩
    · split
      · obtain ⟨w, ws, h, h2⟩ := Tree.first a 1
        exact ⟨w, _, by rw [h]; rfl, h2⟩
      · obtain ⟨w, ws, h, h2⟩ := Tree.first a s.level
        exact ⟨w, _, by rw [h]; rfl, h2⟩
end

/-- C52: the text of every tree of binary operators, with parentheses only where an operator of a lower level is an operand, is
parsed as that tree. -/
theorem C52_precedence (flt : List UInt8 → Option (BitVec 64)) (past : UInt8) (t : Tree) (ht : t.Fits) :
    ∃ e, Reads t e ∧ parse flt past t.text = .ok (.cons (.expr e) .nil) := by
  have hsp := split_spaced (t.words 0 ++ [(.ch 59, bytes ";")]) 0 (by
    intro w hw
    rcases List.mem_append.mp hw with hw | hw
    · exact t.isWord 0 ht w hw
    · simp only [List.mem_singleton] at hw
      subst hw
      exact isWord_single (by decide))
  obtain ⟨ts, d, e1, e2, hd⟩ := words_placed (t.words 0 ++ [(.ch 59, bytes ";")]) 0
  obtain ⟨us, vs, rfl, w1, w2⟩ := words_append e2
  obtain ⟨s, vs, rfl, hs, _, w3⟩ := words_cons w2
  have := words_nil w3
  subst this
  obtain ⟨e, he, he1, _⟩ := Tree.derives (flt := flt) t 0 us ht w1
  refine ⟨e, he, (C80_parse flt past _ _).mpr ⟨_, hsp, d, hd, ?_⟩⟩
  rw [e1]
  refine .stmts_cons ?_ .stmts_nil
  rw [List.append_assoc]
  have h := he1 [s, d]
  obtain ⟨w, ws, hw, hw2⟩ := t.first 0
  rw [hw] at w1
  obtain ⟨u, us', rfl, hu, _, _⟩ := words_cons w1
  exact .stmt_expr (by rw [hu]; exact hw2) h hs

/-- A text with a program of the grammar, as in `C80_parse` and `C80_unambiguous`. -/
example : ∃ ts ss, Split (bytes "a = b ; ") 0 ts ∧ Program (fun _ => none) ts ss := by
  obtain ⟨e, _, h⟩ := C52_precedence (fun _ => none) 0 (.node .assign (.var (bytes "a")) (.var (bytes "b")))
    ⟨⟨⟨97, [], rfl, by decide, by simp⟩, by decide⟩, ⟨98, [], rfl, by decide, by simp⟩, by decide⟩
  obtain ⟨ts, h⟩ := (C80_parse _ _ _ _).mp h
  exact ⟨ts, _, h⟩

/-- A tree with all kinds of nesting, its text, and the conditions of `C52_precedence`. -/
example : ∃ t : Tree, t.Fits ∧ t.text = bytes "a = ( b | c ) * 2 - ( d - e ) < f and g , h == ( a = i ) ; " :=
  ⟨.node .assign (.var (bytes "a"))
    (.node .and
      (.node .less
        (.node .minus (.node .times (.node .bar (.var (bytes "b")) (.var (bytes "c"))) (.num (bytes "2")))
          (.node .minus (.var (bytes "d")) (.var (bytes "e"))))
        (.var (bytes "f")))
      (.node .equal (.node .comma (.var (bytes "g")) (.var (bytes "h")))
        (.node .assign (.var (bytes "a")) (.var (bytes "i"))))), by
    have hv : ∀ c : UInt8, identStart c = true → kwords.lookup [c] = none → Tree.Fits (.var [c]) :=
      fun c h1 h2 => ⟨⟨c, [], rfl, h1, by simp⟩, h2⟩
    have hn : Tree.Fits (.num (bytes "2")) := ⟨by decide, by decide, by decide, by decide⟩
    exact ⟨hv 97 (by decide) (by decide), ⟨⟨⟨⟨hv 98 (by decide) (by decide), hv 99 (by decide) (by decide)⟩, hn⟩,
      hv 100 (by decide) (by decide), hv 101 (by decide) (by decide)⟩, hv 102 (by decide) (by decide)⟩,
      ⟨hv 103 (by decide) (by decide), hv 104 (by decide) (by decide)⟩, hv 97 (by decide) (by decide), hv 105 (by decide) (by decide)⟩, by decide⟩

end Noja.Parse
