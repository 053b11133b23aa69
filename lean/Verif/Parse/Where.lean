import Verif.Parse.Printable

/-!
# The positions of nodes (C55, C83)

Every position in a syntax tree lies within the text, and no name or string in it contains the terminator of C strings
(`parse_within`).  The position of a node is not always that of its text
(`C83_violated`), but for expressions it lies between the start of their text and the end of the next token (`C83_partial`).
-/

namespace Noja.Parse

open Noja.VM (RExpr RExprs RPairs RCall RFun RParams ROpt RStmt RStmts Pos Name UnOp BinOp)

set_option linter.unusedSimpArgs false
set_option linter.unusedVariables false

/-! ## Within the text -/

/-- Start and end lie in a text of this size. -/
def PosIn (n : Int) (p : Pos) : Prop := 0 ≤ p.off ∧ p.off ≤ n ∧ 0 ≤ p.off + p.len ∧ p.off + p.len ≤ n

/-- A name or text that is a C string. -/
def NoNul (s : List UInt8) : Prop := (0 : UInt8) ∉ s

mutual
/-- All positions of the tree lie in a text of this size; all names and strings are C strings. -/
def InE (n : Int) : RExpr → Prop
  | .none p => PosIn n p
  | .tru p => PosIn n p
  | .fls p => PosIn n p
  | .int _ p => PosIn n p
  | .float _ p => PosIn n p
  | .str s p => NoNul s ∧ PosIn n p
  | .ident m p => NoNul m ∧ PosIn n p
  | .un _ a p => InE n a ∧ PosIn n p
  | .bin _ a b p => InE n a ∧ InE n b ∧ PosIn n p
  | .and a b p => InE n a ∧ InE n b ∧ PosIn n p
  | .or a b p => InE n a ∧ InE n b ∧ PosIn n p
  | .ass a b p => InE n a ∧ InE n b ∧ PosIn n p
  | .pair a b p => InE n a ∧ InE n b ∧ PosIn n p
  | .arw a b p => InE n a ∧ InE n b ∧ PosIn n p
  | .list es p => InEs n es ∧ PosIn n p
  | .map ps p => InPs n ps ∧ PosIn n p
  | .call c p => InC n c ∧ PosIn n p
  | .select a b p => InE n a ∧ InE n b ∧ PosIn n p
  | .func f p => InF n f ∧ PosIn n p
def InC (n : Int) : RCall → Prop
  | .fn f as => InE n f ∧ InEs n as
  | .method s i q as => InE n s ∧ InE n i ∧ PosIn n q ∧ InEs n as
def InEs (n : Int) : RExprs → Prop
  | .nil => True
  | .cons e es => InE n e ∧ InEs n es
def InPs (n : Int) : RPairs → Prop
  | .nil => True
  | .cons k i ps => InE n k ∧ InE n i ∧ InPs n ps
def InF (n : Int) : RFun → Prop
  | .mk ps b => InArgs n ps ∧ InS n b
def InArgs (n : Int) : RParams → Prop
  | .nil => True
  | .cons m d t p ps => InO n d ∧ InO n t ∧ PosIn n p ∧ InArgs n ps ∧ NoNul m
def InO (n : Int) : ROpt → Prop
  | .no => True
  | .yes e => InE n e
def InS (n : Int) : RStmt → Prop
  | .expr e => InE n e
  | .ifElse c t f p => InE n c ∧ InS n t ∧ InS n f ∧ PosIn n p
  | .ifOnly c t p => InE n c ∧ InS n t ∧ PosIn n p
  | .while c b p => InE n c ∧ InS n b ∧ PosIn n p
  | .doWhile b c p => InS n b ∧ InE n c ∧ PosIn n p
  | .comp ss p => InSs n ss ∧ PosIn n p
  | .ret e p => InE n e ∧ PosIn n p
  | .func m f fp p => NoNul m ∧ InF n f ∧ PosIn n fp ∧ PosIn n p
  | .brk p => PosIn n p
def InSs (n : Int) : RStmts → Prop
  | .nil => True
  | .cons s ss => InS n s ∧ InSs n ss
end

theorem InE.pos {n : Int} {e : RExpr} (h : InE n e) : PosIn n e.pos := by
  cases e <;> first | exact h | exact h.2 | exact h.2.2

theorem InS.pos {n : Int} {s : RStmt} (h : InS n s) : PosIn n s.pos := by
  cases s <;> first | exact InE.pos h | exact h | exact h.2 | exact h.2.2 | exact h.2.2.2

/-- The token lies in the text; it is a C string if it is a name. -/
def TokIn (n : Int) (t : Token) : Prop := 0 ≤ t.off ∧ t.off + t.len ≤ n ∧ (t.kind = .ident → NoNul t.text)

theorem noNul_cString (s : List UInt8) : NoNul (cString s) := by
  intro h
  have : ∀ l : List UInt8, (0 : UInt8) ∉ l.takeWhile (· ≠ 0) := by
    intro l
    induction l with
    | nil => simp
    | cons c l ih =>
      by_cases hc : c = 0
      · simp [hc]
      · rw [List.takeWhile_cons_of_pos (by simpa using hc)]
        simp only [List.mem_cons, not_or]
        exact ⟨fun e => hc e.symm, ih⟩
  exact this s h

theorem noNul_nameOk {w : Name} (h : nameOk w = true) : NoNul w := by
  cases w with
  | nil => cases h
  | cons c v =>
    simp only [nameOk, Bool.and_eq_true, List.all_eq_true] at h
    intro h0
    rcases List.mem_cons.mp h0 with rfl | h0
    · exact absurd h.1.1 (by decide)
    · exact absurd (h.1.2 _ h0) (by decide)

theorem TokIn.place {n : Int} {t : Token} (h : TokIn n t) : PosIn n (place t) := by
  obtain ⟨h1, h2, -⟩ := h
  have : t.len = (t.text.length : Int) := rfl
  have : (Parse.place t).len = (t.text.length : Int) := rfl
  have : (Parse.place t).off = t.off := rfl
  refine ⟨?_, ?_, ?_, ?_⟩ <;> omega

theorem PosIn.upto {n : Int} {a b : Pos} (ha : PosIn n a) (hb : PosIn n b) : PosIn n (upto a b) := by
  obtain ⟨a1, a2, a3, a4⟩ := ha
  obtain ⟨b1, b2, b3, b4⟩ := hb
  have h1 : (Parse.upto a b).off = a.off := rfl
  have h2 : (Parse.upto a b).len = b.off + b.len - a.off := rfl
  refine ⟨?_, ?_, ?_, ?_⟩ <;> omega

theorem InSs.endOf {n : Int} (hn : 0 ≤ n) : ∀ {ss : RStmts}, InSs n ss → 0 ≤ endOf ss ∧ endOf ss ≤ n
  | .nil, _ => ⟨Int.le_refl _, hn⟩
  | .cons s .nil, h => ⟨h.1.pos.2.2.1, h.1.pos.2.2.2⟩
  | .cons _ (.cons s ss), h => InSs.endOf (ss := .cons s ss) hn h.2

theorem InSs.blockPos {n : Int} (hn : 0 ≤ n) {ss : RStmts} (h : InSs n ss) : PosIn n (blockPos ss) := by
  cases ss with
  | nil => exact ⟨Int.le_refl _, hn, Int.le_refl _, hn⟩
  | cons s ss =>
    obtain ⟨a, b⟩ := InSs.endOf hn h
    obtain ⟨p1, p2, p3, p4⟩ := h.1.pos
    have h1 : (Parse.blockPos (.cons s ss)).off = s.pos.off := rfl
    have h2 : (Parse.blockPos (.cons s ss)).len = Parse.endOf (.cons s ss) - s.pos.off := rfl
    refine ⟨?_, ?_, ?_, ?_⟩ <;> omega

/-- The positions of the parts of a program. -/
def Inside (n : Int) : Nt → Prop
  | .prim e | .post e | .pre e | .ops _ _ e | .asn _ _ e | .key e => InE n e
  | .items es => InEs n es
  | .list es p => InEs n es ∧ PosIn n p
  | .args acc es => InEs n acc → InEs n es
  | .pairs ps => InPs n ps
  | .opt _ _ o => InO n o
  | .params acc ps => InArgs n acc → InArgs n ps
  | .func d => InF n d.f ∧ PosIn n d.pos ∧ PosIn n d.namePos ∧ NoNul d.name
  | .stmt s => InS n s
  | .stmts _ ss => InSs n ss

section
variable {flt : List UInt8 → Option (BitVec 64)}

theorem in_cons {n : Int} {t : Token} {ts : List Token} (h : ∀ x ∈ t :: ts, TokIn n x) :
    PosIn n (place t) ∧ ∀ x ∈ ts, TokIn n x :=
  ⟨(h t (by simp)).place, fun x hx => h x (by simp [hx])⟩

theorem Inside.of {n : Int} (hz : 0 ≤ n) {x : Nt} {ts r : List Token} (h : Derives flt x ts r) :
    (∀ t ∈ ts, TokIn n t) → Inside n x ∧ ∀ t ∈ r, TokIn n t := by
  induction h with
  | int hk hl hv => intro ht; exact in_cons ht
  | float hk hl hv => intro ht; exact in_cons ht
  | string hk hs hl => intro ht; exact ⟨⟨noNul_cString _, (in_cons (in_cons ht).2).1⟩, (in_cons ht).2⟩
  | ident hk => intro ht; exact ⟨⟨(ht _ (by simp)).2.2 hk, (in_cons ht).1⟩, (in_cons ht).2⟩
  | none hk => intro ht; exact ⟨(in_cons (in_cons ht).2).1, (in_cons ht).2⟩
  | tru hk => intro ht; exact ⟨(in_cons (in_cons ht).2).1, (in_cons ht).2⟩
  | fls hk => intro ht; exact ⟨(in_cons (in_cons ht).2).1, (in_cons ht).2⟩
  | parens ho _ hc ih =>
    intro ht
    obtain ⟨g, hr⟩ := ih (in_cons ht).2
    exact ⟨g, (in_cons hr).2⟩
  | prim_list _ ih => exact ih
  | map0 =>
    intro ht
    obtain ⟨h1, h2⟩ := in_cons ht
    obtain ⟨h3, h4⟩ := in_cons h2
    exact ⟨⟨trivial, h1.upto h3⟩, h4⟩
  | map ho _ hc ih =>
    intro ht
    obtain ⟨h1, h2⟩ := in_cons ht
    obtain ⟨g, hr⟩ := ih h2
    obtain ⟨h3, h4⟩ := in_cons hr
    exact ⟨⟨g, h1.upto h3⟩, h4⟩
  | list0 =>
    intro ht
    obtain ⟨h1, h2⟩ := in_cons ht
    obtain ⟨h3, h4⟩ := in_cons h2
    exact ⟨⟨trivial, h1.upto h3⟩, h4⟩
  | list ho _ hc ih =>
    intro ht
    obtain ⟨h1, h2⟩ := in_cons ht
    obtain ⟨g, hr⟩ := ih h2
    obtain ⟨h3, h4⟩ := in_cons hr
    exact ⟨⟨g, h1.upto h3⟩, h4⟩
  | items_one _ ih =>
    intro ht
    obtain ⟨g, hr⟩ := ih ht
    exact ⟨⟨g, trivial⟩, hr⟩
  | items_more _ hc _ ih1 ih2 =>
    intro ht
    obtain ⟨g, hr⟩ := ih1 ht
    obtain ⟨g2, hr2⟩ := ih2 (in_cons hr).2
    exact ⟨⟨g, g2⟩, hr2⟩
  | key_ident hk hc => intro ht; exact ⟨⟨noNul_cString _, (in_cons ht).1⟩, (in_cons ht).2⟩
  | key_expr _ _ ih => exact ih
  | pair_last _ hc _ ih1 ih2 =>
    intro ht
    obtain ⟨g, hr⟩ := ih1 ht
    obtain ⟨g2, hr2⟩ := ih2 (in_cons hr).2
    exact ⟨⟨g, g2, trivial⟩, hr2⟩
  | pair_more _ hc _ hd _ ih1 ih2 ih3 =>
    intro ht
    obtain ⟨g, hr⟩ := ih1 ht
    obtain ⟨g2, hr2⟩ := ih2 (in_cons hr).2
    obtain ⟨g3, hr3⟩ := ih3 (in_cons hr2).2
    exact ⟨⟨g, g2, g3⟩, hr3⟩
  | pair_func_last _ ih =>
    intro ht
    obtain ⟨⟨g1, g2, g3, g0⟩, hr⟩ := ih ht
    exact ⟨⟨⟨g0, g3⟩, ⟨g1, g2⟩, trivial⟩, hr⟩
  | pair_func _ _ ih ih2 =>
    intro ht
    obtain ⟨⟨g1, g2, g3, g0⟩, hr⟩ := ih ht
    obtain ⟨g4, hr2⟩ := ih2 hr
    exact ⟨⟨⟨g0, g3⟩, ⟨g1, g2⟩, g4⟩, hr2⟩
  | post_prim _ ih => exact ih
  | dot _ hd hn ih =>
    intro ht
    obtain ⟨g, hr⟩ := ih ht
    obtain ⟨h1, h2⟩ := in_cons (in_cons hr).2
    exact ⟨⟨g, ⟨noNul_cString _, h1⟩, g.pos.upto h1⟩, h2⟩
  | arrow _ hd hn ih =>
    intro ht
    obtain ⟨g, hr⟩ := ih ht
    obtain ⟨h1, h2⟩ := in_cons (in_cons hr).2
    exact ⟨⟨g, ⟨noNul_cString _, h1⟩, g.pos.upto h1⟩, h2⟩
  | index _ _ ih1 ih2 =>
    intro ht
    obtain ⟨g, hr⟩ := ih1 ht
    obtain ⟨⟨g2, g3⟩, hr2⟩ := ih2 hr
    exact ⟨⟨g, g2.1, g.pos.upto g3⟩, hr2⟩
  | indices _ _ ih1 ih2 =>
    intro ht
    obtain ⟨g, hr⟩ := ih1 ht
    obtain ⟨⟨g2, g3⟩, hr2⟩ := ih2 hr
    exact ⟨⟨g, ⟨g2, g3⟩, g.pos.upto g3⟩, hr2⟩
  | call0 _ ho hc hcl ih =>
    intro ht
    obtain ⟨g, hr⟩ := ih ht
    obtain ⟨h1, h2⟩ := in_cons hr
    obtain ⟨h3, h4⟩ := in_cons h2
    refine ⟨⟨?_, h1.upto h3⟩, h4⟩
    cases hcl with
    | method => exact ⟨g.1, g.2.1, g.2.2, trivial⟩
    | fn hf => exact ⟨g, trivial⟩
  | call _ ho _ hc hcl ih1 ih2 =>
    intro ht
    obtain ⟨g, hr⟩ := ih1 ht
    obtain ⟨h1, h2⟩ := in_cons hr
    obtain ⟨g2, hr2⟩ := ih2 h2
    obtain ⟨h3, h4⟩ := in_cons hr2
    refine ⟨⟨?_, h1.upto h3⟩, h4⟩
    cases hcl with
    | method => exact ⟨g.1, g.2.1, g.2.2, g2 trivial⟩
    | fn hf => exact ⟨g, g2 trivial⟩
  | args_one _ ih =>
    intro ht
    obtain ⟨g, hr⟩ := ih ht
    exact ⟨fun h => ⟨g, h⟩, hr⟩
  | args_more _ hc _ ih1 ih2 =>
    intro ht
    obtain ⟨g, hr⟩ := ih1 ht
    obtain ⟨g2, hr2⟩ := ih2 (in_cons hr).2
    exact ⟨fun h => g2 ⟨g, h⟩, hr2⟩
  | pre_post _ ih => exact ih
  | un _ _ ih =>
    intro ht
    obtain ⟨h1, h2⟩ := in_cons ht
    obtain ⟨g, hr⟩ := ih h2
    exact ⟨⟨g, h1.upto g.pos⟩, hr⟩
  | ops_pre _ ih => exact ih
  | left hi _ _ _ _ ih1 ih2 =>
    intro ht
    obtain ⟨g, hr⟩ := ih1 ht
    obtain ⟨g2, hr2⟩ := ih2 (in_cons hr).2
    refine ⟨?_, hr2⟩
    have hp := g.pos.upto g2.pos
    revert hi
    generalize Token.kind _ = k
    intro hi
    cases hi <;> exact ⟨g, g2, hp⟩
  | asn_ops _ ih => exact ih
  | assign _ _ _ ih1 ih2 =>
    intro ht
    obtain ⟨g, hr⟩ := ih1 ht
    obtain ⟨g2, hr2⟩ := ih2 (in_cons hr).2
    exact ⟨⟨g, g2, g.pos.upto g2.pos⟩, hr2⟩
  | opt_no _ => intro ht; exact ⟨trivial, ht⟩
  | opt_yes _ _ ih => intro ht; exact ih (in_cons ht).2
  | params_one hn _ _ ih1 ih2 =>
    intro ht
    obtain ⟨h1, h2⟩ := in_cons ht
    obtain ⟨g, hr⟩ := ih1 h2
    obtain ⟨g2, hr2⟩ := ih2 hr
    exact ⟨fun h => ⟨g2, g, (in_cons hr2).1, h, (ht _ (by simp)).2.2 hn⟩, hr2⟩
  | params_more hn _ _ hc _ ih1 ih2 ih3 =>
    intro ht
    obtain ⟨h1, h2⟩ := in_cons ht
    obtain ⟨g, hr⟩ := ih1 h2
    obtain ⟨g2, hr2⟩ := ih2 hr
    obtain ⟨g3, hr3⟩ := ih3 (in_cons hr2).2
    exact ⟨fun h => g3 ⟨g2, g, (in_cons hr2).1, h, (ht _ (by simp)).2.2 hn⟩, hr3⟩
  | func0 hf hn ho hc _ ih =>
    intro ht
    obtain ⟨h0, h1⟩ := in_cons ht
    obtain ⟨h1, h2⟩ := in_cons h1
    obtain ⟨g, hr⟩ := ih (in_cons (in_cons h2).2).2
    exact ⟨⟨⟨trivial, g⟩, h0.upto g.pos, h1, (ht _ (by simp)).2.2 hn⟩, hr⟩
  | func hf hn ho _ hc _ ih1 ih2 =>
    intro ht
    obtain ⟨h0, h1⟩ := in_cons ht
    obtain ⟨h1, h2⟩ := in_cons h1
    obtain ⟨g, hr⟩ := ih1 (in_cons h2).2
    obtain ⟨g2, hr2⟩ := ih2 (in_cons hr).2
    exact ⟨⟨⟨g trivial, g2⟩, h0.upto g2.pos, h1, (ht _ (by simp)).2.2 hn⟩, hr2⟩
  | stmt_expr _ _ hs ih =>
    intro ht
    obtain ⟨g, hr⟩ := ih ht
    exact ⟨g, (in_cons hr).2⟩
  | block _ _ _ ih =>
    intro ht
    obtain ⟨g, hr⟩ := ih (in_cons ht).2
    exact ⟨⟨g, g.blockPos hz⟩, (in_cons hr).2⟩
  | brk =>
    intro ht
    obtain ⟨h1, h2⟩ := in_cons ht
    exact ⟨h1, (in_cons h2).2⟩
  | ret _ _ _ ih =>
    intro ht
    obtain ⟨h1, h2⟩ := in_cons ht
    obtain ⟨g, hr⟩ := ih h2
    exact ⟨⟨g, h1.upto g.pos⟩, (in_cons hr).2⟩
  | @stmt_func d _ _ _ ih =>
    intro ht
    obtain ⟨⟨g1, g2, g3, g0⟩, hr⟩ := ih ht
    exact ⟨⟨g0, g1, g2, g2⟩, hr⟩
  | while_ _ _ _ _ ih1 ih2 =>
    intro ht
    obtain ⟨h1, h2⟩ := in_cons ht
    obtain ⟨g, hr⟩ := ih1 h2
    obtain ⟨g2, hr2⟩ := ih2 (in_cons hr).2
    exact ⟨⟨g, g2, h1.upto (in_cons hr2).1⟩, hr2⟩
  | do_ _ _ _ _ _ ih1 ih2 =>
    intro ht
    obtain ⟨h1, h2⟩ := in_cons ht
    obtain ⟨g, hr⟩ := ih1 h2
    obtain ⟨g2, hr2⟩ := ih2 (in_cons hr).2
    have h3 := (in_cons hr2).2
    exact ⟨⟨g, g2, h1.upto (in_cons h3).1⟩, h3⟩
  | if_ _ _ _ _ hne ih1 ih2 =>
    intro ht
    obtain ⟨h1, h2⟩ := in_cons ht
    obtain ⟨g, hr⟩ := ih1 h2
    obtain ⟨g2, hr2⟩ := ih2 (in_cons hr).2
    exact ⟨⟨g, g2, h1.upto (in_cons hr2).1⟩, hr2⟩
  | if_else _ _ _ _ he _ ih1 ih2 ih3 =>
    intro ht
    obtain ⟨h1, h2⟩ := in_cons ht
    obtain ⟨g, hr⟩ := ih1 h2
    obtain ⟨g2, hr2⟩ := ih2 (in_cons hr).2
    obtain ⟨g3, hr3⟩ := ih3 (in_cons hr2).2
    exact ⟨⟨g, g2, g3, h1.upto (in_cons hr3).1⟩, hr3⟩
  | stmts_nil => intro ht; exact ⟨trivial, ht⟩
  | stmts_cons _ _ ih1 ih2 =>
    intro ht
    obtain ⟨g, hr⟩ := ih1 ht
    obtain ⟨g2, hr2⟩ := ih2 hr
    exact ⟨⟨g, g2⟩, hr2⟩
end

theorem split_in {src : List UInt8} {k : Nat} {ts : List Token} (h : Split src k ts) :
    ∀ t ∈ ts, 0 ≤ t.off ∧ t.off + t.len ≤ k + src.length := by
  induction h with
  | @done g k hb =>
    intro t ht
    rw [List.mem_singleton] at ht
    subst ht
    refine ⟨by dsimp only; omega, ?_⟩
    simp only [Token.len, List.length_nil]
    omega
  | @token g w r k n ts _ _ _ _ ih =>
    intro t ht
    simp only [List.length_append]
    rcases List.mem_cons.mp ht with rfl | ht
    · refine ⟨by dsimp only; omega, ?_⟩
      simp only [Token.len]
      omega
    · obtain ⟨h1, h2⟩ := ih t ht
      exact ⟨h1, by omega⟩

/-- Every position in a parsed tree lies within the text and every name and string in it is a C string. -/
theorem parse_within (flt : List UInt8 → Option (BitVec 64)) (past : UInt8) (src : List UInt8) (ss : RStmts)
    (h : parse flt past src = .ok ss) : InSs src.length ss := by
  obtain ⟨ts, h1, d, _, h2⟩ := (C80_parse flt past src ss).mp h
  refine (Inside.of (Int.natCast_nonneg _) h2 fun t ht => ?_).1
  obtain ⟨a, b⟩ := split_in h1 t ht
  exact ⟨a, by simpa using b, fun hk => noNul_nameOk ((split_toks h1 t ht).1 hk)⟩

/-! ## The position of an expression and its text -/

/-- What follows a part of a program is the end of what it started in; all parts but those that may be empty have a token. -/
def Eats (x : Nt) (us r : List Token) : Prop :=
  match x with
  | .opt _ _ _ | .stmts _ _ => ∃ ws, us = ws ++ r
  | _ => ∃ a ws, us = a :: (ws ++ r)

section
variable {flt : List UInt8 → Option (BitVec 64)}

theorem Eats.of {x : Nt} {us r : List Token} (h : Derives flt x us r) : Eats x us r := by
  induction h with
  | int hk hl hv => exact ⟨_, [], rfl⟩
  | float hk hl hv => exact ⟨_, [], rfl⟩
  | string hk hs hl => exact ⟨_, [], rfl⟩
  | ident hk => exact ⟨_, [], rfl⟩
  | none hk => exact ⟨_, [], rfl⟩
  | tru hk => exact ⟨_, [], rfl⟩
  | fls hk => exact ⟨_, [], rfl⟩
  | @parens o ts e c r ho _ hc ih =>
    obtain ⟨a, ws, rfl⟩ := ih
    exact ⟨o, a :: (ws ++ [c]), by simp⟩
  | prim_list _ ih => exact ih
  | @map0 o c r ho hc => exact ⟨o, [c], rfl⟩
  | @map o ts ps c r ho _ hc ih =>
    obtain ⟨a, ws, rfl⟩ := ih
    exact ⟨o, a :: (ws ++ [c]), by simp⟩
  | @list0 o c r ho hc => exact ⟨o, [c], rfl⟩
  | @list o ts es c r ho _ hc ih =>
    obtain ⟨a, ws, rfl⟩ := ih
    exact ⟨o, a :: (ws ++ [c]), by simp⟩
  | items_one _ ih => exact ih
  | @items_more ts e c us es r _ hc _ ih1 ih2 =>
    obtain ⟨a, ws, rfl⟩ := ih1
    obtain ⟨b, vs, rfl⟩ := ih2
    exact ⟨a, ws ++ c :: b :: vs, by simp⟩
  | key_ident hk hc => exact ⟨_, [], rfl⟩
  | key_expr _ _ ih => exact ih
  | @pair_last ts k c us e r _ hc _ ih1 ih2 =>
    obtain ⟨a, ws, rfl⟩ := ih1
    obtain ⟨b, vs, rfl⟩ := ih2
    exact ⟨a, ws ++ c :: b :: vs, by simp⟩
  | @pair_more ts k c us e d vs ps r _ hc _ hd _ ih1 ih2 ih3 =>
    obtain ⟨a, ws, rfl⟩ := ih1
    obtain ⟨b, xs, rfl⟩ := ih2
    obtain ⟨f, ys, rfl⟩ := ih3
    exact ⟨a, ws ++ c :: b :: (xs ++ d :: f :: ys), by simp⟩
  | pair_func_last _ ih => exact ih
  | @pair_func ts d us ps r _ _ ih1 ih2 =>
    obtain ⟨a, ws, rfl⟩ := ih1
    obtain ⟨b, vs, rfl⟩ := ih2
    exact ⟨a, ws ++ b :: vs, by simp⟩
  | post_prim _ ih => exact ih
  | @dot e ts d n r _ hd hn ih =>
    obtain ⟨a, ws, rfl⟩ := ih
    exact ⟨a, ws ++ [d, n], by simp⟩
  | @arrow e ts d n r _ hd hn ih =>
    obtain ⟨a, ws, rfl⟩ := ih
    exact ⟨a, ws ++ [d, n], by simp⟩
  | @index e ts us i p r _ _ ih1 ih2 =>
    obtain ⟨a, ws, rfl⟩ := ih1
    obtain ⟨b, vs, rfl⟩ := ih2
    exact ⟨a, ws ++ b :: vs, by simp⟩
  | @indices e ts us i j es p r _ _ ih1 ih2 =>
    obtain ⟨a, ws, rfl⟩ := ih1
    obtain ⟨b, vs, rfl⟩ := ih2
    exact ⟨a, ws ++ b :: vs, by simp⟩
  | @call0 f ts o c r cl _ ho hc hcl ih =>
    obtain ⟨a, ws, rfl⟩ := ih
    exact ⟨a, ws ++ [o, c], by simp⟩
  | @call f ts o us as c r cl _ ho _ hc hcl ih1 ih2 =>
    obtain ⟨a, ws, rfl⟩ := ih1
    obtain ⟨b, vs, rfl⟩ := ih2
    exact ⟨a, ws ++ o :: b :: (vs ++ [c]), by simp⟩
  | args_one _ ih => exact ih
  | @args_more acc ts e c us as r _ hc _ ih1 ih2 =>
    obtain ⟨a, ws, rfl⟩ := ih1
    obtain ⟨b, vs, rfl⟩ := ih2
    exact ⟨a, ws ++ c :: b :: vs, by simp⟩
  | pre_post _ ih => exact ih
  | @un t op e ts r _ _ ih =>
    obtain ⟨a, ws, rfl⟩ := ih
    exact ⟨t, a :: ws, by simp⟩
  | ops_pre _ ih => exact ih
  | @left tu m p f a b ts t us r hi _ _ _ _ ih1 ih2 =>
    obtain ⟨a, ws, rfl⟩ := ih1
    obtain ⟨b, vs, rfl⟩ := ih2
    exact ⟨a, ws ++ t :: b :: vs, by simp⟩
  | asn_ops _ ih => exact ih
  | @assign tu a b ts t us r _ _ _ ih1 ih2 =>
    obtain ⟨a, ws, rfl⟩ := ih1
    obtain ⟨b, vs, rfl⟩ := ih2
    exact ⟨a, ws ++ t :: b :: vs, by simp⟩
  | opt_no _ => exact ⟨[], rfl⟩
  | @opt_yes k as t ts e r _ _ ih =>
    obtain ⟨a, ws, rfl⟩ := ih
    exact ⟨t :: a :: ws, by simp⟩
  | @params_one acc n ts typ us dflt t r hn _ _ ih1 ih2 =>
    obtain ⟨ws, rfl⟩ := ih1
    obtain ⟨vs, rfl⟩ := ih2
    exact ⟨n, ws ++ vs, by simp⟩
  | @params_more acc n ts typ us dflt t vs ps r hn _ _ hc _ ih1 ih2 ih3 =>
    obtain ⟨ws, rfl⟩ := ih1
    obtain ⟨xs, rfl⟩ := ih2
    obtain ⟨b, ys, rfl⟩ := ih3
    exact ⟨n, ws ++ (xs ++ t :: b :: ys), by simp⟩
  | @func0 f n o c ts b r hf hn ho hc _ ih =>
    obtain ⟨a, ws, rfl⟩ := ih
    exact ⟨f, n :: o :: c :: a :: ws, by simp⟩
  | @func f n o ps us c ts b r hf hn ho _ hc _ ih1 ih2 =>
    obtain ⟨a, ws, rfl⟩ := ih1
    obtain ⟨d, vs, rfl⟩ := ih2
    exact ⟨f, n :: o :: a :: (ws ++ c :: d :: vs), by simp⟩
  | @stmt_expr t ts e s r _ _ hs ih =>
    obtain ⟨a, ws, h⟩ := ih
    exact ⟨a, ws ++ [s], by rw [h]; simp⟩
  | @block o ts ss c r _ _ _ ih =>
    obtain ⟨ws, rfl⟩ := ih
    exact ⟨o, ws ++ [c], by simp⟩
  | @brk b s r => exact ⟨b, [s], rfl⟩
  | @ret t ts e s r _ _ _ ih =>
    obtain ⟨a, ws, rfl⟩ := ih
    exact ⟨t, a :: (ws ++ [s]), by simp⟩
  | stmt_func _ ih => exact ih
  | @while_ w ts c x us b t r _ _ _ _ ih1 ih2 =>
    obtain ⟨a, ws, rfl⟩ := ih1
    obtain ⟨d, vs, rfl⟩ := ih2
    exact ⟨w, a :: (ws ++ x :: d :: vs), by simp⟩
  | @do_ d ts b w us c s t r _ _ _ _ _ ih1 ih2 =>
    obtain ⟨a, ws, rfl⟩ := ih1
    obtain ⟨b, vs, rfl⟩ := ih2
    exact ⟨d, a :: (ws ++ w :: b :: (vs ++ [s])), by simp⟩
  | @if_ i ts c x us b t r _ _ _ _ hne ih1 ih2 =>
    obtain ⟨a, ws, rfl⟩ := ih1
    obtain ⟨d, vs, rfl⟩ := ih2
    exact ⟨i, a :: (ws ++ x :: d :: vs), by simp⟩
  | @if_else i ts c x us b e vs b' t r _ _ _ _ he _ ih1 ih2 ih3 =>
    obtain ⟨a, ws, rfl⟩ := ih1
    obtain ⟨d, xs, rfl⟩ := ih2
    obtain ⟨f, ys, rfl⟩ := ih3
    exact ⟨i, a :: (ws ++ x :: d :: (xs ++ e :: f :: ys)), by simp⟩
  | stmts_nil => exact ⟨[], rfl⟩
  | @stmts_cons k s ts us ss r _ _ ih1 ih2 =>
    obtain ⟨a, ws, rfl⟩ := ih1
    obtain ⟨vs, rfl⟩ := ih2
    exact ⟨a :: (ws ++ vs), by simp⟩

/-- Tokens one after the other in a text. -/
def Ordered (ts : List Token) : Prop := ts.Pairwise fun a b => a.off + a.len ≤ b.off

theorem Ordered.rest {a : Token} {ts : List Token} (h : Ordered (a :: ts)) : Ordered ts := (List.pairwise_cons.mp h).2

theorem Ordered.later {a u : Token} {ws r : List Token} (h : Ordered (a :: (ws ++ u :: r))) : a.off + a.text.length ≤ u.off :=
  (List.pairwise_cons.mp h).1 u (by simp)

theorem Ordered.suffix {ws r : List Token} (h : Ordered (ws ++ r)) : Ordered r := (List.pairwise_append.mp h).2.1

/-- From the start of the first token or later to the end of the next token or earlier. -/
def Between (us r : List Token) (p : Pos) : Prop :=
  ∀ a ws, us = a :: ws → ∀ u r', r = u :: r' →
    a.off ≤ p.off ∧ p.off ≤ p.off + p.len ∧ p.off + p.len ≤ u.off + u.text.length

def Spans (x : Nt) (us r : List Token) : Prop :=
  match x with
  | .prim e | .post e | .pre e | .ops _ _ e | .asn _ _ e | .key e => Between us r e.pos
  | .list _ p => Between us r p
  | _ => True

theorem Between.token {t : Token} {r : List Token} (h : Ordered (t :: r)) : Between (t :: r) r (place t) := by
  intro a ws he u r' hr
  cases he
  subst hr
  have := h.later (ws := [])
  have h1 : (place t).off = t.off := rfl
  have h2 : (place t).len = (t.text.length : Int) := rfl
  refine ⟨?_, ?_, ?_⟩ <;> omega

theorem Between.next {t u : Token} {r : List Token} (h : Ordered (t :: u :: r)) : Between (t :: u :: r) (u :: r) (place u) := by
  intro a ws he u' r' hr
  cases he
  cases hr
  have := h.later (ws := [])
  have h1 : (place u).off = u.off := rfl
  have h2 : (place u).len = (u.text.length : Int) := rfl
  refine ⟨?_, ?_, ?_⟩ <;> omega

/-- From a part to a later part. -/
theorem Between.join {us vs r : List Token} {a t b : Token} {ws xs : List Token} {p q : Pos} (ho : Ordered us)
    (h1 : us = a :: (ws ++ t :: vs)) (h2 : vs = b :: (xs ++ r)) (hp : Between us (t :: vs) p) (hq : Between vs r q) :
    Between us r (upto p q) := by
  intro a' ws' he u r' hr
  subst hr
  subst h2
  subst h1
  cases he
  obtain ⟨p1, p2, p3⟩ := hp a _ rfl t _ rfl
  obtain ⟨q1, q2, q3⟩ := hq b _ rfl u _ rfl
  have ht : t.off + t.text.length ≤ b.off := Ordered.later (ws := []) (r := xs ++ u :: r') (Ordered.suffix (Ordered.rest ho))
  have e1 : (upto p q).off = p.off := rfl
  have e2 : (upto p q).len = q.off + q.len - p.off := rfl
  refine ⟨?_, ?_, ?_⟩ <;> omega

/-- From the first token of a bracket to the last. -/
theorem Between.bracket {o c : Token} {ws r : List Token} (ho : Ordered (o :: (ws ++ c :: r))) :
    Between (o :: (ws ++ c :: r)) r (upto (place o) (place c)) := by
  intro a ws' he u r' hr
  subst hr
  cases he
  have h1 := ho.later
  have h2 : c.off + c.text.length ≤ u.off := Ordered.later (ws := []) (r := r') (Ordered.suffix (Ordered.rest ho))
  have e1 : (upto (place o) (place c)).off = o.off := rfl
  have e2 : (upto (place o) (place c)).len = c.off + c.text.length - o.off := rfl
  refine ⟨?_, ?_, ?_⟩ <;> omega

/-- The arguments of a call. -/
theorem Between.after {a o : Token} {ws us r : List Token} {p : Pos} (ho : Ordered (a :: (ws ++ o :: us)))
    (hp : Between (o :: us) r p) : Between (a :: (ws ++ o :: us)) r p := by
  intro a' ws' he u r' hr
  cases he
  obtain ⟨p1, p2, p3⟩ := hp o us rfl u r' hr
  have := ho.later
  refine ⟨?_, ?_, ?_⟩ <;> omega

/-- An expression and what follows it. -/
theorem Between.upTo {us vs r : List Token} {a b : Token} {ws xs : List Token} {p q : Pos} (ho : Ordered us)
    (h1 : us = a :: (ws ++ vs)) (h2 : vs = b :: (xs ++ r)) (hp : Between us vs p) (hq : ∀ u r', r = u :: r' → b.off + b.text.length ≤ q.off + q.len ∧ q.off + q.len ≤ u.off + u.text.length) :
    Between us r (upto p q) := by
  intro a' ws' he u r' hr
  subst hr
  subst h2
  subst h1
  cases he
  obtain ⟨p1, p2, p3⟩ := hp a _ rfl b _ rfl
  obtain ⟨q1, q2⟩ := hq u _ rfl
  have e1 : (upto p q).off = p.off := rfl
  have e2 : (upto p q).len = q.off + q.len - p.off := rfl
  refine ⟨?_, ?_, ?_⟩ <;> omega

/-- A list has the position of its text. -/
theorem list_place {es : RExprs} {p : Pos} {us r : List Token} (h : Derives flt (.list es p) us r) :
    ∃ o ws c, us = o :: (ws ++ c :: r) ∧ p = upto (place o) (place c) := by
  cases h with
  | @list0 o c r ho hc => exact ⟨o, [], c, rfl, rfl⟩
  | @list o ts es c r ho hd hc =>
    obtain ⟨a, ws, rfl⟩ := Eats.of hd
    exact ⟨o, a :: ws, c, by simp, rfl⟩

theorem Spans.of {x : Nt} {us r : List Token} (h : Derives flt x us r) : Ordered us → Spans x us r := by
  induction h with
  | int hk hl hv => intro ho; exact .token ho
  | float hk hl hv => intro ho; exact .token ho
  | string hk hs hl => intro ho; exact .next ho
  | ident hk => intro ho; exact .token ho
  | none hk => intro ho; exact .next ho
  | tru hk => intro ho; exact .next ho
  | fls hk => intro ho; exact .next ho
  | @parens o ts e c r _ hd hc ih =>
    intro ho
    obtain ⟨a, ws, rfl⟩ := Eats.of hd
    intro a' ws' he u r' hr
    subst hr
    cases he
    obtain ⟨p1, p2, p3⟩ := ih ho.rest a _ rfl c _ rfl
    have h1 : o.off + o.text.length ≤ a.off := Ordered.later (ws := []) ho
    have h2 : c.off + c.text.length ≤ u.off := Ordered.later (ws := []) (r := r') (Ordered.suffix (Ordered.rest (Ordered.rest ho)))
    refine ⟨?_, ?_, ?_⟩ <;> omega
  | prim_list _ ih => exact ih
  | @map0 o c r _ _ => intro ho; exact Between.bracket (ws := []) ho
  | @map o ts ps c r _ hd hc ih =>
    intro ho
    obtain ⟨a, ws, rfl⟩ := Eats.of hd
    exact Between.bracket (ws := a :: ws) ho
  | @list0 o c r _ _ => intro ho; exact Between.bracket (ws := []) ho
  | @list o ts es c r _ hd hc ih =>
    intro ho
    obtain ⟨a, ws, rfl⟩ := Eats.of hd
    exact Between.bracket (ws := a :: ws) ho
  | key_ident hk hc => intro ho; exact .token ho
  | key_expr _ _ ih => exact ih
  | post_prim _ ih => exact ih
  | @dot e ts d n r hd _ _ ih =>
    intro ho
    obtain ⟨a, ws, rfl⟩ := Eats.of hd
    refine Between.upTo (vs := d :: n :: r) (xs := [n]) ho rfl rfl (ih ho) fun u r' hr => ?_
    subst hr
    have h0 : Ordered (d :: n :: u :: r') := Ordered.suffix (Ordered.rest ho)
    have h1 := h0.later (ws := [])
    have h2 := h0.rest.later (ws := [])
    have e1 : (place n).off = n.off := rfl
    have e2 : (place n).len = (n.text.length : Int) := rfl
    constructor <;> omega
  | @arrow e ts d n r hd _ _ ih =>
    intro ho
    obtain ⟨a, ws, rfl⟩ := Eats.of hd
    refine Between.upTo (vs := d :: n :: r) (xs := [n]) ho rfl rfl (ih ho) fun u r' hr => ?_
    subst hr
    have h0 : Ordered (d :: n :: u :: r') := Ordered.suffix (Ordered.rest ho)
    have h1 := h0.later (ws := [])
    have h2 := h0.rest.later (ws := [])
    have e1 : (place n).off = n.off := rfl
    have e2 : (place n).len = (n.text.length : Int) := rfl
    constructor <;> omega
  | @index e ts us i p r hd hl ih1 ih2 =>
    intro ho
    obtain ⟨a, ws, h1⟩ := Eats.of hd
    obtain ⟨o, xs, c, h2, hp⟩ := list_place hl
    refine Between.upTo (vs := us) (b := o) (xs := xs ++ [c]) ho h1 (by simp [h2]) (ih1 ho) fun u r' hr => ?_
    subst hr h1 h2 hp
    have h0 : Ordered (o :: (xs ++ c :: u :: r')) := Ordered.suffix (Ordered.rest ho)
    have h1 := h0.later
    have h2 : c.off + c.text.length ≤ u.off := Ordered.later (ws := []) (Ordered.suffix (Ordered.rest h0))
    have e1 : (upto (place o) (place c)).off = o.off := rfl
    have e2 : (upto (place o) (place c)).len = c.off + c.text.length - o.off := rfl
    constructor <;> omega
  | @indices e ts us i j es p r hd hl ih1 ih2 =>
    intro ho
    obtain ⟨a, ws, h1⟩ := Eats.of hd
    obtain ⟨o, xs, c, h2, hp⟩ := list_place hl
    refine Between.upTo (vs := us) (b := o) (xs := xs ++ [c]) ho h1 (by simp [h2]) (ih1 ho) fun u r' hr => ?_
    subst hr h1 h2 hp
    have h0 : Ordered (o :: (xs ++ c :: u :: r')) := Ordered.suffix (Ordered.rest ho)
    have h1 := h0.later
    have h2 : c.off + c.text.length ≤ u.off := Ordered.later (ws := []) (Ordered.suffix (Ordered.rest h0))
    have e1 : (upto (place o) (place c)).off = o.off := rfl
    have e2 : (upto (place o) (place c)).len = c.off + c.text.length - o.off := rfl
    constructor <;> omega
  | @call0 f ts o c r cl hd _ _ hcl ih =>
    intro ho
    obtain ⟨a, ws, rfl⟩ := Eats.of hd
    exact Between.after ho (Between.bracket (ws := []) (Ordered.suffix (Ordered.rest ho)))
  | @call f ts o us as c r cl hd _ ha hc hcl ih1 ih2 =>
    intro ho
    obtain ⟨a, ws, rfl⟩ := Eats.of hd
    obtain ⟨b, xs, rfl⟩ := Eats.of ha
    exact Between.after ho (Between.bracket (ws := b :: xs) (Ordered.suffix (Ordered.rest ho)))
  | pre_post _ ih => exact ih
  | @un t op e ts r _ hd ih =>
    intro ho
    obtain ⟨a, ws, rfl⟩ := Eats.of hd
    intro a' ws' he u r' hr
    subst hr
    cases he
    obtain ⟨p1, p2, p3⟩ := ih ho.rest a _ rfl u _ rfl
    have h1 : t.off + t.text.length ≤ a.off := Ordered.later (ws := []) ho
    have e1 : (upto (place t) e.pos).off = t.off := rfl
    have e2 : (upto (place t) e.pos).len = e.pos.off + e.pos.len - t.off := rfl
    show t.off ≤ (upto (place t) e.pos).off ∧ (upto (place t) e.pos).off ≤ (upto (place t) e.pos).off + (upto (place t) e.pos).len ∧
      (upto (place t) e.pos).off + (upto (place t) e.pos).len ≤ u.off + u.text.length
    refine ⟨?_, ?_, ?_⟩ <;> omega
  | ops_pre _ ih => exact ih
  | @left tu m p f a b ts t us r hi _ _ hd1 hd2 ih1 ih2 =>
    intro ho
    obtain ⟨x, ws, h1⟩ := Eats.of hd1
    obtain ⟨y, vs, h2⟩ := Eats.of hd2
    have ho2 : Ordered us := by
      rw [h1] at ho
      exact Ordered.rest (Ordered.suffix (Ordered.rest ho))
    have hb := Between.join ho h1 h2 (ih1 ho) (ih2 ho2)
    revert hi
    generalize Token.kind _ = k
    intro hi
    cases hi <;> exact hb
  | asn_ops _ ih => exact ih
  | @assign tu a b ts t us r hd1 _ hd2 ih1 ih2 =>
    intro ho
    obtain ⟨x, ws, h1⟩ := Eats.of hd1
    obtain ⟨y, vs, h2⟩ := Eats.of hd2
    have ho2 : Ordered us := by
      rw [h1] at ho
      exact Ordered.rest (Ordered.suffix (Ordered.rest ho))
    exact Between.join ho h1 h2 (ih1 ho) (ih2 ho2)
  | _ => intro _; trivial

/-- C83: an expression in the tokens of a text has the position of its text: from its first token to its last. -/
def C83Statement (flt : List UInt8 → Option (BitVec 64)) : Prop :=
  ∀ (past : UInt8) (src : List UInt8) (pre us r : List Token) (tu as : Bool) (e : RExpr),
    tokenize past src = .ok (pre ++ us) → Derives flt (.asn tu as e) us r →
    ∃ a ws, us = a :: (ws ++ r) ∧ e.pos.off = a.off ∧ (((a :: ws).getLast?).map fun l => l.off + l.len) = some (e.pos.off + e.pos.len)

/-- C83, what holds: the position starts in the text of the expression or with the next token, and ends there as well. -/
theorem C83_partial (flt : List UInt8 → Option (BitVec 64)) (past : UInt8) (src : List UInt8) (pre us r : List Token)
    (tu as : Bool) (e : RExpr) (u : Token) (ht : tokenize past src = .ok (pre ++ us)) (h : Derives flt (.asn tu as e) us (u :: r)) :
    ∃ a ws, us = a :: (ws ++ u :: r) ∧ a.off ≤ e.pos.off ∧ e.pos.off ≤ e.pos.off + e.pos.len ∧
      e.pos.off + e.pos.len ≤ u.off + u.len := by
  obtain ⟨a, ws, h1⟩ := Eats.of h
  refine ⟨a, ws, h1, ?_⟩
  have ho : Ordered us := Ordered.suffix (C50_order ht).1
  exact Spans.of h ho a _ h1 u r rfl

/-- The text `none;`: the position is that of the semicolon. -/
theorem C83_violated (flt : List UInt8 → Option (BitVec 64)) : ¬ C83Statement flt := by
  intro h
  have ht : tokenize 0 [110, 111, 110, 101, 59] =
      .ok ([] ++ [⟨.kwNone, 0, [110, 111, 110, 101]⟩, ⟨.ch 59, 4, [59]⟩, ⟨.done, 5, []⟩]) := by decide +kernel
  obtain ⟨a, ws, h1, h2, -⟩ := h 0 _ _ _ [⟨.ch 59, 4, [59]⟩, ⟨.done, 5, []⟩] true true (.none (place ⟨.ch 59, 4, [59]⟩)) ht
    (.asn_ops (.ops_pre (.pre_post (.post_prim (.none rfl)))))
  have ha := (List.cons.inj h1).1
  subst ha
  revert h2
  decide

/-- The tokens of `none;` meet the conditions of `C83_partial`. -/
example (flt : List UInt8 → Option (BitVec 64)) : ∃ us u r e, tokenize 0 [110, 111, 110, 101, 59] = .ok ([] ++ us) ∧
    Derives flt (.asn true true e) us (u :: r) :=
  ⟨[⟨.kwNone, 0, [110, 111, 110, 101]⟩, ⟨.ch 59, 4, [59]⟩, ⟨.done, 5, []⟩], ⟨.ch 59, 4, [59]⟩, [⟨.done, 5, []⟩], .none (place ⟨.ch 59, 4, [59]⟩),
    by decide +kernel, .asn_ops (.ops_pre (.pre_post (.post_prim (.none rfl))))⟩

/-- C83, what holds without restriction: numbers and names have the position of their text, lists and maps from bracket to
bracket. -/
theorem C83_exact_partial (flt : List UInt8 → Option (BitVec 64)) {e : RExpr} {us r : List Token} (h : Derives flt (.prim e) us r) :
    (∀ v p, e = .int v p ∨ (∃ b, e = .float b p) ∨ (∃ n, e = .ident n p) → ∀ a, us = [a] ++ r → p = place a) ∧
    (∀ p, (∃ es, e = .list es p) ∨ (∃ ps, e = .map ps p) → ∀ o ws c, us = o :: (ws ++ c :: r) → o.kind ≠ .ch 40 →
      p = upto (place o) (place c)) := by
  have fst : ∀ {c c' : Token} {ws ws' r : List Token}, ws ++ c :: r = ws' ++ c' :: r → c = c' := by
    intro c c' ws ws' r he
    have h1 : (ws ++ [c]) ++ r = (ws' ++ [c']) ++ r := by simpa using he
    have h2 : ws ++ [c] = ws' ++ [c'] := List.append_cancel_right h1
    have h3 := (List.append_inj' h2 rfl).2
    simpa using h3
  constructor
  · intro v p he a ha
    cases h with
    | int => simp at ha; subst ha; rcases he with he | ⟨_, he⟩ | ⟨_, he⟩ <;> cases he; rfl
    | float => simp at ha; subst ha; rcases he with he | ⟨_, he⟩ | ⟨_, he⟩ <;> cases he; rfl
    | ident => simp at ha; subst ha; rcases he with he | ⟨_, he⟩ | ⟨_, he⟩ <;> cases he; rfl
    | string => rcases he with he | ⟨_, he⟩ | ⟨_, he⟩ <;> cases he
    | none => rcases he with he | ⟨_, he⟩ | ⟨_, he⟩ <;> cases he
    | tru => rcases he with he | ⟨_, he⟩ | ⟨_, he⟩ <;> cases he
    | fls => rcases he with he | ⟨_, he⟩ | ⟨_, he⟩ <;> cases he
    | @parens o ts e c r _ hd _ =>
      obtain ⟨b, ws, rfl⟩ := Eats.of hd
      have := congrArg List.length ha
      simp at this
      omega
    | prim_list => rcases he with he | ⟨_, he⟩ | ⟨_, he⟩ <;> cases he
    | map0 => rcases he with he | ⟨_, he⟩ | ⟨_, he⟩ <;> cases he
    | map => rcases he with he | ⟨_, he⟩ | ⟨_, he⟩ <;> cases he
  · intro p he o ws c hu ho
    cases h with
    | int => rcases he with ⟨_, he⟩ | ⟨_, he⟩ <;> cases he
    | float => rcases he with ⟨_, he⟩ | ⟨_, he⟩ <;> cases he
    | ident => rcases he with ⟨_, he⟩ | ⟨_, he⟩ <;> cases he
    | string => rcases he with ⟨_, he⟩ | ⟨_, he⟩ <;> cases he
    | none => rcases he with ⟨_, he⟩ | ⟨_, he⟩ <;> cases he
    | tru => rcases he with ⟨_, he⟩ | ⟨_, he⟩ <;> cases he
    | fls => rcases he with ⟨_, he⟩ | ⟨_, he⟩ <;> cases he
    | parens hk => cases hu; exact absurd hk ho
    | prim_list hl =>
      obtain ⟨o', ws', c', h2, hp⟩ := list_place hl
      subst h2
      simp only [List.cons.injEq] at hu
      have hc := fst hu.2
      rcases he with ⟨_, he⟩ | ⟨_, he⟩ <;> cases he
      rw [hp, hu.1, hc]
    | @map0 o' c' =>
      simp only [List.cons.injEq] at hu
      have hc := fst (ws := []) hu.2
      rcases he with ⟨_, he⟩ | ⟨_, he⟩ <;> cases he
      rw [hu.1, hc]
    | @map o' ts ps c' r _ hd _ =>
      obtain ⟨b, xs, rfl⟩ := Eats.of hd
      simp only [List.cons.injEq] at hu
      have hc := fst (ws := b :: xs) hu.2
      rcases he with ⟨_, he⟩ | ⟨_, he⟩ <;> cases he
      rw [hu.1, hc]
end

/-- The list `[]` before a semicolon, spread over five bytes. -/
example (flt : List UInt8 → Option (BitVec 64)) : Derives flt (.prim (.list .nil ⟨2, 5⟩))
    ([⟨.ch 91, 2, [91]⟩, ⟨.ch 93, 6, [93]⟩] ++ [⟨.ch 59, 7, [59]⟩]) [⟨.ch 59, 7, [59]⟩] ∧
    (⟨2, 5⟩ : Pos) = upto (place ⟨.ch 91, 2, [91]⟩) (place ⟨.ch 93, 6, [93]⟩) :=
  ⟨.prim_list (.list0 (o := ⟨.ch 91, 2, [91]⟩) (c := ⟨.ch 93, 6, [93]⟩) rfl rfl), by decide⟩

end Noja.Parse
