import Verif.Parse.Print

/-!
# Every program that is parsed can be written down (C81)

The converse of what `C81_print` assumes: the trees that the parser makes are all of them such trees.  So writing a program
down and parsing the text gives the program back, for every text that the parser accepts.
-/

namespace Noja.Parse

open Noja.VM (RExpr RExprs RPairs RCall RFun RParams ROpt RStmt RStmts Pos Name UnOp BinOp)

set_option linter.unusedSimpArgs false
set_option linter.unusedVariables false

/-- The text of a floating point literal: digits, a dot, digits. -/
def FloatText (w : List UInt8) : Prop :=
  ∃ a b, w = a ++ 46 :: b ∧ a ≠ [] ∧ b ≠ [] ∧ (∀ d ∈ a, isDigit d = true) ∧ ∀ d ∈ b, isDigit d = true

/-- `fs` writes every floating point number that has a literal as a literal of it. -/
def Writes (flt : List UInt8 → Option (BitVec 64)) (fs : BitVec 64 → List UInt8) : Prop :=
  ∀ w b, FloatText w → w.length < 64 → flt w = some b → FloatText (fs b) ∧ (fs b).length < 64 ∧ flt (fs b) = some b

/-- There is always such a function. -/
theorem exists_writes (flt : List UInt8 → Option (BitVec 64)) : ∃ fs, Writes flt fs := by
  have : ∀ b : BitVec 64, ∃ v : List UInt8, ∀ w, FloatText w → w.length < 64 → flt w = some b →
      FloatText v ∧ v.length < 64 ∧ flt v = some b := by
    intro b
    by_cases h : ∃ w, FloatText w ∧ w.length < 64 ∧ flt w = some b
    · obtain ⟨w, hw⟩ := h
      exact ⟨w, fun _ _ _ _ => hw⟩
    · exact ⟨[], fun w h1 h2 h3 => absurd ⟨w, h1, h2, h3⟩ h⟩
  exact ⟨fun b => Classical.choose (this b), fun w b => Classical.choose_spec (this b) w⟩

theorem isWord_float {w : List UInt8} (h : FloatText w) : IsWord (.float, w) := by
  obtain ⟨a, b, rfl, ha, hb, h1, h2⟩ := h
  exact ⟨by simp, fun r => .float ha hb h1 h2 (by intro d hd; cases hd; decide)⟩

/-- What the parser uses of the texts of tokens. -/
def TokOk (t : Token) : Prop := (t.kind = .ident → nameOk t.text = true) ∧ (t.kind = .float → FloatText t.text)

theorem lookup_mem {l : List (List UInt8 × Kind)} {w : List UInt8} {k : Kind} (h : l.lookup w = some k) : (w, k) ∈ l := by
  induction l with
  | nil => cases h
  | cons p l ih =>
    obtain ⟨v, k'⟩ := p
    rw [List.lookup_cons] at h
    by_cases e : w = v
    · subst e
      rw [beq_self_eq_true] at h
      cases h
      simp
    · rw [beq_eq_false_iff_ne.mpr e] at h
      exact List.mem_cons_of_mem _ (ih h)

theorem lexeme_tok {k : Kind} {w r : List UInt8} (n : Int) (h : Lexeme k w r) : TokOk ⟨k, n, w⟩ := by
  cases h with
  | @word c v _ hc hv hr =>
    have hk : ∀ k, kwords.lookup (c :: v) = some k → k ≠ .ident ∧ k ≠ .float := fun k h =>
      (by decide : ∀ p ∈ kwords, p.2 ≠ Kind.ident ∧ p.2 ≠ .float) _ (lookup_mem h)
    cases hl : kwords.lookup (c :: v) with
    | some k =>
      obtain ⟨h1, h2⟩ := hk k hl
      exact ⟨fun h => absurd h h1, fun h => absurd h h2⟩
    | none =>
      refine ⟨fun _ => ?_, nofun⟩
      simp only [nameOk, Bool.and_eq_true, List.all_eq_true, Bool.not_eq_true']
      refine ⟨⟨hc, hv⟩, ?_⟩
      have : c :: v ∉ reserved := by
        intro hm
        have := (by decide : ∀ w ∈ reserved, (kwords.lookup w).isSome = true) _ hm
        rw [hl] at this
        cases this
      simpa using this
  | int => exact ⟨nofun, nofun⟩
  | @float a b r h1 h2 h3 h4 _ => exact ⟨nofun, fun _ => ⟨a, b, rfl, h1, h2, h3, h4⟩⟩
  | string => exact ⟨nofun, nofun⟩
  | oper _ _ hl =>
    have := (by decide : ∀ p ∈ optable, p.2 ≠ Kind.ident ∧ p.2 ≠ .float) _ (lookup_mem hl)
    exact ⟨fun h => absurd h this.1, fun h => absurd h this.2⟩
  | operFirst => exact ⟨nofun, nofun⟩
  | single => exact ⟨nofun, nofun⟩

theorem split_toks {src : List UInt8} {n : Nat} {ts : List Token} (h : Split src n ts) : ∀ t ∈ ts, TokOk t := by
  induction h with
  | done =>
    intro t ht
    rw [List.mem_singleton] at ht
    subst ht
    exact ⟨nofun, nofun⟩
  | token _ _ hl _ ih =>
    intro t ht
    rcases List.mem_cons.mp ht with rfl | ht
    · exact lexeme_tok _ hl
    · exact ih t ht

section
variable (flt : List UInt8 → Option (BitVec 64)) (fs : BitVec 64 → List UInt8)

/-- The trees of the parts of a program. -/
def Good : Nt → List Token → Prop
  | .prim e, _ => OkE flt fs false e
  | .post e, _ => OkE flt fs false e
  | .pre e, _ => OkE flt fs false e
  | .ops _ _ e, _ => OkE flt fs false e
  | .asn _ _ e, _ => OkE flt fs false e
  | .items es, _ => OkEs flt fs es
  | .list es _, _ => OkEs flt fs es
  | .args acc es, _ => OkEs flt fs acc → OkEs flt fs es
  | .key e, _ => isField e = false → OkE flt fs false e
  | .pairs ps, _ => OkPs flt fs ps
  | .opt _ _ o, _ => OkO flt fs o
  | .params acc ps, _ => OkParams flt fs acc → OkParams flt fs ps
  | .func d, r => nameOk d.name = true ∧ OkF flt fs d.f ∧ (closed d.f.body = false → ∀ t u, r = t :: u → t.kind ≠ .kwElse)
  | .stmt s, r => OkS flt fs s ∧ (closed s = false → ∀ t u, r = t :: u → t.kind ≠ .kwElse)
  | .stmts _ ss, _ => OkSs flt fs ss
end

theorem cString_strOk {s : List UInt8} (h : s.length ≤ 4095) : StrOk (cString s) := by
  refine ⟨fun h0 => ?_, ?_⟩
  · clear h
    unfold cString at h0
    induction s with
    | nil => cases h0
    | cons c s ih =>
      by_cases hc : c = 0
      · rw [List.takeWhile_cons_of_neg (by simpa using hc)] at h0
        cases h0
      · rw [List.takeWhile_cons_of_pos (by simpa using hc)] at h0
        rcases List.mem_cons.mp h0 with e | h0
        · exact hc e.symm
        · exact ih h0
  · have := (List.takeWhile_sublist (· ≠ (0 : UInt8)) (l := s)).length_le
    exact Nat.le_trans this h

theorem isField_name_token {t : Token} (h : nameOk t.text = true) {p : Pos} : isField (.str (cString t.text) p) = true := by
  show nameOk (cString t.text) = true
  rw [nameOk_cString h]
  exact h

theorem OkE.anyFunc {flt : List UInt8 → Option (BitVec 64)} {fs : BitVec 64 → List UInt8} {e : RExpr} (h : OkE flt fs false e) :
    OkE flt fs true e ∧ isFunc e = false := by
  cases e <;> first | exact ⟨h, rfl⟩ | cases h.1

section
variable {flt : List UInt8 → Option (BitVec 64)} {fs : BitVec 64 → List UInt8}

theorem all_cons {t : Token} {ts : List Token} (h : ∀ x ∈ t :: ts, TokOk x) : TokOk t ∧ ∀ x ∈ ts, TokOk x :=
  ⟨h t (by simp), fun x hx => h x (by simp [hx])⟩

theorem notArrow {f : RExpr} (h : ∀ s i q, f ≠ .arw s i q) : isArrow f = false := by
  cases f <;> first | rfl | exact absurd rfl (h _ _ _)

theorem Good.of (hfs : Writes flt fs) {x : Nt} {ts r : List Token} (h : Derives flt x ts r) :
    (∀ t ∈ ts, TokOk t) → Good flt fs x r ∧ ∀ t ∈ r, TokOk t := by
  induction h with
  | int hk hl hv =>
    intro ht
    exact ⟨⟨by omega, by omega⟩, (all_cons ht).2⟩
  | float hk hl hv =>
    intro ht
    obtain ⟨h1, h2⟩ := all_cons ht
    obtain ⟨a, b, c⟩ := hfs _ _ (h1.2 hk) hl hv
    exact ⟨⟨isWord_float a, b, c⟩, h2⟩
  | string hk hs hl =>
    intro ht
    exact ⟨cString_strOk hl, (all_cons ht).2⟩
  | ident hk =>
    intro ht
    obtain ⟨h1, h2⟩ := all_cons ht
    exact ⟨h1.1 hk, h2⟩
  | none hk => intro ht; exact ⟨trivial, (all_cons ht).2⟩
  | tru hk => intro ht; exact ⟨trivial, (all_cons ht).2⟩
  | fls hk => intro ht; exact ⟨trivial, (all_cons ht).2⟩
  | parens ho _ hc ih =>
    intro ht
    obtain ⟨g, hr⟩ := ih (all_cons ht).2
    exact ⟨g, (all_cons hr).2⟩
  | prim_list _ ih => exact ih
  | map0 => intro ht; exact ⟨trivial, (all_cons (all_cons ht).2).2⟩
  | map ho _ hc ih =>
    intro ht
    obtain ⟨g, hr⟩ := ih (all_cons ht).2
    exact ⟨g, (all_cons hr).2⟩
  | list0 => intro ht; exact ⟨trivial, (all_cons (all_cons ht).2).2⟩
  | list ho _ hc ih =>
    intro ht
    obtain ⟨g, hr⟩ := ih (all_cons ht).2
    exact ⟨g, (all_cons hr).2⟩
  | items_one _ ih =>
    intro ht
    obtain ⟨g, hr⟩ := ih ht
    exact ⟨⟨g, trivial⟩, hr⟩
  | items_more _ hc _ ih1 ih2 =>
    intro ht
    obtain ⟨g, hr⟩ := ih1 ht
    obtain ⟨g2, hr2⟩ := ih2 (all_cons hr).2
    exact ⟨⟨g, g2⟩, hr2⟩
  | key_ident hk hc =>
    intro ht
    obtain ⟨h1, h2⟩ := all_cons ht
    refine ⟨fun h => ?_, h2⟩
    rw [isField_name_token (h1.1 hk)] at h
    cases h
  | key_expr _ _ ih =>
    intro ht
    obtain ⟨g, hr⟩ := ih ht
    exact ⟨fun _ => g, hr⟩
  | pair_last _ hc _ ih1 ih2 =>
    intro ht
    obtain ⟨g, hr⟩ := ih1 ht
    obtain ⟨g2, hr2⟩ := ih2 (all_cons hr).2
    obtain ⟨g3, g4⟩ := OkE.anyFunc g2
    exact ⟨⟨g, (fun h => by rw [g4] at h; cases h), g3, trivial⟩, hr2⟩
  | pair_more _ hc _ hd _ ih1 ih2 ih3 =>
    intro ht
    obtain ⟨g, hr⟩ := ih1 ht
    obtain ⟨g2, hr2⟩ := ih2 (all_cons hr).2
    obtain ⟨g3, hr3⟩ := ih3 (all_cons hr2).2
    obtain ⟨g5, g4⟩ := OkE.anyFunc g2
    exact ⟨⟨g, (fun h => by rw [g4] at h; cases h), g5, g3⟩, hr3⟩
  | pair_func_last _ ih =>
    intro ht
    obtain ⟨⟨g1, g2, _⟩, hr⟩ := ih ht
    exact ⟨⟨(fun h => by rw [show isField (.str _ _) = nameOk _ from rfl, g1] at h; cases h), fun _ => g1, ⟨rfl, g2⟩, trivial⟩, hr⟩
  | pair_func _ _ ih ih2 =>
    intro ht
    obtain ⟨⟨g1, g2, _⟩, hr⟩ := ih ht
    obtain ⟨g3, hr2⟩ := ih2 hr
    exact ⟨⟨(fun h => by rw [show isField (.str _ _) = nameOk _ from rfl, g1] at h; cases h), fun _ => g1, ⟨rfl, g2⟩, g3⟩, hr2⟩
  | post_prim _ ih => exact ih
  | dot _ hd hn ih =>
    intro ht
    obtain ⟨g, hr⟩ := ih ht
    obtain ⟨h1, h2⟩ := all_cons (all_cons hr).2
    refine ⟨⟨g, fun h => ?_⟩, h2⟩
    rw [isField_name_token (h1.1 hn)] at h
    cases h
  | arrow _ hd hn ih =>
    intro ht
    obtain ⟨g, hr⟩ := ih ht
    obtain ⟨h1, h2⟩ := all_cons (all_cons hr).2
    exact ⟨⟨g, isField_name_token (h1.1 hn)⟩, h2⟩
  | index _ _ ih1 ih2 =>
    intro ht
    obtain ⟨g, hr⟩ := ih1 ht
    obtain ⟨g2, hr2⟩ := ih2 hr
    exact ⟨⟨g, fun _ => g2.1⟩, hr2⟩
  | indices _ _ ih1 ih2 =>
    intro ht
    obtain ⟨g, hr⟩ := ih1 ht
    obtain ⟨g2, hr2⟩ := ih2 hr
    exact ⟨⟨g, fun _ => g2⟩, hr2⟩
  | call0 _ ho hc hcl ih =>
    intro ht
    obtain ⟨g, hr⟩ := ih ht
    refine ⟨?_, (all_cons (all_cons hr).2).2⟩
    cases hcl with
    | method => exact ⟨g.1, g.2, trivial⟩
    | fn hf => exact ⟨g, notArrow hf, trivial⟩
  | call _ ho _ hc hcl ih1 ih2 =>
    intro ht
    obtain ⟨g, hr⟩ := ih1 ht
    obtain ⟨g2, hr2⟩ := ih2 (all_cons hr).2
    refine ⟨?_, (all_cons hr2).2⟩
    cases hcl with
    | method => exact ⟨g.1, g.2, g2 trivial⟩
    | fn hf => exact ⟨g, notArrow hf, g2 trivial⟩
  | args_one _ ih =>
    intro ht
    obtain ⟨g, hr⟩ := ih ht
    exact ⟨fun h => ⟨g, h⟩, hr⟩
  | args_more _ hc _ ih1 ih2 =>
    intro ht
    obtain ⟨g, hr⟩ := ih1 ht
    obtain ⟨g2, hr2⟩ := ih2 (all_cons hr).2
    exact ⟨fun h => g2 ⟨g, h⟩, hr2⟩
  | pre_post _ ih => exact ih
  | un _ _ ih =>
    intro ht
    exact ih (all_cons ht).2
  | ops_pre _ ih => exact ih
  | left hi _ _ _ _ ih1 ih2 =>
    intro ht
    obtain ⟨g, hr⟩ := ih1 ht
    obtain ⟨g2, hr2⟩ := ih2 (all_cons hr).2
    refine ⟨?_, hr2⟩
    revert hi
    generalize Token.kind _ = k
    intro hi
    cases hi <;> exact ⟨g, g2⟩
  | asn_ops _ ih => exact ih
  | assign _ _ _ ih1 ih2 =>
    intro ht
    obtain ⟨g, hr⟩ := ih1 ht
    obtain ⟨g2, hr2⟩ := ih2 (all_cons hr).2
    exact ⟨⟨g, g2⟩, hr2⟩
  | opt_no _ => intro ht; exact ⟨trivial, ht⟩
  | opt_yes _ _ ih => intro ht; exact ih (all_cons ht).2
  | params_one hn _ _ ih1 ih2 =>
    intro ht
    obtain ⟨h1, h2⟩ := all_cons ht
    obtain ⟨g, hr⟩ := ih1 h2
    obtain ⟨g2, hr2⟩ := ih2 hr
    exact ⟨fun h => ⟨h1.1 hn, g2, g, h⟩, hr2⟩
  | params_more hn _ _ hc _ ih1 ih2 ih3 =>
    intro ht
    obtain ⟨h1, h2⟩ := all_cons ht
    obtain ⟨g, hr⟩ := ih1 h2
    obtain ⟨g2, hr2⟩ := ih2 hr
    obtain ⟨g3, hr3⟩ := ih3 (all_cons hr2).2
    exact ⟨fun h => g3 ⟨h1.1 hn, g2, g, h⟩, hr3⟩
  | func0 hf hn ho hc _ ih =>
    intro ht
    obtain ⟨h1, h2⟩ := all_cons (all_cons ht).2
    obtain ⟨g, hr⟩ := ih (all_cons (all_cons h2).2).2
    exact ⟨⟨h1.1 hn, ⟨trivial, g.1⟩, g.2⟩, hr⟩
  | func hf hn ho _ hc _ ih1 ih2 =>
    intro ht
    obtain ⟨h1, h2⟩ := all_cons (all_cons ht).2
    obtain ⟨g, hr⟩ := ih1 (all_cons h2).2
    obtain ⟨g2, hr2⟩ := ih2 (all_cons hr).2
    exact ⟨⟨h1.1 hn, ⟨g trivial, g2.1⟩, g2.2⟩, hr2⟩
  | stmt_expr _ _ hs ih =>
    intro ht
    obtain ⟨g, hr⟩ := ih ht
    exact ⟨⟨g, nofun⟩, (all_cons hr).2⟩
  | block _ _ _ ih =>
    intro ht
    obtain ⟨g, hr⟩ := ih (all_cons ht).2
    exact ⟨⟨g, nofun⟩, (all_cons hr).2⟩
  | brk => intro ht; exact ⟨⟨trivial, nofun⟩, (all_cons (all_cons ht).2).2⟩
  | ret _ _ _ ih =>
    intro ht
    obtain ⟨g, hr⟩ := ih (all_cons ht).2
    exact ⟨⟨g, nofun⟩, (all_cons hr).2⟩
  | @stmt_func d _ _ _ ih =>
    intro ht
    obtain ⟨⟨g1, g2, g3⟩, hr⟩ := ih ht
    refine ⟨⟨⟨g1, g2⟩, ?_⟩, hr⟩
    obtain ⟨n, np, ⟨ps, b⟩, p⟩ := d
    exact g3
  | while_ _ _ _ _ ih1 ih2 =>
    intro ht
    obtain ⟨g, hr⟩ := ih1 (all_cons ht).2
    obtain ⟨g2, hr2⟩ := ih2 (all_cons hr).2
    exact ⟨⟨⟨g, g2.1⟩, g2.2⟩, hr2⟩
  | do_ _ _ _ _ _ ih1 ih2 =>
    intro ht
    obtain ⟨g, hr⟩ := ih1 (all_cons ht).2
    obtain ⟨g2, hr2⟩ := ih2 (all_cons hr).2
    exact ⟨⟨⟨g.1, g2⟩, nofun⟩, (all_cons hr2).2⟩
  | if_ _ _ _ _ hne ih1 ih2 =>
    intro ht
    obtain ⟨g, hr⟩ := ih1 (all_cons ht).2
    obtain ⟨g2, hr2⟩ := ih2 (all_cons hr).2
    exact ⟨⟨⟨g, g2.1⟩, fun _ t u e => by cases e; exact hne⟩, hr2⟩
  | @if_else i ts c x us b e vs b' t r _ _ _ _ he _ ih1 ih2 ih3 =>
    intro ht
    obtain ⟨g, hr⟩ := ih1 (all_cons ht).2
    obtain ⟨g2, hr2⟩ := ih2 (all_cons hr).2
    obtain ⟨g3, hr3⟩ := ih3 (all_cons hr2).2
    have : closed b = true := by
      cases hb : closed b with
      | true => rfl
      | false => exact absurd he (g2.2 hb _ _ rfl)
    exact ⟨⟨⟨g, g2.1, this, g3.1⟩, g3.2⟩, hr3⟩
  | stmts_nil => intro ht; exact ⟨trivial, ht⟩
  | stmts_cons _ _ ih1 ih2 =>
    intro ht
    obtain ⟨g, hr⟩ := ih1 ht
    obtain ⟨g2, hr2⟩ := ih2 hr
    exact ⟨⟨g.1, g2⟩, hr2⟩
end

/-- C81: every tree that the parser makes is one that `C81_print` speaks of. -/
theorem C81_parsed (flt : List UInt8 → Option (BitVec 64)) (fs : BitVec 64 → List UInt8) (hfs : Writes flt fs) (past : UInt8)
    (src : List UInt8) (ss : RStmts) (h : parse flt past src = .ok ss) : OkSs flt fs ss := by
  obtain ⟨ts, h1, d, _, h2⟩ := (C80_parse flt past src ss).mp h
  exact (Good.of hfs h2 (split_toks h1)).1

/-- C81: writing down what has been parsed and parsing it again changes nothing but the positions. -/
theorem C81_reparse (flt : List UInt8 → Option (BitVec 64)) (fs : BitVec 64 → List UInt8) (hfs : Writes flt fs) (past : UInt8)
    (src : List UInt8) (ss : RStmts) (h : parse flt past src = .ok ss) :
    ∃ ss', parse flt past (programText fs ss) = .ok ss' ∧ eraseSs ss' = eraseSs ss :=
  C81_print flt fs past ss (C81_parsed flt fs hfs past src ss h)

/-- A program that the parser accepts, as in `C81_parsed` and `C81_reparse`, and its text as `programText` writes it. -/
example :
    (parse (fun _ => none) 0 (bytes "if (a, b = {x: [1, 2].y, fun f(p: int, q = 2) while p: break;}): do { } while not (c < -d)->m(\"it's\\n\", 3);")
      >>= fun ss => .ok (programText (fun _ => []) ss)) =
    .ok (bytes "if a , b = { x : [ 1 , 2 ] . y , fun f ( p : int , q = 2 ) while p : break ; } : do { } while not ( c < - d ) -> m ( \"it's\n\" , 3 ) ; ") := by
  decide +kernel

end Noja.Parse
