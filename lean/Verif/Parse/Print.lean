import Verif.Parse.Syntax

/-!
# Every program can be written down (C81)

`RStmts.words` writes a tree as words, with parentheses only where they are needed; parsing the text gives the tree
back, except for the positions.
-/

namespace Noja.Parse

open Noja.VM (RExpr RExprs RPairs RCall RFun RParams ROpt RStmt RStmts Pos Name UnOp BinOp)

set_option linter.unusedSimpArgs false
set_option linter.unusedVariables false

/-! ## Trees without positions -/

/-- The position that replaces all others. -/
def nowhere : Pos := ⟨0, 0⟩

mutual
def eraseE : RExpr → RExpr
  | .none _ => .none nowhere
  | .tru _ => .tru nowhere
  | .fls _ => .fls nowhere
  | .int v _ => .int v nowhere
  | .float b _ => .float b nowhere
  | .str s _ => .str s nowhere
  | .ident n _ => .ident n nowhere
  | .un op a _ => .un op (eraseE a) nowhere
  | .bin op a b _ => .bin op (eraseE a) (eraseE b) nowhere
  | .and a b _ => .and (eraseE a) (eraseE b) nowhere
  | .or a b _ => .or (eraseE a) (eraseE b) nowhere
  | .ass a b _ => .ass (eraseE a) (eraseE b) nowhere
  | .pair a b _ => .pair (eraseE a) (eraseE b) nowhere
  | .arw a b _ => .arw (eraseE a) (eraseE b) nowhere
  | .list es _ => .list (eraseEs es) nowhere
  | .map ps _ => .map (erasePs ps) nowhere
  | .call c _ => .call (eraseC c) nowhere
  | .select a b _ => .select (eraseE a) (eraseE b) nowhere
  | .func f _ => .func (eraseF f) nowhere
def eraseC : RCall → RCall
  | .fn f as => .fn (eraseE f) (eraseEs as)
  | .method s i _ as => .method (eraseE s) (eraseE i) nowhere (eraseEs as)
def eraseEs : RExprs → RExprs
  | .nil => .nil
  | .cons e es => .cons (eraseE e) (eraseEs es)
def erasePs : RPairs → RPairs
  | .nil => .nil
  | .cons k i ps => .cons (eraseE k) (eraseE i) (erasePs ps)
def eraseF : RFun → RFun
  | .mk ps b => .mk (eraseArgs ps) (eraseS b)
def eraseArgs : RParams → RParams
  | .nil => .nil
  | .cons n d t _ ps => .cons n (eraseO d) (eraseO t) nowhere (eraseArgs ps)
def eraseO : ROpt → ROpt
  | .no => .no
  | .yes e => .yes (eraseE e)
def eraseS : RStmt → RStmt
  | .expr e => .expr (eraseE e)
  | .ifElse c t f _ => .ifElse (eraseE c) (eraseS t) (eraseS f) nowhere
  | .ifOnly c t _ => .ifOnly (eraseE c) (eraseS t) nowhere
  | .while c b _ => .while (eraseE c) (eraseS b) nowhere
  | .doWhile b c _ => .doWhile (eraseS b) (eraseE c) nowhere
  | .comp ss _ => .comp (eraseSs ss) nowhere
  | .ret e _ => .ret (eraseE e) nowhere
  | .func n f _ _ => .func n (eraseF f) nowhere nowhere
  | .brk _ => .brk nowhere
def eraseSs : RStmts → RStmts
  | .nil => .nil
  | .cons s ss => .cons (eraseS s) (eraseSs ss)
end

/-! ## Words -/

/-- A word that is one character. -/
def sym (c : UInt8) : Word := (.ch c, [c])

/-- The digits of a number, the last one first. -/
def digitsRev (n : Nat) : List UInt8 :=
  if n < 10 then [(48 + n).toUInt8] else (48 + n % 10).toUInt8 :: digitsRev (n / 10)
termination_by n

/-- The operators of two operands: how they are written. -/
def opSign : BinOp → Sign
  | .sum => .bar
  | .add => .plus
  | .sub => .minus
  | .mul => .times
  | .div => .over
  | .mod => .mod
  | .eql => .equal
  | .nql => .notEqual
  | .lss => .less
  | .leq => .lessEq
  | .grt => .greater
  | .geq => .greaterEq

def unWord : UnOp → Word
  | .pos => (.ch 43, bytes "+")
  | .neg => (.ch 45, bytes "-")
  | .nlb => (.ch 63, bytes "?")
  | .not => (.kwNot, bytes "not")

/-- In parentheses if need be. -/
def wrap (q : Bool) (ws : List Word) : List Word := bif q then sym 40 :: (ws ++ [sym 41]) else ws

/-- A string literal. -/
def strWord (s : List UInt8) : Word := (.string, 34 :: (quote 34 s ++ [34]))

/-- The words that are not names. -/
def reserved : List (List UInt8) :=
  ["if", "fun", "not", "and", "or", "else", "none", "true", "false", "return", "while", "break", "do"].map bytes

/-- A name: a letter or `_`, then letters, digits and `_`. -/
def nameOk : Name → Bool
  | [] => false
  | c :: v => identStart c && v.all identChar && !reserved.contains (c :: v)

/-- A field that can be given by its name. -/
def isField : RExpr → Bool
  | .str s _ => nameOk s
  | _ => false

/-- The name that follows an arrow. -/
def fieldName : RExpr → Name
  | .str s _ => s
  | _ => []

def isFunc : RExpr → Bool
  | .func _ _ => true
  | _ => false

def isStr : RExpr → Bool
  | .str _ _ => true
  | _ => false

def noPairs : RPairs → Bool
  | .nil => true
  | _ => false

def noExprs : RExprs → Bool
  | .nil => true
  | _ => false

def noParams : RParams → Bool
  | .nil => true
  | _ => false

/-- A comma, unless what it should separate is missing. -/
def comma (missing : Bool) : List Word := bif missing then [] else [sym 44]

/-- A statement must not start with `{` unless it is a block. -/
def guarded (ws : List Word) : List Word := wrap (ws.head?.map (·.1) == some (.ch 123)) ws

section
variable (fs : BitVec 64 → List UInt8)

mutual
/-- An expression where operators of level `m` and above may stand (0: assignments, 1 to 7: operators of two operands, 8: of one
operand, 9: what calls and selections are made of); commas only if `tu`, assignments only if `as`. -/
def wordsE (tu as : Bool) (m : Nat) : RExpr → List Word
  | .none _ => [(.kwNone, bytes "none")]
  | .tru _ => [(.kwTrue, bytes "true")]
  | .fls _ => [(.kwFalse, bytes "false")]
  | .int v _ => [(.int, (digitsRev v.toNat).reverse)]
  | .float b _ => [(.float, fs b)]
  | .str s _ => [strWord s]
  | .ident n _ => [(.ident, n)]
  | .un op a _ => wrap (decide (8 < m)) (unWord op :: wordsE false false 8 a)
  | .bin op a b _ =>
    let l := (opSign op).level
    let q := decide (l < m)
    wrap q (wordsE (q || tu) false l a ++ (opSign op).word :: wordsE (q || tu) false (l + 1) b)
  | .and a b _ =>
    let q := decide (3 < m)
    wrap q (wordsE (q || tu) false 3 a ++ (.kwAnd, bytes "and") :: wordsE (q || tu) false 4 b)
  | .or a b _ =>
    let q := decide (2 < m)
    wrap q (wordsE (q || tu) false 2 a ++ (.kwOr, bytes "or") :: wordsE (q || tu) false 3 b)
  | .ass a b _ =>
    let q := decide (0 < m) || !as
    wrap q (wordsE (q || tu) false 1 a ++ sym 61 :: wordsE (q || tu) true 0 b)
  | .pair a b _ =>
    let q := decide (7 < m) || !tu
    wrap q (wordsE (q || tu) false 7 a ++ sym 44 :: wordsE (q || tu) false 8 b)
  | .arw s i _ => wordsE false false 9 s ++ [(.arw, bytes "->"), (.ident, fieldName i)]
  | .list es _ => sym 91 :: (wordsItems es ++ [sym 93])
  | .map ps _ => sym 123 :: (wordsPairs ps ++ [sym 125])
  | .call c _ => wordsC c
  | .select s i _ =>
    wordsE false false 9 s ++ (bif isField i then [sym 46, (.ident, fieldName i)] else sym 91 :: (wordsE false true 0 i ++ [sym 93]))
  | .func f _ => wordsF f
def wordsC : RCall → List Word
  | .fn f as => wordsE false false 9 f ++ sym 40 :: (wordsArgs as ++ [sym 41])
  | .method s i _ as =>
    wordsE false false 9 s ++ (.arw, bytes "->") :: (.ident, fieldName i) :: sym 40 :: (wordsArgs as ++ [sym 41])
def wordsItems : RExprs → List Word
  | .nil => []
  | .cons e es => wordsE false true 0 e ++ (comma (noExprs es) ++ wordsItems es)
/-- Arguments: the last one is the first of the list. -/
def wordsArgs : RExprs → List Word
  | .nil => []
  | .cons e es => wordsArgs es ++ (comma (noExprs es) ++ wordsE false true 0 e)
def wordsPairs : RPairs → List Word
  | .nil => []
  | .cons k i ps =>
    bif isFunc i then (.kwFun, bytes "fun") :: (.ident, fieldName k) :: (wordsE false true 0 i ++ wordsPairs ps)
    else ((bif isField k then [(.ident, fieldName k)] else wrap (!isStr k) (wordsE true true 0 k)) ++ sym 58 :: (wordsE false true 0 i ++ (comma (noPairs ps) ++ wordsPairs ps)))
/-- A function without `fun` and the name. -/
def wordsF : RFun → List Word
  | .mk ps b => sym 40 :: (wordsParams ps ++ sym 41 :: wordsS b)
/-- Parameters: the last one is the first of the list. -/
def wordsParams : RParams → List Word
  | .nil => []
  | .cons n d t _ ps =>
    wordsParams ps ++ (comma (noParams ps) ++ (.ident, n) :: (wordsO (sym 58) false t ++ wordsO (sym 61) true d))
def wordsO (w : Word) (as : Bool) : ROpt → List Word
  | .no => []
  | .yes e => w :: wordsE false as 0 e
def wordsS : RStmt → List Word
  | .expr e => guarded (wordsE true true 0 e) ++ [sym 59]
  | .ifElse c t f _ =>
    (.kwIf, bytes "if") :: (wordsE true true 0 c ++ sym 58 :: (wordsS t ++ (.kwElse, bytes "else") :: wordsS f))
  | .ifOnly c t _ => (.kwIf, bytes "if") :: (wordsE true true 0 c ++ sym 58 :: wordsS t)
  | .while c b _ => (.kwWhile, bytes "while") :: (wordsE true true 0 c ++ sym 58 :: wordsS b)
  | .doWhile b c _ => (.kwDo, bytes "do") :: (wordsS b ++ (.kwWhile, bytes "while") :: (wordsE true true 0 c ++ [sym 59]))
  | .comp ss _ => sym 123 :: (wordsSs ss ++ [sym 125])
  | .ret e _ => (.kwReturn, bytes "return") :: (wordsE true true 0 e ++ [sym 59])
  | .func n f _ _ => (.kwFun, bytes "fun") :: (.ident, n) :: wordsF f
  | .brk _ => [(.kwBreak, bytes "break"), sym 59]
def wordsSs : RStmts → List Word
  | .nil => []
  | .cons s ss => wordsS s ++ wordsSs ss
end

/-- A program as a text. -/
def programText (ss : RStmts) : List UInt8 := spaced (wordsSs fs ss)
end

/-! ## Trees that programs have -/

/-- No NUL, and short enough for the buffer of the parser. -/
def StrOk (s : List UInt8) : Prop := (0 : UInt8) ∉ s ∧ s.length ≤ 4095

/-- A statement that no `else` can follow. -/
def closed : RStmt → Bool
  | .ifElse _ _ f _ => closed f
  | .ifOnly _ _ _ => false
  | .while _ b _ => closed b
  | .func _ (.mk _ b) _ _ => closed b
  | _ => true

def isArrow : RExpr → Bool
  | .arw _ _ _ => true
  | _ => false

section
variable (flt : List UInt8 → Option (BitVec 64)) (fs : BitVec 64 → List UInt8)

mutual
/-- An expression; `fn`: it may be a function, which only an item of a map is. -/
def OkE (fn : Bool) : RExpr → Prop
  | .none _ => True
  | .tru _ => True
  | .fls _ => True
  | .int v _ => 0 ≤ v ∧ v < 2 ^ 63
  | .float b _ => IsWord (.float, fs b) ∧ (fs b).length < 64 ∧ flt (fs b) = some b
  | .str s _ => StrOk s
  | .ident n _ => nameOk n = true
  | .un _ a _ => OkE false a
  | .bin _ a b _ => OkE false a ∧ OkE false b
  | .and a b _ => OkE false a ∧ OkE false b
  | .or a b _ => OkE false a ∧ OkE false b
  | .ass a b _ => OkE false a ∧ OkE false b
  | .pair a b _ => OkE false a ∧ OkE false b
  | .arw s i _ => OkE false s ∧ isField i = true
  | .list es _ => OkEs es
  | .map ps _ => OkPs ps
  | .call c _ => OkC c
  | .select s i _ => OkE false s ∧ (isField i = false → OkE false i)
  | .func f _ => fn = true ∧ OkF f
def OkC : RCall → Prop
  | .fn f as => OkE false f ∧ isArrow f = false ∧ OkEs as
  | .method s i _ as => OkE false s ∧ isField i = true ∧ OkEs as
def OkEs : RExprs → Prop
  | .nil => True
  | .cons e es => OkE false e ∧ OkEs es
def OkPs : RPairs → Prop
  | .nil => True
  | .cons k i ps => (isField k = false → OkE false k) ∧ (isFunc i = true → isField k = true) ∧ OkE true i ∧ OkPs ps
def OkF : RFun → Prop
  | .mk ps b => OkParams ps ∧ OkS b
def OkParams : RParams → Prop
  | .nil => True
  | .cons n d t _ ps => nameOk n = true ∧ OkO d ∧ OkO t ∧ OkParams ps
def OkO : ROpt → Prop
  | .no => True
  | .yes e => OkE false e
def OkS : RStmt → Prop
  | .expr e => OkE false e
  | .ifElse c t f _ => OkE false c ∧ OkS t ∧ closed t = true ∧ OkS f
  | .ifOnly c t _ => OkE false c ∧ OkS t
  | .while c b _ => OkE false c ∧ OkS b
  | .doWhile b c _ => OkS b ∧ OkE false c
  | .comp ss _ => OkSs ss
  | .ret e _ => OkE false e
  | .func n f _ _ => nameOk n = true ∧ OkF f
  | .brk _ => True
def OkSs : RStmts → Prop
  | .nil => True
  | .cons s ss => OkS s ∧ OkSs ss
end
end

/-! ## The words are words -/

theorem name_lookup {n : Name} (h : n ∉ reserved) : kwords.lookup n = none := by
  rw [List.lookup_eq_none_iff]
  intro p hp
  have : p.1 ∈ reserved := (by decide : ∀ p ∈ kwords, p.1 ∈ reserved) p hp
  simp only [beq_eq_false_iff_ne, ne_eq, bne_iff_ne]
  rintro rfl
  exact h this

theorem nameOk_spec {n : Name} (h : nameOk n = true) :
    (∃ c v, n = c :: v ∧ identStart c = true ∧ ∀ d ∈ v, identChar d = true) ∧ n ∉ reserved := by
  cases n with
  | nil => cases h
  | cons c v =>
    simp only [nameOk, Bool.and_eq_true, Bool.not_eq_true', List.all_eq_true] at h
    refine ⟨⟨c, v, rfl, h.1.1, h.1.2⟩, ?_⟩
    simpa using h.2

theorem isWord_name {n : Name} (h : nameOk n = true) : IsWord (.ident, n) := by
  obtain ⟨⟨c, v, e, hc, hv⟩, hn⟩ := nameOk_spec h
  exact isWord_ident e hc hv (name_lookup hn)

theorem isField_name {e : RExpr} (h : isField e = true) : nameOk (fieldName e) = true := by
  cases e <;> first | exact h | cases h

theorem isWord_field {e : RExpr} (h : isField e = true) : IsWord (.ident, fieldName e) := isWord_name (isField_name h)

theorem isWord_str (s : List UInt8) : IsWord (strWord s) := by
  refine ⟨by simp [strWord], fun r => ?_⟩
  exact .string (.inr rfl) ((quote_spelled (.inr rfl) s).quoted (.inr rfl))

theorem digit_toNat {d : Nat} (h : d < 10) : ((48 + d).toUInt8).toNat = 48 + d := by
  rw [UInt8.toNat_ofNat']
  omega

theorem digitsRev_spec (n : Nat) : digitsRev n ≠ [] ∧ (∀ d ∈ digitsRev n, isDigit d = true) ∧ valueRev (digitsRev n) = n := by
  induction n using digitsRev.induct with
  | case1 n h =>
    rw [digitsRev, if_pos h]
    refine ⟨by simp, ?_, ?_⟩
    · intro d hd
      rw [List.mem_singleton] at hd
      subst hd
      have := digit_toNat h
      simp only [isDigit, Bool.and_eq_true, decide_eq_true_eq, UInt8.le_iff_toNat_le, this]
      exact ⟨by simp, by have : (57 : UInt8).toNat = 57 := rfl; omega⟩
    · simp only [valueRev, digit_toNat h]
      omega
  | case2 n h ih =>
    rw [digitsRev, if_neg h]
    have h10 : n % 10 < 10 := Nat.mod_lt _ (by decide)
    refine ⟨by simp, ?_, ?_⟩
    · intro d hd
      rcases List.mem_cons.mp hd with rfl | hd
      · have := digit_toNat h10
        simp only [isDigit, Bool.and_eq_true, decide_eq_true_eq, UInt8.le_iff_toNat_le, this]
        exact ⟨by simp, by have : (57 : UInt8).toNat = 57 := rfl; omega⟩
      · exact ih.2.1 d hd
    · simp only [valueRev, digit_toNat h10, ih.2.2]
      omega

theorem digitsRev_length (n : Nat) : ∀ k, n < 10 ^ (k + 1) → (digitsRev n).length ≤ k + 1 := by
  induction n using digitsRev.induct with
  | case1 n h =>
    intro k _
    rw [digitsRev, if_pos h]
    simp
  | case2 n h ih =>
    intro k hk
    rw [digitsRev, if_neg h]
    cases k with
    | zero => simp at hk; omega
    | succ k =>
      have := ih k (by rw [Nat.pow_succ] at hk; omega)
      simp only [List.length_cons]
      omega

theorem isWord_un (op : UnOp) : IsWord (unWord op) := by
  cases op
  · exact isWord_single (by decide)
  · exact isWord_key (c := 110) (v := [111, 116]) (by decide) (by decide) (by decide) (by decide)
  · exact isWord_oper (by decide) (by decide) (by decide)
  · exact isWord_oper (by decide) (by decide) (by decide)

/-- All of them are words. -/
def Words (ws : List Word) : Prop := ∀ w ∈ ws, IsWord w

theorem Words.nil : Words [] := fun _ h => by cases h
theorem Words.cons {w : Word} {ws : List Word} (h : IsWord w) (hs : Words ws) : Words (w :: ws) := by
  intro x hx
  rcases List.mem_cons.mp hx with rfl | hx
  · exact h
  · exact hs x hx
theorem Words.append {ws vs : List Word} (h : Words ws) (hs : Words vs) : Words (ws ++ vs) := by
  intro x hx
  rcases List.mem_append.mp hx with hx | hx
  · exact h x hx
  · exact hs x hx
theorem Words.single {w : Word} (h : IsWord w) : Words [w] := .cons h .nil
theorem Words.wrap {q : Bool} {ws : List Word} (h : Words ws) : Words (wrap q ws) := by
  cases q
  · exact h
  · exact .cons (isWord_single (by decide)) (h.append (.single (isWord_single (by decide))))
theorem Words.comma {q : Bool} : Words (comma q) := by
  cases q
  · exact .single (isWord_oper (by decide) (by decide) (by decide))
  · exact .nil
theorem Words.guarded {ws : List Word} (h : Words ws) : Words (guarded ws) := h.wrap

theorem isWord_arw : IsWord (.arw, bytes "->") := isWord_oper (by decide) (by decide) (by decide)
theorem isWord_eq : IsWord (sym 61) := isWord_oper (by decide) (by decide) (by decide)
theorem isWord_comma : IsWord (sym 44) := isWord_oper (by decide) (by decide) (by decide)

/-- The key words. -/
theorem isWord_kw {k : Kind} {s : List UInt8}
    (h : (s, k) ∈ [(bytes "if", Kind.kwIf), (bytes "fun", .kwFun), (bytes "not", .kwNot), (bytes "and", .kwAnd), (bytes "or", .kwOr),
      (bytes "else", .kwElse), (bytes "none", .kwNone), (bytes "true", .kwTrue), (bytes "false", .kwFalse),
      (bytes "return", .kwReturn), (bytes "while", .kwWhile), (bytes "break", .kwBreak), (bytes "do", .kwDo)]) : IsWord (k, s) := by
  simp only [List.mem_cons, Prod.mk.injEq, List.not_mem_nil, or_false] at h
  rcases h with ⟨rfl, rfl⟩ | ⟨rfl, rfl⟩ | ⟨rfl, rfl⟩ | ⟨rfl, rfl⟩ | ⟨rfl, rfl⟩ | ⟨rfl, rfl⟩ | ⟨rfl, rfl⟩ | ⟨rfl, rfl⟩ | ⟨rfl, rfl⟩ |
    ⟨rfl, rfl⟩ | ⟨rfl, rfl⟩ | ⟨rfl, rfl⟩ | ⟨rfl, rfl⟩
  · exact isWord_key (c := 105) (v := [102]) (by decide) (by decide) (by decide) (by decide)
  · exact isWord_key (c := 102) (v := [117, 110]) (by decide) (by decide) (by decide) (by decide)
  · exact isWord_key (c := 110) (v := [111, 116]) (by decide) (by decide) (by decide) (by decide)
  · exact isWord_key (c := 97) (v := [110, 100]) (by decide) (by decide) (by decide) (by decide)
  · exact isWord_key (c := 111) (v := [114]) (by decide) (by decide) (by decide) (by decide)
  · exact isWord_key (c := 101) (v := [108, 115, 101]) (by decide) (by decide) (by decide) (by decide)
  · exact isWord_key (c := 110) (v := [111, 110, 101]) (by decide) (by decide) (by decide) (by decide)
  · exact isWord_key (c := 116) (v := [114, 117, 101]) (by decide) (by decide) (by decide) (by decide)
  · exact isWord_key (c := 102) (v := [97, 108, 115, 101]) (by decide) (by decide) (by decide) (by decide)
  · exact isWord_key (c := 114) (v := [101, 116, 117, 114, 110]) (by decide) (by decide) (by decide) (by decide)
  · exact isWord_key (c := 119) (v := [104, 105, 108, 101]) (by decide) (by decide) (by decide) (by decide)
  · exact isWord_key (c := 98) (v := [114, 101, 97, 107]) (by decide) (by decide) (by decide) (by decide)
  · exact isWord_key (c := 100) (v := [111]) (by decide) (by decide) (by decide) (by decide)

section
variable {flt : List UInt8 → Option (BitVec 64)} {fs : BitVec 64 → List UInt8}

mutual
theorem isWords_E (tu as : Bool) (m : Nat) (fn : Bool) : ∀ e : RExpr, OkE flt fs fn e → Words (wordsE fs tu as m e)
  | .none _, _ => .single (isWord_kw (by decide))
  | .tru _, _ => .single (isWord_kw (by decide))
  | .fls _, _ => .single (isWord_kw (by decide))
  | .int v _, _ => by
    obtain ⟨h1, h2, _⟩ := digitsRev_spec v.toNat
    exact .single (isWord_int (by simpa using h1) (by simpa using h2))
  | .float b _, h => .single h.1
  | .str s _, h => .single (isWord_str s)
  | .ident n _, h => .single (isWord_name h)
  | .un op a _, h => .wrap (.cons (isWord_un op) (isWords_E _ _ _ _ a h))
  | .bin op a b _, h => .wrap (.append (isWords_E _ _ _ _ a h.1) (.cons (opSign op).isWord (isWords_E _ _ _ _ b h.2)))
  | .and a b _, h => .wrap (.append (isWords_E _ _ _ _ a h.1) (.cons (isWord_kw (by decide)) (isWords_E _ _ _ _ b h.2)))
  | .or a b _, h => .wrap (.append (isWords_E _ _ _ _ a h.1) (.cons (isWord_kw (by decide)) (isWords_E _ _ _ _ b h.2)))
  | .ass a b _, h => .wrap (.append (isWords_E _ _ _ _ a h.1) (.cons isWord_eq (isWords_E _ _ _ _ b h.2)))
  | .pair a b _, h => .wrap (.append (isWords_E _ _ _ _ a h.1) (.cons isWord_comma (isWords_E _ _ _ _ b h.2)))
  | .arw s i _, h => .append (isWords_E _ _ _ _ s h.1) (.cons isWord_arw (.single (isWord_field h.2)))
  | .list es _, h => .cons (isWord_single (by decide)) (.append (isWords_items es h) (.single (isWord_single (by decide))))
  | .map ps _, h => .cons (isWord_single (by decide)) (.append (isWords_pairs ps h) (.single (isWord_single (by decide))))
  | .call c _, h => isWords_C c h
  | .select s i _, h => by
    have hi := isWords_E false true 0 false i
    refine .append (isWords_E _ _ _ _ s h.1) ?_
    cases hf : isField i with
    | true => exact .cons (isWord_single (by decide)) (.single (isWord_field hf))
    | false => exact .cons (isWord_single (by decide)) (.append (hi (h.2 hf)) (.single (isWord_single (by decide))))
  | .func f _, h => isWords_F f h.2
theorem isWords_C : ∀ c : RCall, OkC flt fs c → Words (wordsC fs c)
  | .fn f as, h => .append (isWords_E _ _ _ _ f h.1)
      (.cons (isWord_single (by decide)) (.append (isWords_args as h.2.2) (.single (isWord_single (by decide)))))
  | .method s i _ as, h => .append (isWords_E _ _ _ _ s h.1) (.cons isWord_arw (.cons (isWord_field h.2.1)
      (.cons (isWord_single (by decide)) (.append (isWords_args as h.2.2) (.single (isWord_single (by decide)))))))
theorem isWords_items : ∀ es : RExprs, OkEs flt fs es → Words (wordsItems fs es)
  | .nil, _ => .nil
  | .cons e es, h => .append (isWords_E _ _ _ _ e h.1) (.append .comma (isWords_items es h.2))
theorem isWords_args : ∀ es : RExprs, OkEs flt fs es → Words (wordsArgs fs es)
  | .nil, _ => .nil
  | .cons e es, h => .append (isWords_args es h.2) (.append .comma (isWords_E _ _ _ _ e h.1))
theorem isWords_pairs : ∀ ps : RPairs, OkPs flt fs ps → Words (wordsPairs fs ps)
  | .nil, _ => .nil
  | .cons k i ps, h => by
    obtain ⟨hk, hf, hi, hp⟩ := h
    have wk := isWords_E true true 0 false k
    have wi := isWords_E false true 0 true i hi
    have wp := isWords_pairs ps hp
    unfold wordsPairs
    cases hfi : isFunc i with
    | true => exact .cons (isWord_kw (by decide)) (.cons (isWord_field (hf hfi)) (wi.append wp))
    | false =>
      refine .append ?_ (.cons (isWord_single (by decide)) (wi.append (.append .comma wp)))
      cases hfk : isField k with
      | true => exact .single (isWord_field hfk)
      | false => exact .wrap (wk (hk hfk))
theorem isWords_F : ∀ f : RFun, OkF flt fs f → Words (wordsF fs f)
  | .mk ps b, h => .cons (isWord_single (by decide)) (.append (isWords_params ps h.1) (.cons (isWord_single (by decide)) (isWords_S b h.2)))
theorem isWords_params : ∀ ps : RParams, OkParams flt fs ps → Words (wordsParams fs ps)
  | .nil, _ => .nil
  | .cons n d t _ ps, h => .append (isWords_params ps h.2.2.2) (.append .comma (.cons (isWord_name h.1)
      (.append (isWords_O _ _ (isWord_single (by decide)) t h.2.2.1) (isWords_O _ _ isWord_eq d h.2.1))))
theorem isWords_O (w : Word) (as : Bool) (hw : IsWord w) : ∀ o : ROpt, OkO flt fs o → Words (wordsO fs w as o)
  | .no, _ => .nil
  | .yes e, h => .cons hw (isWords_E _ _ _ _ e h)
theorem isWords_S : ∀ s : RStmt, OkS flt fs s → Words (wordsS fs s)
  | .expr e, h => .append (.guarded (isWords_E _ _ _ _ e h)) (.single (isWord_single (by decide)))
  | .ifElse c t f _, h => .cons (isWord_kw (by decide)) (.append (isWords_E _ _ _ _ c h.1) (.cons (isWord_single (by decide))
      (.append (isWords_S t h.2.1) (.cons (isWord_kw (by decide)) (isWords_S f h.2.2.2)))))
  | .ifOnly c t _, h => .cons (isWord_kw (by decide)) (.append (isWords_E _ _ _ _ c h.1) (.cons (isWord_single (by decide)) (isWords_S t h.2)))
  | .while c b _, h => .cons (isWord_kw (by decide)) (.append (isWords_E _ _ _ _ c h.1) (.cons (isWord_single (by decide)) (isWords_S b h.2)))
  | .doWhile b c _, h => .cons (isWord_kw (by decide)) (.append (isWords_S b h.1) (.cons (isWord_kw (by decide))
      (.append (isWords_E _ _ _ _ c h.2) (.single (isWord_single (by decide))))))
  | .comp ss _, h => .cons (isWord_single (by decide)) (.append (isWords_Ss ss h) (.single (isWord_single (by decide))))
  | .ret e _, h => .cons (isWord_kw (by decide)) (.append (isWords_E _ _ _ _ e h) (.single (isWord_single (by decide))))
  | .func n f _ _, h => .cons (isWord_kw (by decide)) (.cons (isWord_name h.1) (isWords_F f h.2))
  | .brk _, _ => .cons (isWord_kw (by decide)) (.single (isWord_single (by decide)))
theorem isWords_Ss : ∀ ss : RStmts, OkSs flt fs ss → Words (wordsSs fs ss)
  | .nil, _ => .nil
  | .cons s ss, h => .append (isWords_S s h.1) (isWords_Ss ss h.2)
end
end

/-! ## The words are the tree -/

section
variable {flt : List UInt8 → Option (BitVec 64)} {fs : BitVec 64 → List UInt8}

/-- What tokens are as an expression of level `m`. -/
def Written (flt : List UInt8 → Option (BitVec 64)) (tu as : Bool) (m : Nat) (e : RExpr) (ts r : List Token) : Prop :=
  (m = 0 → Derives flt (.asn tu as e) ts r) ∧ (1 ≤ m → m ≤ 8 → Derives flt (.ops tu m e) ts r) ∧
    (m = 8 → Derives flt (.pre e) ts r) ∧ (m = 9 → Derives flt (.post e) ts r)

theorem Written.post {tu as : Bool} {m : Nat} {e : RExpr} {ts r : List Token} (h : Derives flt (.post e) ts r) :
    Written flt tu as m e ts r :=
  ⟨fun _ => .asn_ops (.ops_pre (.pre_post h)), fun _ _ => .ops_pre (.pre_post h), fun _ => .pre_post h, fun _ => h⟩

theorem Written.prim {tu as : Bool} {m : Nat} {e : RExpr} {ts r : List Token} (h : Derives flt (.prim e) ts r) :
    Written flt tu as m e ts r := .post (.post_prim h)

theorem Written.pre {tu as : Bool} {m : Nat} {e : RExpr} {ts r : List Token} (hm : m ≤ 8) (h : Derives flt (.pre e) ts r) :
    Written flt tu as m e ts r :=
  ⟨fun _ => .asn_ops (.ops_pre h), fun _ _ => .ops_pre h, fun _ => h, fun _ => by omega⟩

theorem Written.ops {tu as : Bool} {m : Nat} {e : RExpr} {ts r : List Token} (hm : m ≤ 7)
    (h : ∀ k : Int, k ≤ m ∨ k ≤ 1 → Derives flt (.ops tu k e) ts r) : Written flt tu as m e ts r :=
  ⟨fun _ => .asn_ops (h 1 (.inr (by omega))), fun _ _ => h m (.inl (Int.le_refl _)), fun _ => by omega, fun _ => by omega⟩

/-- Some expression with this tree is written there. -/
def Found (flt : List UInt8 → Option (BitVec 64)) (tu as : Bool) (m : Nat) (e : RExpr) (ts : List Token) : Prop :=
  ∀ r, r ≠ [] → ∃ e', eraseE e' = e ∧ Written flt tu as m e' (ts ++ r) r

theorem words_wrap {q : Bool} {ws : List Word} {ts : List Token} (h : words ts = wrap q ws) :
    (q = false ∧ words ts = ws) ∨
    (q = true ∧ ∃ o us c, ts = o :: (us ++ [c]) ∧ o.kind = .ch 40 ∧ c.kind = .ch 41 ∧ words us = ws) := by
  cases q with
  | false => exact .inl ⟨rfl, h⟩
  | true =>
    obtain ⟨o, us, rfl, ho, _, w1⟩ := words_cons h
    obtain ⟨us, cs, rfl, w2, w3⟩ := words_append w1
    obtain ⟨c, cs, rfl, hc, _, w4⟩ := words_cons w3
    have := words_nil w4
    subst this
    exact .inr ⟨rfl, o, us, c, rfl, ho, hc, w2⟩

theorem Found.parens {tu as : Bool} {m : Nat} {e : RExpr} {o c : Token} {us : List Token} (ho : o.kind = .ch 40) (hc : c.kind = .ch 41)
    (h : Found flt true true 0 e us) : Found flt tu as m e (o :: (us ++ [c])) := by
  intro r hr
  obtain ⟨e', h1, h2⟩ := h (c :: r) (by simp)
  refine ⟨e', h1, .prim (.parens ho ?_ hc)⟩
  show Derives flt _ (us ++ [c] ++ r) _
  rw [List.append_assoc]
  exact h2.1 rfl

/-- Operators of two operands. -/
theorem Found.infix {tu as : Bool} {m l : Nat} {a b e : RExpr} {f : RExpr → RExpr → Pos → RExpr} {w : Word} {q : Bool} {A B : List Word}
    {ts : List Token} (hi : Infix w.1 l f) (hl : 1 ≤ l) (hl7 : l ≤ 7) (hq : q = false → m ≤ l ∧ (w.1 = .ch 44 → tu = true))
    (hw : words ts = wrap q (A ++ w :: B))
    (ha : ∀ us, words us = A → Found flt (q || tu) false l a us)
    (hb : ∀ us, words us = B → Found flt (q || tu) false (l + 1) b us)
    (hf : ∀ a' b' p, eraseE a' = a → eraseE b' = b → eraseE (f a' b' p) = e) : Found flt tu as m e ts := by
  have body : ∀ (tu' : Bool) us, words us = A ++ w :: B → (q || tu) = tu' → (w.1 = .ch 44 → tu' = true) → ∀ r, r ≠ [] →
      ∃ e', eraseE e' = e ∧ ∀ k : Int, k ≤ l → Derives flt (.ops tu' k e') (us ++ r) r := by
    intro tu' us hu hq' hw' r hr
    subst hq'
    obtain ⟨u1, u2, rfl, w1, w2⟩ := words_append hu
    obtain ⟨t, u3, rfl, hk, _, w3⟩ := words_cons w2
    obtain ⟨a', ha1, ha2⟩ := ha u1 w1 (t :: (u3 ++ r)) (by simp)
    obtain ⟨b', hb1, hb2⟩ := hb u3 w3 r hr
    refine ⟨_, hf a' b' (upto a'.pos b'.pos) ha1 hb1, fun k hk' => ?_⟩
    rw [List.append_assoc]
    refine .left (by rw [hk]; exact hi) hk' (by rw [hk]; exact hw') (ha2.2.1 hl (by omega)) ?_
    have := hb2.2.1 (by omega) (by omega)
    rw [Int.natCast_add] at this
    exact this
  rcases words_wrap hw with ⟨h0, hw⟩ | ⟨h1, o, us, c, rfl, ho, hc, hw2⟩
  · intro r hr
    subst h0
    obtain ⟨e', h1, h2⟩ := body tu ts hw rfl (hq rfl).2 r hr
    have := (hq rfl).1
    exact ⟨e', h1, .ops (by omega) fun k hk => h2 k (by omega)⟩
  · refine .parens ho hc fun r hr => ?_
    subst h1
    obtain ⟨e', h1, h2⟩ := body true us hw2 rfl (fun _ => rfl) r hr
    exact ⟨e', h1, fun _ => .asn_ops (h2 1 (by omega)), fun h => by omega, fun h => by omega, fun h => by omega⟩

theorem opSign_infix (op : BinOp) : Infix (opSign op).word.1 (opSign op).level (.bin op) ∧ 1 ≤ (opSign op).level ∧
    (opSign op).level ≤ 6 ∧ (opSign op).word.1 ≠ .ch 44 := by
  cases op
  · exact ⟨.sum, by decide, by decide, by decide⟩
  · exact ⟨.add, by decide, by decide, by decide⟩
  · exact ⟨.sub, by decide, by decide, by decide⟩
  · exact ⟨.mul, by decide, by decide, by decide⟩
  · exact ⟨.div, by decide, by decide, by decide⟩
  · exact ⟨.mod, by decide, by decide, by decide⟩
  · exact ⟨.eql, by decide, by decide, by decide⟩
  · exact ⟨.nql, by decide, by decide, by decide⟩
  · exact ⟨.lss, by decide, by decide, by decide⟩
  · exact ⟨.leq, by decide, by decide, by decide⟩
  · exact ⟨.grt, by decide, by decide, by decide⟩
  · exact ⟨.geq, by decide, by decide, by decide⟩

theorem unWord_prefix (op : UnOp) : Prefix (unWord op).1 op := by
  cases op
  · exact .nlb
  · exact .not
  · exact .neg
  · exact .pos

theorem Found.ass {tu as : Bool} {m : Nat} {a b : RExpr} {q : Bool} {A B : List Word} {ts : List Token}
    (hq : q = false → m = 0 ∧ as = true) (hw : words ts = wrap q (A ++ sym 61 :: B))
    (ha : ∀ us, words us = A → Found flt (q || tu) false 1 a us)
    (hb : ∀ us, words us = B → Found flt (q || tu) true 0 b us) : Found flt tu as m (.ass a b nowhere) ts := by
  have body : ∀ (tu' : Bool) us, words us = A ++ sym 61 :: B → (q || tu) = tu' → ∀ r, r ≠ [] →
      ∃ e', eraseE e' = .ass a b nowhere ∧ Derives flt (.asn tu' true e') (us ++ r) r := by
    intro tu' us hu hq' r hr
    subst hq'
    obtain ⟨u1, u2, rfl, w1, w2⟩ := words_append hu
    obtain ⟨t, u3, rfl, hk, _, w3⟩ := words_cons w2
    obtain ⟨a', ha1, ha2⟩ := ha u1 w1 (t :: (u3 ++ r)) (by simp)
    obtain ⟨b', hb1, hb2⟩ := hb u3 w3 r hr
    refine ⟨.ass a' b' (upto a'.pos b'.pos), by rw [eraseE, ha1, hb1], ?_⟩
    rw [List.append_assoc]
    exact .assign (ha2.2.1 (by omega) (by omega)) hk (hb2.1 rfl)
  rcases words_wrap hw with ⟨h0, hw⟩ | ⟨h1, o, us, c, rfl, ho, hc, hw2⟩
  · intro r hr
    subst h0
    obtain ⟨e', h1, h2⟩ := body tu ts hw rfl r hr
    obtain ⟨rfl, rfl⟩ := hq rfl
    exact ⟨e', h1, fun _ => h2, fun h => by omega, fun h => by omega, fun h => by omega⟩
  · refine .parens ho hc fun r hr => ?_
    subst h1
    obtain ⟨e', h1, h2⟩ := body true us hw2 rfl r hr
    exact ⟨e', h1, fun _ => h2, fun h => by omega, fun h => by omega, fun h => by omega⟩

theorem words_single {ts : List Token} {w : Word} (h : words ts = [w]) : ∃ t, ts = [t] ∧ t.kind = w.1 ∧ t.text = w.2 := by
  obtain ⟨t, us, rfl, h1, h2, h3⟩ := words_cons h
  have := words_nil h3
  subst this
  exact ⟨t, rfl, h1, h2⟩

theorem Spelled.spells {s : List UInt8} {b : List UInt8} {q : UInt8} (h : Spelled q b s) : Spells b s := by
  induction h with
  | nil => exact .nil
  | plain _ h2 _ ih => exact .plain h2 ih
  | esc h1 _ ih => exact .esc h1 ih

theorem cString_eq {s : List UInt8} (h : (0 : UInt8) ∉ s) : cString s = s := cString_noNul h

theorem nameOk_cString {n : Name} (h : nameOk n = true) : cString n = n := by
  refine cString_eq fun h0 => ?_
  obtain ⟨⟨c, v, rfl, hc, hv⟩, _⟩ := nameOk_spec h
  rcases List.mem_cons.mp h0 with rfl | h0
  · revert hc; decide
  · have := hv 0 h0
    revert this; decide

/-- Some arguments with these trees, before which are `es`: what else may follow a comma. -/
def FoundArgs (flt : List UInt8 → Option (BitVec 64)) (es : RExprs) (ts : List Token) : Prop :=
  ∀ r, r ≠ [] → ∃ es', eraseEs es' = es ∧ Derives flt (.args .nil es') (ts ++ r) r ∧
    ∀ c us as r', r = c :: us → c.kind = .ch 44 → Derives flt (.args es' as) us r' → Derives flt (.args .nil as) (ts ++ r) r'

def FoundParams (flt : List UInt8 → Option (BitVec 64)) (ps : RParams) (ts : List Token) : Prop :=
  ∀ t r, t.kind ≠ .ch 58 → t.kind ≠ .ch 61 → ∃ ps', eraseArgs ps' = ps ∧ Derives flt (.params .nil ps') (ts ++ t :: r) (t :: r) ∧
    ∀ as r', t.kind = .ch 44 → Derives flt (.params ps' as) r r' → Derives flt (.params .nil as) (ts ++ t :: r) r'

/-- The next token is no `else`. -/
def NoElse (r : List Token) : Prop := ∃ t u, r = t :: u ∧ t.kind ≠ .kwElse

def FoundS (flt : List UInt8 → Option (BitVec 64)) (s : RStmt) (ts : List Token) (cl : Bool) : Prop :=
  ∀ r, r ≠ [] → (cl = false → NoElse r) → ∃ s', eraseS s' = s ∧ Derives flt (.stmt s') (ts ++ r) r

/-- A function, `fun` and the name being there. -/
def FoundF (flt : List UInt8 → Option (BitVec 64)) (f : RFun) (ts : List Token) : Prop :=
  ∀ (k n : Token) r, k.kind = .kwFun → n.kind = .ident → r ≠ [] → (closed f.body = false → NoElse r) →
    ∃ d : FunDecl, d.name = n.text ∧ eraseF d.f = eraseF f ∧ Derives flt (.func d) (k :: n :: (ts ++ r)) r

theorem NoElse.ne {r : List Token} (h : NoElse r) : r ≠ [] := by
  obtain ⟨t, u, rfl, _⟩ := h
  simp

theorem NoElse.first {r : List Token} {p : Kind → Bool} (h : First p r) (hp : p .kwElse = false) : NoElse r := by
  obtain ⟨t, u, rfl, h1⟩ := h
  refine ⟨t, u, rfl, fun e => ?_⟩
  rw [e, hp] at h1
  cases h1

/-- A list in brackets. -/
def FoundList (flt : List UInt8 → Option (BitVec 64)) (es : RExprs) (ts : List Token) : Prop :=
  ∀ r, r ≠ [] → ∃ es' p, eraseEs es' = es ∧ Derives flt (.list es' p) (ts ++ r) r

theorem fieldName_erase {i : RExpr} (h : isField i = true) : eraseE i = .str (fieldName i) nowhere := by
  cases i <;> first | rfl | cases h

theorem field_erase {i : RExpr} {n : Token} (h : isField i = true) (ht : n.text = fieldName i) :
    eraseE (.str (cString n.text) (place n)) = eraseE i := by
  rw [fieldName_erase h, eraseE, ht, nameOk_cString (isField_name h)]

theorem Derives.stmt_first {s : RStmt} {ts r : List Token} (h : Derives flt (.stmt s) ts r) : First stmtFirst ts := (Meets.of h).1

theorem Written.asn0 {tu as : Bool} {e : RExpr} {ts r : List Token} (h : Written flt tu as 0 e ts r) : Derives flt (.asn tu as e) ts r :=
  h.1 rfl

theorem reassoc {us vs r w : List Token} {x : Nt} (h : Derives flt x (us ++ (vs ++ r)) w) : Derives flt x (us ++ vs ++ r) w := by
  rw [List.append_assoc]
  exact h

/-- Inside of brackets. -/
theorem closeBracket {us : List Token} {c : Token} {r : List Token} {x : Nt} {w : List Token}
    (h : Derives flt x (us ++ c :: r) w) : Derives flt x (us ++ [c] ++ r) w := by
  rw [List.append_assoc]
  exact h

theorem OkE.noFunc {e : RExpr} (h : isFunc e = false) (he : OkE flt fs true e) : OkE flt fs false e := by
  cases e <;> first | exact he | cases h

mutual
theorem found_E : ∀ (e : RExpr) (tu as : Bool) (m : Nat) (ts : List Token), OkE flt fs false e → m ≤ 9 →
    words ts = wordsE fs tu as m e → Found flt tu as m (eraseE e) ts
  | .none _, tu, as, m, ts, h, hm, hw => by
    obtain ⟨t, rfl, hk, ht⟩ := words_single hw
    intro r hr
    cases r with
    | nil => exact absurd rfl hr
    | cons u r => exact ⟨_, by rw [eraseE, eraseE], .prim (.none hk)⟩
  | .tru _, tu, as, m, ts, h, hm, hw => by
    obtain ⟨t, rfl, hk, ht⟩ := words_single hw
    intro r hr
    cases r with
    | nil => exact absurd rfl hr
    | cons u r => exact ⟨_, by rw [eraseE, eraseE], .prim (.tru hk)⟩
  | .fls _, tu, as, m, ts, h, hm, hw => by
    obtain ⟨t, rfl, hk, ht⟩ := words_single hw
    intro r hr
    cases r with
    | nil => exact absurd rfl hr
    | cons u r => exact ⟨_, by rw [eraseE, eraseE], .prim (.fls hk)⟩
  | .int v _, tu, as, m, ts, h, hm, hw => by
    obtain ⟨t, rfl, hk, ht⟩ := words_single hw
    obtain ⟨h0, h1⟩ := h
    obtain ⟨_, _, hv⟩ := digitsRev_spec v.toNat
    intro r hr
    dsimp only at ht
    have hval : valueRev t.text.reverse = v.toNat := by rw [ht, List.reverse_reverse, hv]
    refine ⟨.int (valueRev t.text.reverse) (place t), ?_, .prim (.int hk ?_ ?_)⟩
    · rw [eraseE, eraseE, hval, Int.toNat_of_nonneg h0]
    · have := digitsRev_length v.toNat 20 (by
        have : (2 : Nat) ^ 63 < 10 ^ (20 + 1) := by decide
        have h2 : v.toNat < 2 ^ 63 := by omega
        omega)
      rw [ht, List.length_reverse]
      omega
    · rw [hval]; omega
  | .float b _, tu, as, m, ts, h, hm, hw => by
    obtain ⟨t, rfl, hk, ht⟩ := words_single hw
    obtain ⟨_, h1, h2⟩ := h
    intro r hr
    dsimp only at ht
    rw [← ht] at h1 h2
    exact ⟨_, by rw [eraseE, eraseE], .prim (.float hk h1 h2)⟩
  | .str s _, tu, as, m, ts, h, hm, hw => by
    obtain ⟨t, rfl, hk, ht⟩ := words_single hw
    obtain ⟨h1, h2⟩ := h
    intro r hr
    cases r with
    | nil => exact absurd rfl hr
    | cons u r =>
      refine ⟨.str (cString s) (place u), by rw [eraseE, eraseE, cString_eq h1], .prim (.string hk ?_ h2)⟩
      rw [ht]
      simp only [strWord, List.tail_cons, List.dropLast_concat]
      exact (quote_spelled (.inr rfl) s).spells
  | .ident n _, tu, as, m, ts, h, hm, hw => by
    obtain ⟨t, rfl, hk, ht⟩ := words_single hw
    dsimp only at ht
    subst ht
    intro r hr
    exact ⟨_, by rw [eraseE, eraseE], .prim (.ident hk)⟩
  | .un op a _, tu, as, m, ts, h, hm, hw => by
    have body : ∀ us, words us = unWord op :: wordsE fs false false 8 a → ∀ r, r ≠ [] →
        ∃ e', eraseE e' = eraseE (.un op a nowhere) ∧ Derives flt (.pre e') (us ++ r) r := by
      intro us hu r hr
      obtain ⟨t, us, rfl, hk, _, w1⟩ := words_cons hu
      obtain ⟨a', h1, h2⟩ := found_E a false false 8 us h (by omega) w1 r hr
      exact ⟨.un op a' (upto (place t) a'.pos), by rw [eraseE, eraseE, h1],
        .un (by rw [hk]; exact unWord_prefix op) (h2.2.2.1 rfl)⟩
    rcases words_wrap hw with ⟨h0, hw⟩ | ⟨h1, o, us, c, rfl, ho, hc, hw2⟩
    · intro r hr
      obtain ⟨e', h1, h2⟩ := body ts hw r hr
      exact ⟨e', h1, .pre (by simpa using h0) h2⟩
    · refine .parens ho hc fun r hr => ?_
      obtain ⟨e', h1, h2⟩ := body us hw2 r hr
      exact ⟨e', h1, .pre (by omega) h2⟩
  | .bin op a b _, tu, as, m, ts, h, hm, hw => by
    obtain ⟨hi, hl, hl6, hn⟩ := opSign_infix op
    refine .infix hi hl (by omega) (fun hq => ⟨by simpa using hq, fun e => absurd e hn⟩) hw
      (fun us w => found_E a _ _ _ us h.1 (by omega) w) (fun us w => found_E b _ _ _ us h.2 (by omega) w) ?_
    intro a' b' p ha hb
    rw [eraseE, eraseE, ha, hb]
  | .and a b _, tu, as, m, ts, h, hm, hw => by
    refine .infix (w := (.kwAnd, bytes "and")) (l := 3) .and (by omega) (by omega) (fun hq => ⟨by simpa using hq, fun e => by cases e⟩) hw
      (fun us w => found_E a _ _ _ us h.1 (by omega) w) (fun us w => found_E b _ _ _ us h.2 (by omega) w) ?_
    intro a' b' p ha hb
    rw [eraseE, eraseE, ha, hb]
  | .or a b _, tu, as, m, ts, h, hm, hw => by
    refine .infix (w := (.kwOr, bytes "or")) (l := 2) .or (by omega) (by omega) (fun hq => ⟨by simpa using hq, fun e => by cases e⟩) hw
      (fun us w => found_E a _ _ _ us h.1 (by omega) w) (fun us w => found_E b _ _ _ us h.2 (by omega) w) ?_
    intro a' b' p ha hb
    rw [eraseE, eraseE, ha, hb]
  | .ass a b _, tu, as, m, ts, h, hm, hw => by
    rw [eraseE]
    refine .ass (fun hq => ?_) hw
      (fun us w => found_E a _ _ _ us h.1 (by omega) w) (fun us w => found_E b _ _ _ us h.2 (by omega) w)
    simpa using hq
  | .pair a b _, tu, as, m, ts, h, hm, hw => by
    refine .infix (w := sym 44) (l := 7) .pair (by omega) (by omega) (fun hq => ?_) hw
      (fun us w => found_E a _ _ _ us h.1 (by omega) w) (fun us w => found_E b _ _ _ us h.2 (by omega) w) ?_
    · simp only [Bool.or_eq_false_iff, decide_eq_false_iff_not, Bool.not_eq_false'] at hq
      exact ⟨by omega, fun _ => hq.2⟩
    · intro a' b' p ha hb
      rw [eraseE, eraseE, ha, hb]
  | .arw s i _, tu, as, m, ts, h, hm, hw => by
    obtain ⟨h1, h2⟩ := h
    obtain ⟨us, vs, rfl, w1, w2⟩ := words_append hw
    obtain ⟨d, vs, rfl, hd, _, w3⟩ := words_cons w2
    obtain ⟨n, rfl, hn, ht⟩ := words_single w3
    intro r hr
    obtain ⟨s', e1, e2⟩ := found_E s false false 9 us h1 (by omega) w1 (d :: n :: r) (by simp)
    refine ⟨.arw s' (.str (cString n.text) (place n)) (upto s'.pos (place n)), ?_, .post ?_⟩
    · rw [eraseE, e1, field_erase h2 ht, eraseE.eq_14 s]
    · exact reassoc (.arrow (e2.2.2.2 rfl) hd hn)
  | .list es _, tu, as, m, ts, h, hm, hw => by
    intro r hr
    obtain ⟨o, us, rfl, ho, _, w1⟩ := words_cons hw
    obtain ⟨us, vs, rfl, w2, w3⟩ := words_append w1
    obtain ⟨c, rfl, hc, _⟩ := words_single w3
    cases es with
    | nil =>
      have := words_nil w2
      subst this
      exact ⟨_, by rw [eraseE, eraseE], .prim (.prim_list (.list0 ho hc))⟩
    | cons e es =>
      obtain ⟨es', h1, h2⟩ := found_items (.cons e es) us h (by simp) w2 (c :: r) (by simp)
      exact ⟨.list es' (upto (place o) (place c)), by rw [eraseE, eraseE, h1],
        .prim (.prim_list (.list ho (closeBracket h2) hc))⟩
  | .map ps _, tu, as, m, ts, h, hm, hw => by
    intro r hr
    obtain ⟨o, us, rfl, ho, _, w1⟩ := words_cons hw
    obtain ⟨us, vs, rfl, w2, w3⟩ := words_append w1
    obtain ⟨c, rfl, hc, _⟩ := words_single w3
    cases ps with
    | nil =>
      have := words_nil w2
      subst this
      exact ⟨_, by rw [eraseE, eraseE], .prim (.map0 ho hc)⟩
    | cons k i ps =>
      obtain ⟨ps', h1, h2⟩ := found_pairs (.cons k i ps) us h (by simp) w2 (c :: r) ⟨c, r, rfl, by rw [hc]; decide⟩
      exact ⟨.map ps' (upto (place o) (place c)), by rw [eraseE, eraseE, h1],
        .prim (.map ho (closeBracket h2) hc)⟩
  | .call c _, tu, as, m, ts, h, hm, hw => by
    intro r hr
    obtain ⟨c', p, h1, h2⟩ := found_C c ts h hw r hr
    exact ⟨.call c' p, by rw [eraseE, eraseE, h1], .post h2⟩
  | .select s i _, tu, as, m, ts, h, hm, hw => by
    obtain ⟨us, vs, rfl, w1, w2⟩ := words_append hw
    intro r hr
    cases hf : isField i with
    | true =>
      rw [hf] at w2
      obtain ⟨d, vs, rfl, hd, _, w3⟩ := words_cons w2
      obtain ⟨n, rfl, hn, ht⟩ := words_single w3
      obtain ⟨s', e1, e2⟩ := found_E s false false 9 us h.1 (by omega) w1 (d :: n :: r) (by simp)
      refine ⟨.select s' (.str (cString n.text) (place n)) (upto s'.pos (place n)), ?_, .post ?_⟩
      · rw [eraseE, e1, field_erase hf ht, eraseE.eq_18 s]
      · exact reassoc (.dot (e2.2.2.2 rfl) hd hn)
    | false =>
    rw [hf] at w2
    obtain ⟨o, vs, rfl, ho, _, w3⟩ := words_cons w2
    obtain ⟨vs, cs, rfl, w4, w5⟩ := words_append w3
    obtain ⟨c, rfl, hc, _⟩ := words_single w5
    obtain ⟨s', e1, e2⟩ := found_E s false false 9 us h.1 (by omega) w1 (o :: (vs ++ [c] ++ r)) (by simp)
    obtain ⟨i', e3, e4⟩ := found_E i false true 0 vs (h.2 hf) (by omega) w4 (c :: r) (by simp)
    refine ⟨.select s' i' (upto s'.pos (upto (place o) (place c))), by rw [eraseE, eraseE, e1, e3], .post ?_⟩
    rw [List.append_assoc]
    refine .index (e2.2.2.2 rfl) (.list ho (.items_one ?_) hc)
    exact reassoc (e4.asn0)
  | .func f _, tu, as, m, ts, h, hm, hw => by cases h.1
theorem found_C : ∀ (c : RCall) (ts : List Token), OkC flt fs c → words ts = wordsC fs c → ∀ r, r ≠ [] →
    ∃ c' p, eraseC c' = eraseC c ∧ Derives flt (.post (.call c' p)) (ts ++ r) r
  | .fn f as, ts, h, hw, r, hr => by
    obtain ⟨h1, hf, h2⟩ := h
    obtain ⟨us, vs, rfl, w1, w2⟩ := words_append hw
    obtain ⟨o, vs, rfl, ho, _, w3⟩ := words_cons w2
    obtain ⟨vs, cs, rfl, w4, w5⟩ := words_append w3
    obtain ⟨c, rfl, hc, _⟩ := words_single w5
    obtain ⟨f', e1, e2⟩ := found_E f false false 9 us h1 (by omega) w1 (o :: (vs ++ [c] ++ r)) (by simp)
    have hna : ∀ s i q, f' ≠ .arw s i q := by
      rintro s i q rfl
      cases f <;> simp [eraseE] at e1
      cases hf
    cases as with
    | nil =>
      have := words_nil w4
      subst this
      refine ⟨.fn f' .nil, upto (place o) (place c), by rw [eraseC, eraseC, e1], ?_⟩
      exact reassoc (.call0 (e2.2.2.2 rfl) ho hc (.fn hna))
    | cons e es =>
      obtain ⟨as', h3, h4, _⟩ := found_args (.cons e es) vs h2 (by simp) w4 (c :: r) (by simp)
      refine ⟨.fn f' as', upto (place o) (place c), by rw [eraseC, eraseC, e1, h3], ?_⟩
      exact reassoc (.call (e2.2.2.2 rfl) ho (closeBracket h4) hc (.fn hna))
  | .method s i q as, ts, h, hw, r, hr => by
    obtain ⟨h1, hi, h2⟩ := h
    obtain ⟨us, vs, rfl, w1, w2⟩ := words_append hw
    obtain ⟨d, vs, rfl, hd, _, w3⟩ := words_cons w2
    obtain ⟨n, vs, rfl, hn', ht, w3⟩ := words_cons w3
    obtain ⟨o, vs, rfl, ho, _, w3⟩ := words_cons w3
    obtain ⟨vs, cs, rfl, w4, w5⟩ := words_append w3
    obtain ⟨c, rfl, hc, _⟩ := words_single w5
    obtain ⟨s', e1, e2⟩ := found_E s false false 9 us h1 (by omega) w1 (d :: n :: o :: (vs ++ [c] ++ r)) (by simp)
    have e3 := field_erase hi ht
    have arrow := Derives.arrow (e2.2.2.2 rfl) hd hn'
    cases as with
    | nil =>
      have := words_nil w4
      subst this
      refine ⟨.method s' (.str (cString n.text) (place n)) (upto s'.pos (place n)) .nil, upto (place o) (place c), by rw [eraseC, eraseC, e1, e3], ?_⟩
      exact reassoc (.call0 arrow ho hc .method)
    | cons e es =>
      obtain ⟨as', h3, h4, _⟩ := found_args (.cons e es) vs h2 (by simp) w4 (c :: r) (by simp)
      refine ⟨.method s' (.str (cString n.text) (place n)) (upto s'.pos (place n)) as', upto (place o) (place c), by rw [eraseC, eraseC, e1, e3, h3], ?_⟩
      exact reassoc (.call arrow ho (closeBracket h4) hc .method)
theorem found_items : ∀ (es : RExprs) (ts : List Token), OkEs flt fs es → es ≠ .nil → words ts = wordsItems fs es → ∀ r, r ≠ [] →
    ∃ es', eraseEs es' = eraseEs es ∧ Derives flt (.items es') (ts ++ r) r
  | .nil, ts, h, hn, hw, r, hr => absurd rfl hn
  | .cons e .nil, ts, h, hn, hw, r, hr => by
    simp only [wordsItems, comma, noExprs, cond_true, List.append_nil] at hw
    obtain ⟨e', h1, h2⟩ := found_E e false true 0 ts h.1 (by omega) hw r hr
    exact ⟨.cons e' .nil, by simp only [eraseEs, h1], .items_one h2.asn0⟩
  | .cons e (.cons e2 es), ts, h, hn, hw, r, hr => by
    obtain ⟨us, vs, rfl, w1, w2⟩ := words_append hw
    obtain ⟨c, vs, rfl, hc, _, w3⟩ := words_cons w2
    obtain ⟨e', h1, h2⟩ := found_E e false true 0 us h.1 (by omega) w1 (c :: (vs ++ r)) (by simp)
    obtain ⟨es', h3, h4⟩ := found_items (.cons e2 es) vs h.2 (by simp) w3 r hr
    refine ⟨.cons e' es', by rw [eraseEs, h1, h3, eraseEs.eq_2 e], ?_⟩
    exact reassoc (.items_more h2.asn0 hc h4)
theorem found_args : ∀ (es : RExprs) (ts : List Token), OkEs flt fs es → es ≠ .nil → words ts = wordsArgs fs es →
    FoundArgs flt (eraseEs es) ts
  | .nil, ts, h, hn, hw => absurd rfl hn
  | .cons e .nil, ts, h, hn, hw => by
    intro r hr
    simp only [wordsArgs, comma, noExprs, cond_true, List.append_nil, List.nil_append] at hw
    obtain ⟨e', h1, h2⟩ := found_E e false true 0 ts h.1 (by omega) hw r hr
    refine ⟨.cons e' .nil, by simp only [eraseEs, h1], .args_one h2.asn0, ?_⟩
    rintro c us as r' rfl hc hd
    exact .args_more h2.asn0 hc hd
  | .cons e (.cons e2 es), ts, h, hn, hw => by
    intro r hr
    obtain ⟨us, vs, rfl, w1, w2⟩ := words_append hw
    obtain ⟨c, vs, rfl, hc, _, w3⟩ := words_cons w2
    obtain ⟨e', h1, h2⟩ := found_E e false true 0 vs h.1 (by omega) w3 r hr
    obtain ⟨es', h3, h4, h5⟩ := found_args (.cons e2 es) us h.2 (by simp) w1 (c :: (vs ++ r)) (by simp)
    refine ⟨.cons e' es', by rw [eraseEs, h1, h3, eraseEs.eq_2 e], ?_, ?_⟩
    · exact reassoc (h5 c _ _ _ rfl hc (.args_one h2.asn0))
    · rintro d us' as r' rfl hd hds
      exact reassoc (h5 c _ _ _ rfl hc (.args_more h2.asn0 hd hds))
theorem found_pairs : ∀ (ps : RPairs) (ts : List Token), OkPs flt fs ps → ps ≠ .nil → words ts = wordsPairs fs ps → ∀ r, NoElse r →
    ∃ ps', erasePs ps' = erasePs ps ∧ Derives flt (.pairs ps') (ts ++ r) r
  | .nil, ts, h, hn, hw, r, hr => absurd rfl hn
  | .cons k i ps, ts, h, hn, hw, r, hr => by
    obtain ⟨h1, h2, h3, h4⟩ := h
    unfold wordsPairs at hw
    cases hfi : isFunc i with
    | true =>
      rw [hfi] at hw
      have hs := h2 hfi
      cases i with
      | func f p =>
        obtain ⟨k0, us, rfl, hk0, _, w1⟩ := words_cons hw
        obtain ⟨n, us, rfl, hn0, ht, w2⟩ := words_cons w1
        obtain ⟨us, vs, rfl, w3, w4⟩ := words_append w2
        dsimp only at ht
        cases ps with
        | nil =>
          have := words_nil w4
          subst this
          obtain ⟨d, e1, e2, e3⟩ := found_F f us h3.2 w3 k0 n r hk0 hn0 hr.ne (fun _ => hr)
          refine ⟨.cons (.str d.name d.namePos) (.func d.f d.pos) .nil, ?_, ?_⟩
          · simp only [erasePs, fieldName_erase hs, eraseE, e1, ht, e2]
          · rw [List.append_nil]
            exact .pair_func_last e3
        | cons k2 i2 ps =>
          obtain ⟨ps', e4, e5⟩ := found_pairs (.cons k2 i2 ps) vs h4 (by simp) w4 r hr
          have hne : NoElse (vs ++ r) := .first (Meets.of e5).1 (by decide)
          obtain ⟨d, e1, e2, e3⟩ := found_F f us h3.2 w3 k0 n (vs ++ r) hk0 hn0 hne.ne (fun _ => hne)
          refine ⟨.cons (.str d.name d.namePos) (.func d.f d.pos) ps', ?_, ?_⟩
          · rw [erasePs, erasePs.eq_2 k, e4]
            simp only [fieldName_erase hs, eraseE, e1, ht, e2]
          · refine .pair_func ?_ e5
            show Derives flt _ (k0 :: n :: (us ++ vs ++ r)) _
            rw [List.append_assoc]
            exact e3
      | _ => cases hfi
    | false =>
      rw [hfi] at hw
      obtain ⟨us, vs, rfl, w1, w2⟩ := words_append hw
      obtain ⟨c, vs, rfl, hc, _, w3⟩ := words_cons w2
      obtain ⟨vs, ws, rfl, w4, w5⟩ := words_append w3
      obtain ⟨cs, ws, rfl, w5, w6⟩ := words_append w5
      have hi : OkE flt fs false i := OkE.noFunc hfi h3
      -- the key
      have key : ∀ r', ∃ k', eraseE k' = eraseE k ∧ Derives flt (.key k') (us ++ c :: r') (c :: r') := by
        intro r'
        cases hfk : isField k with
        | true =>
          rw [hfk] at w1
          obtain ⟨n, rfl, hn, ht⟩ := words_single w1
          exact ⟨_, field_erase hfk ht, .key_ident hn hc⟩
        | false =>
        rw [hfk] at w1
        have h1 := h1 hfk
        rcases words_wrap w1 with ⟨h0, hw⟩ | ⟨h0, o, us, d, rfl, ho, hd, hw2⟩
        · obtain ⟨k', e1, e2⟩ := found_E k true true 0 us h1 (by omega) hw (c :: r') (by simp)
          cases k with
          | str s q =>
            obtain ⟨t, rfl, ht, htt⟩ := words_single hw
            refine ⟨.str (cString s) (place c), by simp only [eraseE, cString_eq h1.1], .key_expr (fun h => by rw [ht] at h; cases h) ?_⟩
            refine .asn_ops (.ops_pre (.pre_post (.post_prim (.string ht ?_ h1.2))))
            rw [htt]
            simp only [strWord, List.tail_cons, List.dropLast_concat]
            exact (quote_spelled (.inr rfl) s).spells
          | _ => cases h0
        · obtain ⟨k', e1, e2⟩ := (Found.parens ho hd (found_E k true true 0 us h1 (by omega) hw2) : Found flt false true 0 _ _) (c :: r') (by simp)
          have e3 := e2.asn0
          refine ⟨k', e1, ?_⟩
          generalize hq : us ++ [d] = q at e3
          cases q with
          | nil => simp at hq
          | cons u q => exact .key_expr (fun h => by rw [ho] at h; cases h) e3
      cases ps with
      | nil =>
        have := words_nil w5
        subst this
        have := words_nil w6
        subst this
        obtain ⟨i', e1, e2⟩ := found_E i false true 0 vs hi (by omega) w4 r hr.ne
        obtain ⟨k', e3, e4⟩ := key (vs ++ r)
        refine ⟨.cons k' i' .nil, by simp only [erasePs, e1, e3], ?_⟩
        rw [List.append_assoc]
        refine .pair_last (c := c) (us := vs ++ r) ?_ hc e2.asn0
        simpa using e4
      | cons k2 i2 ps =>
        obtain ⟨d, rfl, hd, _⟩ := words_single w5
        obtain ⟨ps', e5, e6⟩ := found_pairs (.cons k2 i2 ps) ws h4 (by simp) w6 r hr
        obtain ⟨i', e1, e2⟩ := found_E i false true 0 vs hi (by omega) w4 (d :: (ws ++ r)) (by simp)
        obtain ⟨k', e3, e4⟩ := key (vs ++ d :: (ws ++ r))
        refine ⟨.cons k' i' ps', by rw [erasePs, erasePs.eq_2 k, e1, e3, e5], ?_⟩
        rw [List.append_assoc]
        refine .pair_more (c := c) ?_ hc e2.asn0 hd e6
        simpa using e4
theorem found_F : ∀ (f : RFun) (ts : List Token), OkF flt fs f → words ts = wordsF fs f → FoundF flt f ts
  | .mk ps b, ts, h, hw => by
    intro k n r hk hn hr hcl
    obtain ⟨o, us, rfl, ho, _, w1⟩ := words_cons hw
    obtain ⟨us, vs, rfl, w2, w3⟩ := words_append w1
    obtain ⟨c, vs, rfl, hc, _, w4⟩ := words_cons w3
    obtain ⟨b', e1, e2⟩ := found_S b vs h.2 w4 r hr hcl
    cases ps with
    | nil =>
      have := words_nil w2
      subst this
      exact ⟨_, rfl, by rw [eraseF, eraseF, e1], .func0 hk hn ho hc e2⟩
    | cons n' d t p ps =>
      obtain ⟨ps', h1, h2, _⟩ := found_params (.cons n' d t p ps) us h.1 (by simp) w2 c (vs ++ r) (by rw [hc]; decide) (by rw [hc]; decide)
      refine ⟨_, rfl, by rw [eraseF, eraseF, e1, h1], .func hk hn ho ?_ hc e2⟩
      exact reassoc (h2)
theorem found_params : ∀ (ps : RParams) (ts : List Token), OkParams flt fs ps → ps ≠ .nil → words ts = wordsParams fs ps →
    FoundParams flt (eraseArgs ps) ts
  | .nil, ts, h, hn, hw => absurd rfl hn
  | .cons n d t p ps, ts, h, hn, hw => by
    intro c r hc1 hc2
    obtain ⟨us, vs, rfl, w1, w2⟩ := words_append hw
    obtain ⟨cs, vs, rfl, w2', w3⟩ := words_append w2
    obtain ⟨n', vs, rfl, hn', ht, w4⟩ := words_cons w3
    obtain ⟨us1, us2, rfl, w5, w6⟩ := words_append w4
    dsimp only at ht
    obtain ⟨d', e1, e2⟩ := found_O (sym 61) true d us2 h.2.1 w6 c r hc2
    have hx : ∃ u v, us2 ++ c :: r = u :: v ∧ u.kind ≠ .ch 58 := by
      cases d with
      | no =>
        have := words_nil w6
        subst this
        exact ⟨c, r, rfl, hc1⟩
      | yes e =>
        obtain ⟨u, v, rfl, hu, _, _⟩ := words_cons w6
        exact ⟨u, _, rfl, by rw [hu]; decide⟩
    obtain ⟨u, v, hx1, hx2⟩ := hx
    obtain ⟨t', e3, e4⟩ := found_O (sym 58) false t us1 h.2.2.1 w5 u v hx2
    rw [← hx1] at e4
    have one : ∀ acc, Derives flt (.params acc (.cons n'.text d' t' (place c) acc)) (n' :: (us1 ++ us2) ++ c :: r) (c :: r) := by
      intro acc
      refine .params_one hn' ?_ e2
      exact reassoc (e4)
    have more : ∀ acc as r', c.kind = .ch 44 → Derives flt (.params (.cons n'.text d' t' (place c) acc) as) r r' →
        Derives flt (.params acc as) (n' :: (us1 ++ us2) ++ c :: r) r' := by
      intro acc as r' hc hd
      refine .params_more hn' ?_ e2 hc hd
      exact reassoc (e4)
    cases ps with
    | nil =>
      have := words_nil w1
      subst this
      have := words_nil w2'
      subst this
      refine ⟨.cons n'.text d' t' (place c) .nil, by simp only [eraseArgs, e1, e3, ht], one _, fun as r' hc hd => more _ _ _ hc hd⟩
    | cons n2 d2 t2 p2 ps2 =>
      obtain ⟨k, rfl, hk, _⟩ := words_single w2'
      obtain ⟨ps', h3, h4, h5⟩ := found_params (.cons n2 d2 t2 p2 ps2) us h.2.2.2 (by simp) w1 k (n' :: (us1 ++ us2) ++ c :: r)
        (by rw [hk]; decide) (by rw [hk]; decide)
      refine ⟨.cons n'.text d' t' (place c) ps', by rw [eraseArgs, eraseArgs.eq_2 n, e1, e3, ht, h3], ?_, ?_⟩
      · exact reassoc (h5 _ _ hk (one _))
      · intro as r' hc hd
        exact reassoc (h5 _ _ hk (more _ _ _ hc hd))
theorem found_O : ∀ (w : Word) (as : Bool) (o : ROpt) (ts : List Token), OkO flt fs o → words ts = wordsO fs w as o →
    ∀ (t : Token) r, t.kind ≠ w.1 → ∃ o', eraseO o' = eraseO o ∧ Derives flt (.opt w.1 as o') (ts ++ t :: r) (t :: r)
  | w, as, .no, ts, h, hw, t, r, ht => by
    have := words_nil hw
    subst this
    exact ⟨.no, rfl, .opt_no ht⟩
  | w, as, .yes e, ts, h, hw, t, r, ht => by
    obtain ⟨k, us, rfl, hk, _, w1⟩ := words_cons hw
    obtain ⟨e', h1, h2⟩ := found_E e false as 0 us h (by omega) w1 (t :: r) (by simp)
    exact ⟨.yes e', by rw [eraseO, eraseO, h1], .opt_yes hk h2.asn0⟩
theorem found_S : ∀ (s : RStmt) (ts : List Token), OkS flt fs s → words ts = wordsS fs s → FoundS flt (eraseS s) ts (closed s)
  | .expr e, ts, h, hw => by
    intro r hr _
    obtain ⟨us, vs, rfl, w1, w2⟩ := words_append hw
    obtain ⟨c, rfl, hc, _⟩ := words_single w2
    rcases words_wrap w1 with ⟨h0, hw⟩ | ⟨h1, o, us, d, rfl, ho, hd, hw2⟩
    · obtain ⟨e', h1, h2⟩ := found_E e true true 0 us h (by omega) hw (c :: r) (by simp)
      have h3 := h2.asn0
      rw [← hw] at h0
      cases us with
      | nil =>
        obtain ⟨t, u, e1, e2⟩ := (Meets.of h3).1
        cases e1
        rw [hc] at e2
        cases e2
      | cons u us =>
        have : u.kind ≠ .ch 123 := by
          intro hu
          simp [words, hu] at h0
        refine ⟨.expr e', by rw [eraseS, eraseS, h1], ?_⟩
        exact reassoc (.stmt_expr this h3 hc)
    · obtain ⟨e', h1, h2⟩ := (Found.parens ho hd (found_E e true true 0 us h (by omega) hw2) : Found flt true true 0 _ _) (c :: r) (by simp)
      refine ⟨.expr e', by rw [eraseS, eraseS, h1], ?_⟩
      exact reassoc (.stmt_expr (by rw [ho]; decide) h2.asn0 hc)
  | .ifElse c t f _, ts, h, hw => by
    intro r hr hcl
    obtain ⟨i, us, rfl, hi, _, w1⟩ := words_cons hw
    obtain ⟨us, vs, rfl, w2, w3⟩ := words_append w1
    obtain ⟨x, vs, rfl, hx, _, w4⟩ := words_cons w3
    obtain ⟨vs, zs, rfl, w5, w6⟩ := words_append w4
    obtain ⟨e, zs, rfl, he, _, w7⟩ := words_cons w6
    obtain ⟨f', f1, f2⟩ := found_S f zs h.2.2.2 w7 r hr hcl
    obtain ⟨t', t1, t2⟩ := found_S t vs h.2.1 w5 (e :: (zs ++ r)) (by simp) (by rw [h.2.2.1]; intro h; cases h)
    obtain ⟨c', c1, c2⟩ := found_E c true true 0 us h.1 (by omega) w2 (x :: (vs ++ (e :: (zs ++ r)))) (by simp)
    cases r with
    | nil => exact absurd rfl hr
    | cons u r =>
      refine ⟨.ifElse c' t' f' (upto (place i) (place u)), by rw [eraseS, eraseS, f1, t1, c1], ?_⟩
      refine .if_else (x := x) (e := e) (us := vs ++ (e :: (zs ++ u :: r))) (vs := zs ++ u :: r) hi ?_ hx t2 he f2
      refine reassoc (vs := x :: (vs ++ e :: zs)) ?_
      rw [List.cons_append, List.append_assoc, List.cons_append]
      exact c2.asn0
  | .ifOnly c t _, ts, h, hw => by
    intro r hr hcl
    obtain ⟨u, r', rfl, hu⟩ := hcl rfl
    obtain ⟨i, us, rfl, hi, _, w1⟩ := words_cons hw
    obtain ⟨us, vs, rfl, w2, w3⟩ := words_append w1
    obtain ⟨x, vs, rfl, hx, _, w4⟩ := words_cons w3
    obtain ⟨t', t1, t2⟩ := found_S t vs h.2 w4 (u :: r') (by simp) (fun _ => ⟨u, r', rfl, hu⟩)
    obtain ⟨c', c1, c2⟩ := found_E c true true 0 us h.1 (by omega) w2 (x :: (vs ++ u :: r')) (by simp)
    refine ⟨.ifOnly c' t' (upto (place i) (place u)), by rw [eraseS, eraseS, t1, c1], ?_⟩
    refine .if_ hi ?_ hx t2 hu
    exact reassoc (c2.asn0)
  | .while c t _, ts, h, hw => by
    intro r hr hcl
    obtain ⟨i, us, rfl, hi, _, w1⟩ := words_cons hw
    obtain ⟨us, vs, rfl, w2, w3⟩ := words_append w1
    obtain ⟨x, vs, rfl, hx, _, w4⟩ := words_cons w3
    obtain ⟨t', t1, t2⟩ := found_S t vs h.2 w4 r hr hcl
    obtain ⟨c', c1, c2⟩ := found_E c true true 0 us h.1 (by omega) w2 (x :: (vs ++ r)) (by simp)
    cases r with
    | nil => exact absurd rfl hr
    | cons u r =>
      refine ⟨.while c' t' (upto (place i) (place u)), by rw [eraseS, eraseS, t1, c1], ?_⟩
      refine .while_ hi ?_ hx t2
      exact reassoc (c2.asn0)
  | .doWhile b c _, ts, h, hw => by
    intro r hr hcl
    obtain ⟨d, us, rfl, hd, _, w1⟩ := words_cons hw
    obtain ⟨us, vs, rfl, w2, w3⟩ := words_append w1
    obtain ⟨x, vs, rfl, hx, _, w4⟩ := words_cons w3
    obtain ⟨vs, zs, rfl, w5, w6⟩ := words_append w4
    obtain ⟨s, rfl, hs, _⟩ := words_single w6
    obtain ⟨c', c1, c2⟩ := found_E c true true 0 vs h.2 (by omega) w5 (s :: r) (by simp)
    obtain ⟨b', b1, b2⟩ := found_S b us h.1 w2 (x :: (vs ++ [s] ++ r)) (by simp) (fun _ => ⟨x, _, rfl, by rw [hx]; decide⟩)
    cases r with
    | nil => exact absurd rfl hr
    | cons u r =>
      refine ⟨.doWhile b' c' (upto (place d) (place u)), by rw [eraseS, eraseS, b1, c1], ?_⟩
      refine .do_ hd (w := x) (us := vs ++ [s] ++ u :: r) (s := s) ?_ hx ?_ hs
      · exact reassoc (b2)
      · exact reassoc (c2.asn0)
  | .comp ss _, ts, h, hw => by
    intro r hr hcl
    obtain ⟨o, us, rfl, ho, _, w1⟩ := words_cons hw
    obtain ⟨us, vs, rfl, w2, w3⟩ := words_append w1
    obtain ⟨c, rfl, hc, _⟩ := words_single w3
    obtain ⟨ss', s1, s2⟩ := found_Ss ss us h w2 (.ch 125) (c :: r) ⟨c, r, rfl, by rw [hc]; decide⟩
    refine ⟨.comp ss' (blockPos ss'), by rw [eraseS, eraseS, s1], .block ho ?_ hc⟩
    exact reassoc (s2)
  | .ret e _, ts, h, hw => by
    intro r hr hcl
    obtain ⟨k, us, rfl, hk, _, w1⟩ := words_cons hw
    obtain ⟨us, vs, rfl, w2, w3⟩ := words_append w1
    obtain ⟨s, rfl, hs, _⟩ := words_single w3
    obtain ⟨e', c1, c2⟩ := found_E e true true 0 us h (by omega) w2 (s :: r) (by simp)
    refine ⟨.ret e' (upto (place k) e'.pos), by rw [eraseS, eraseS, c1], .ret hk (s := s) ?_ hs⟩
    exact reassoc (c2.asn0)
  | .func n f _ _, ts, h, hw => by
    intro r hr hcl
    obtain ⟨k, us, rfl, hk, _, w1⟩ := words_cons hw
    obtain ⟨m, us, rfl, hm, ht, w2⟩ := words_cons w1
    have hcl' : closed f.body = false → NoElse r := by
      cases f
      exact hcl
    obtain ⟨d, e1, e2, e3⟩ := found_F f us h.2 w2 k m r hk hm hr hcl'
    refine ⟨.func d.name d.f d.pos d.pos, ?_, .stmt_func e3⟩
    dsimp only at ht
    rw [eraseS, eraseS, e1, e2, ht]
  | .brk _, ts, h, hw => by
    intro r hr hcl
    obtain ⟨b, us, rfl, hb, _, w1⟩ := words_cons hw
    obtain ⟨s, rfl, hs, _⟩ := words_single w1
    exact ⟨.brk (place b), by rw [eraseS, eraseS], .brk hb hs⟩
theorem found_Ss : ∀ (ss : RStmts) (ts : List Token), OkSs flt fs ss → words ts = wordsSs fs ss → ∀ (k : Kind) r, NoElse r →
    ∃ ss', eraseSs ss' = eraseSs ss ∧ Derives flt (.stmts k ss') (ts ++ r) r
  | .nil, ts, h, hw, k, r, hr => by
    have := words_nil hw
    subst this
    exact ⟨.nil, rfl, .stmts_nil⟩
  | .cons s ss, ts, h, hw, k, r, hr => by
    obtain ⟨us, vs, rfl, w1, w2⟩ := words_append hw
    obtain ⟨ss', s1, s2⟩ := found_Ss ss vs h.2 w2 k r hr
    have hne : NoElse (vs ++ r) := by
      generalize hq : vs ++ r = q at s2
      cases s2 with
      | stmts_nil => exact hr
      | stmts_cons hs _ => exact .first hs.stmt_first (by decide)
    obtain ⟨s', e1, e2⟩ := found_S s us h.1 w1 (vs ++ r) hne.ne (fun _ => hne)
    refine ⟨.cons s' ss', by rw [eraseSs, eraseSs, e1, s1], ?_⟩
    exact reassoc (.stmts_cons e2 s2)
end
end

/-- C81: the text of every program is a program again, with the same tree except for the positions. -/
theorem C81_print (flt : List UInt8 → Option (BitVec 64)) (fs : BitVec 64 → List UInt8) (past : UInt8) (ss : RStmts)
    (h : OkSs flt fs ss) : ∃ ss', parse flt past (programText fs ss) = .ok ss' ∧ eraseSs ss' = eraseSs ss := by
  have hsp := split_spaced (wordsSs fs ss) 0 (isWords_Ss ss h)
  obtain ⟨ts, d, e1, e2, hd⟩ := words_placed (wordsSs fs ss) 0
  obtain ⟨ss', h1, h2⟩ := found_Ss ss ts h e2 .done [d] ⟨d, [], rfl, by rw [hd]; decide⟩
  exact ⟨ss', (C80_parse flt past _ _).mpr ⟨_, hsp, d, hd, by rw [e1]; exact h2⟩, h1⟩

/-- The hypothesis for `fun f(x: int) return { a: -x, g: fun() y = [x, "b"]; }; if f(1).a < 2: f(3); else return 4;`. -/
example (flt : List UInt8 → Option (BitVec 64)) (fs : BitVec 64 → List UInt8) (p : Pos) : OkSs flt fs
    (.cons (.func (bytes "f") (.mk (.cons (bytes "x") .no (.yes (.ident (bytes "int") p)) p .nil)
        (.ret (.map (.cons (.str (bytes "a") p) (.un .neg (.ident (bytes "x") p) p)
          (.cons (.str (bytes "g") p) (.func (.mk .nil (.expr (.ass (.ident (bytes "y") p)
            (.list (.cons (.ident (bytes "x") p) (.cons (.str (bytes "b") p) .nil)) p) p))) p) .nil)) p) p)) p p)
      (.cons (.ifElse (.bin .lss (.select (.call (.fn (.ident (bytes "f") p) (.cons (.int 1 p) .nil)) p) (.str (bytes "a") p) p) (.int 2 p) p)
        (.expr (.call (.fn (.ident (bytes "f") p) (.cons (.int 3 p) .nil)) p)) (.ret (.int 4 p) p) p) .nil)) := by
  have nf : nameOk (bytes "f") = true ∧ nameOk (bytes "x") = true ∧ nameOk (bytes "y") = true ∧ nameOk (bytes "int") = true ∧
    nameOk (bytes "a") = true ∧ nameOk (bytes "g") = true := by decide +kernel
  have sb : StrOk (bytes "b") ∧ StrOk (bytes "a") := by unfold StrOk; decide +kernel
  obtain ⟨h1, h2, h3, h4, h5, h6⟩ := nf
  simp only [OkSs, OkS, OkF, OkParams, OkO, OkE, OkPs, OkEs, OkC, isFunc, isField, isArrow, closed, h1, h2, h3, h4, h5, h6, sb.1, sb.2]
  simp

end Noja.Parse
