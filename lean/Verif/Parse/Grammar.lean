import Verif.Parse.Token
import Verif.VM.Raw

/-!
# The grammar of the language

`Derives (.x …) ts r`: the tokens `ts` start with an `x` and `r` follows it.  The grammar says which texts are
programs and which tree each of them has, without a word on how it is found: the binary operators are given by a table of
levels, all of them left associative, an assignment is right associative and binds weakest.

Where a node has a position that is not the one of its own text, as the parser gives it, a comment says so.
-/

namespace Noja.Parse

open Noja.VM (RExpr RExprs RPairs RCall RFun RParams ROpt RStmt RStmts Pos Name UnOp BinOp)

/-- The binary operators other than `=`: token, level, tree. -/
inductive Infix : Kind → Int → (RExpr → RExpr → Pos → RExpr) → Prop
  | sum : Infix (.ch 124) 1 (.bin .sum)
  | or : Infix .kwOr 2 .or
  | and : Infix .kwAnd 3 .and
  | lss : Infix (.ch 60) 4 (.bin .lss)
  | grt : Infix (.ch 62) 4 (.bin .grt)
  | leq : Infix .leq 4 (.bin .leq)
  | geq : Infix .geq 4 (.bin .geq)
  | eql : Infix .eql 4 (.bin .eql)
  | nql : Infix .nql 4 (.bin .nql)
  | add : Infix (.ch 43) 5 (.bin .add)
  | sub : Infix (.ch 45) 5 (.bin .sub)
  | mul : Infix (.ch 42) 6 (.bin .mul)
  | div : Infix (.ch 47) 6 (.bin .div)
  | mod : Infix (.ch 37) 6 (.bin .mod)
  | pair : Infix (.ch 44) 7 .pair

/-- The unary operators. -/
inductive Prefix : Kind → UnOp → Prop
  | pos : Prefix (.ch 43) .pos
  | neg : Prefix (.ch 45) .neg
  | nlb : Prefix (.ch 63) .nlb
  | not : Prefix .kwNot .not

/-- What a call is: `s->i(…)` and `s->[…]`-like forms are calls of a method. -/
inductive Called : RExpr → RExprs → RCall → Prop
  | method {s i q as} : Called (.arw s i q) as (.method s i q as)
  | fn {f as} : (∀ s i q, f ≠ .arw s i q) → Called f as (.fn f as)

/-- The value of the text between quotes.  (A backslash at the end cannot be there: it would escape the quote.) -/
inductive Spells : List UInt8 → List UInt8 → Prop
  | nil : Spells [] []
  | plain {c : UInt8} {b s : List UInt8} : c ≠ 92 → Spells b s → Spells (c :: b) (c :: s)
  | esc {e c : UInt8} {b s : List UInt8} :
      (e, c) ∈ [((34 : UInt8), (34 : UInt8)), (39, 39), (92, 92), (110, 10), (116, 9), (114, 13)] → Spells b s →
      Spells (92 :: e :: b) (c :: s)
  | last : Spells [92] [92]

/-- The number that a row of digits stands for, the last digit first. -/
def valueRev : List UInt8 → Nat
  | [] => 0
  | d :: ds => (d.toNat - 48) + 10 * valueRev ds

/-- A text as a C string. -/
def cString (s : List UInt8) : List UInt8 := s.takeWhile (· ≠ 0)

/-- The position of a token. -/
def place (t : Token) : Pos := ⟨t.off, t.text.length⟩

/-- From the start of one to the end of another. -/
def upto (a b : Pos) : Pos := ⟨a.off, b.off + b.len - a.off⟩

/-- The end of the last of some statements. -/
def endOf : RStmts → Int
  | .nil => 0
  | .cons s .nil => s.pos.off + s.pos.len
  | .cons _ ss => endOf ss

/-- The position of a block: from the first of its statements to the last. -/
def blockPos : RStmts → Pos
  | .nil => ⟨0, 0⟩
  | .cons s ss => ⟨s.pos.off, endOf (.cons s ss) - s.pos.off⟩

/-- A function: its name, the position of the name, the function and the position. -/
structure FunDecl where
  name : Name
  namePos : Pos
  f : RFun
  pos : Pos

/-- The parts of a program. -/
inductive Nt where
  | prim (e : RExpr)
  | post (e : RExpr)
  | pre (e : RExpr)
  /-- operators of level `m` and above; commas only if `tuples` -/
  | ops (tuples : Bool) (m : Int) (e : RExpr)
  /-- an expression, assignments only if `assign` -/
  | asn (tuples assign : Bool) (e : RExpr)
  | items (es : RExprs)
  | list (es : RExprs) (p : Pos)
  /-- arguments, `acc` being those before them; the last one first -/
  | args (acc es : RExprs)
  | key (e : RExpr)
  | pairs (ps : RPairs)
  | opt (k : Kind) (assign : Bool) (o : ROpt)
  /-- parameters, `acc` being those before them; the last one first -/
  | params (acc ps : RParams)
  | func (d : FunDecl)
  | stmt (s : RStmt)
  | stmts (fin : Kind) (ss : RStmts)

variable (flt : List UInt8 → Option (BitVec 64))

inductive Derives : Nt → List Token → List Token → Prop
  /- primary expressions -/
  | int {t r} : t.kind = .int → t.text.length < 64 → valueRev t.text.reverse < 2 ^ 63 →
      Derives (.prim (.int (valueRev t.text.reverse) (place t))) (t :: r) r
  | float {t r b} : t.kind = .float → t.text.length < 64 → flt t.text = some b →
      Derives (.prim (.float b (place t))) (t :: r) r
  /-- (the position is that of the next token) -/
  | string {t u r s} : t.kind = .string → Spells t.text.tail.dropLast s → s.length ≤ 4095 →
      Derives (.prim (.str (cString s) (place u))) (t :: u :: r) (u :: r)
  | ident {t r} : t.kind = .ident → Derives (.prim (.ident t.text (place t))) (t :: r) r
  /-- (the position is that of the next token) -/
  | none {t u r} : t.kind = .kwNone → Derives (.prim (.none (place u))) (t :: u :: r) (u :: r)
  /-- (the position is that of the next token) -/
  | tru {t u r} : t.kind = .kwTrue → Derives (.prim (.tru (place u))) (t :: u :: r) (u :: r)
  /-- (the position is that of the next token) -/
  | fls {t u r} : t.kind = .kwFalse → Derives (.prim (.fls (place u))) (t :: u :: r) (u :: r)
  | parens {o ts e c r} : o.kind = .ch 40 → Derives (.asn true true e) ts (c :: r) → c.kind = .ch 41 →
      Derives (.prim e) (o :: ts) r
  | prim_list {ts es p r} : Derives (.list es p) ts r → Derives (.prim (.list es p)) ts r
  | map0 {o c r} : o.kind = .ch 123 → c.kind = .ch 125 → Derives (.prim (.map .nil (upto (place o) (place c)))) (o :: c :: r) r
  | map {o ts ps c r} : o.kind = .ch 123 → Derives (.pairs ps) ts (c :: r) → c.kind = .ch 125 →
      Derives (.prim (.map ps (upto (place o) (place c)))) (o :: ts) r
  /- lists -/
  | list0 {o c r} : o.kind = .ch 91 → c.kind = .ch 93 → Derives (.list .nil (upto (place o) (place c))) (o :: c :: r) r
  | list {o ts es c r} : o.kind = .ch 91 → Derives (.items es) ts (c :: r) → c.kind = .ch 93 →
      Derives (.list es (upto (place o) (place c))) (o :: ts) r
  | items_one {ts e r} : Derives (.asn false true e) ts r → Derives (.items (.cons e .nil)) ts r
  | items_more {ts e c us es r} : Derives (.asn false true e) ts (c :: us) → c.kind = .ch 44 → Derives (.items es) us r →
      Derives (.items (.cons e es)) ts r
  /- maps -/
  | key_ident {t c r} : t.kind = .ident → c.kind = .ch 58 → Derives (.key (.str (cString t.text) (place t))) (t :: c :: r) (c :: r)
  | key_expr {t u ts e r} : (t.kind = .ident → u.kind ≠ .ch 58 ∧ u.kind ≠ .done) → Derives (.asn false true e) (t :: u :: ts) r →
      Derives (.key e) (t :: u :: ts) r
  | pair_last {ts k c us e r} : Derives (.key k) ts (c :: us) → c.kind = .ch 58 → Derives (.asn false true e) us r →
      Derives (.pairs (.cons k e .nil)) ts r
  | pair_more {ts k c us e d vs ps r} : Derives (.key k) ts (c :: us) → c.kind = .ch 58 →
      Derives (.asn false true e) us (d :: vs) → d.kind = .ch 44 → Derives (.pairs ps) vs r →
      Derives (.pairs (.cons k e ps)) ts r
  | pair_func_last {ts d r} : Derives (.func d) ts r → Derives (.pairs (.cons (.str d.name d.namePos) (.func d.f d.pos) .nil)) ts r
  | pair_func {ts d us ps r} : Derives (.func d) ts us → Derives (.pairs ps) us r →
      Derives (.pairs (.cons (.str d.name d.namePos) (.func d.f d.pos) ps)) ts r
  /- postfix operators -/
  | post_prim {e ts r} : Derives (.prim e) ts r → Derives (.post e) ts r
  | dot {e ts d n r} : Derives (.post e) ts (d :: n :: r) → d.kind = .ch 46 → n.kind = .ident →
      Derives (.post (.select e (.str (cString n.text) (place n)) (upto e.pos (place n)))) ts r
  | arrow {e ts d n r} : Derives (.post e) ts (d :: n :: r) → d.kind = .arw → n.kind = .ident →
      Derives (.post (.arw e (.str (cString n.text) (place n)) (upto e.pos (place n)))) ts r
  | index {e ts us i p r} : Derives (.post e) ts us → Derives (.list (.cons i .nil) p) us r →
      Derives (.post (.select e i (upto e.pos p))) ts r
  | indices {e ts us i j es p r} : Derives (.post e) ts us → Derives (.list (.cons i (.cons j es)) p) us r →
      Derives (.post (.select e (.list (.cons i (.cons j es)) p) (upto e.pos p))) ts r
  /-- (the position is that of the arguments) -/
  | call0 {f ts o c r cl} : Derives (.post f) ts (o :: c :: r) → o.kind = .ch 40 → c.kind = .ch 41 → Called f .nil cl →
      Derives (.post (.call cl (upto (place o) (place c)))) ts r
  | call {f ts o us as c r cl} : Derives (.post f) ts (o :: us) → o.kind = .ch 40 → Derives (.args .nil as) us (c :: r) →
      c.kind = .ch 41 → Called f as cl → Derives (.post (.call cl (upto (place o) (place c)))) ts r
  | args_one {acc ts e r} : Derives (.asn false true e) ts r → Derives (.args acc (.cons e acc)) ts r
  | args_more {acc ts e c us as r} : Derives (.asn false true e) ts (c :: us) → c.kind = .ch 44 →
      Derives (.args (.cons e acc) as) us r → Derives (.args acc as) ts r
  /- prefix operators -/
  | pre_post {e ts r} : Derives (.post e) ts r → Derives (.pre e) ts r
  | un {t op e ts r} : Prefix t.kind op → Derives (.pre e) ts r → Derives (.pre (.un op e (upto (place t) e.pos))) (t :: ts) r
  /- binary operators -/
  | ops_pre {tu m e ts r} : Derives (.pre e) ts r → Derives (.ops tu m e) ts r
  | left {tu m p f a b ts t us r} : Infix t.kind p f → m ≤ p → (t.kind = .ch 44 → tu = true) →
      Derives (.ops tu p a) ts (t :: us) → Derives (.ops tu (p + 1) b) us r →
      Derives (.ops tu m (f a b (upto a.pos b.pos))) ts r
  | asn_ops {tu as e ts r} : Derives (.ops tu 1 e) ts r → Derives (.asn tu as e) ts r
  | assign {tu a b ts t us r} : Derives (.ops tu 1 a) ts (t :: us) → t.kind = .ch 61 → Derives (.asn tu true b) us r →
      Derives (.asn tu true (.ass a b (upto a.pos b.pos))) ts r
  /- functions -/
  | opt_no {k as t r} : t.kind ≠ k → Derives (.opt k as .no) (t :: r) (t :: r)
  | opt_yes {k as t ts e r} : t.kind = k → Derives (.asn false as e) ts r → Derives (.opt k as (.yes e)) (t :: ts) r
  /-- (the position of a parameter is that of the token after it) -/
  | params_one {acc n ts typ us dflt t r} : n.kind = .ident → Derives (.opt (.ch 58) false typ) ts us →
      Derives (.opt (.ch 61) true dflt) us (t :: r) → Derives (.params acc (.cons n.text dflt typ (place t) acc)) (n :: ts) (t :: r)
  | params_more {acc n ts typ us dflt t vs ps r} : n.kind = .ident → Derives (.opt (.ch 58) false typ) ts us →
      Derives (.opt (.ch 61) true dflt) us (t :: vs) → t.kind = .ch 44 →
      Derives (.params (.cons n.text dflt typ (place t) acc) ps) vs r → Derives (.params acc ps) (n :: ts) r
  | func0 {f n o c ts b r} : f.kind = .kwFun → n.kind = .ident → o.kind = .ch 40 → c.kind = .ch 41 → Derives (.stmt b) ts r →
      Derives (.func ⟨n.text, place n, .mk .nil b, upto (place f) b.pos⟩) (f :: n :: o :: c :: ts) r
  | func {f n o ps us c ts b r} : f.kind = .kwFun → n.kind = .ident → o.kind = .ch 40 → Derives (.params .nil ps) us (c :: ts) →
      c.kind = .ch 41 → Derives (.stmt b) ts r →
      Derives (.func ⟨n.text, place n, .mk ps b, upto (place f) b.pos⟩) (f :: n :: o :: us) r
  /- statements -/
  | stmt_expr {t ts e s r} : t.kind ≠ .ch 123 → Derives (.asn true true e) (t :: ts) (s :: r) → s.kind = .ch 59 →
      Derives (.stmt (.expr e)) (t :: ts) r
  | block {o ts ss c r} : o.kind = .ch 123 → Derives (.stmts (.ch 125) ss) ts (c :: r) → c.kind = .ch 125 →
      Derives (.stmt (.comp ss (blockPos ss))) (o :: ts) r
  | brk {b s r} : b.kind = .kwBreak → s.kind = .ch 59 → Derives (.stmt (.brk (place b))) (b :: s :: r) r
  | ret {t ts e s r} : t.kind = .kwReturn → Derives (.asn true true e) ts (s :: r) → s.kind = .ch 59 →
      Derives (.stmt (.ret e (upto (place t) e.pos))) (t :: ts) r
  | stmt_func {d ts r} : Derives (.func d) ts r → Derives (.stmt (.func d.name d.f d.pos d.pos)) ts r
  /-- (the position extends over the next token) -/
  | while_ {w ts c x us b t r} : w.kind = .kwWhile → Derives (.asn true true c) ts (x :: us) → x.kind = .ch 58 →
      Derives (.stmt b) us (t :: r) → Derives (.stmt (.while c b (upto (place w) (place t)))) (w :: ts) (t :: r)
  /-- (the position extends over the next token) -/
  | do_ {d ts b w us c s t r} : d.kind = .kwDo → Derives (.stmt b) ts (w :: us) → w.kind = .kwWhile →
      Derives (.asn true true c) us (s :: t :: r) → s.kind = .ch 59 →
      Derives (.stmt (.doWhile b c (upto (place d) (place t)))) (d :: ts) (t :: r)
  /-- (the position extends over the next token) -/
  | if_ {i ts c x us b t r} : i.kind = .kwIf → Derives (.asn true true c) ts (x :: us) → x.kind = .ch 58 →
      Derives (.stmt b) us (t :: r) → t.kind ≠ .kwElse →
      Derives (.stmt (.ifOnly c b (upto (place i) (place t)))) (i :: ts) (t :: r)
  /-- (the position extends over the next token) -/
  | if_else {i ts c x us b e vs b' t r} : i.kind = .kwIf → Derives (.asn true true c) ts (x :: us) → x.kind = .ch 58 →
      Derives (.stmt b) us (e :: vs) → e.kind = .kwElse → Derives (.stmt b') vs (t :: r) →
      Derives (.stmt (.ifElse c b b' (upto (place i) (place t)))) (i :: ts) (t :: r)
  | stmts_nil {k r} : Derives (.stmts k .nil) r r
  | stmts_cons {k s ts us ss r} : Derives (.stmt s) ts us → Derives (.stmts k ss) us r → Derives (.stmts k (.cons s ss)) ts r

/-- These tokens are a program with this tree. -/
def Program (ts : List Token) (ss : RStmts) : Prop := ∃ d : Token, d.kind = .done ∧ Derives flt (.stmts .done ss) ts [d]

end Noja.Parse
