import Verif.Parse.Mono
import Verif.Parse.Lex
import Verif.Asm.Total

/-!
# The parser ends on every text, and where it leaves its tokens (C79)
-/

namespace Noja.Parse

open Noja.VM (RExpr RExprs RPairs RCall RFun RParams ROpt RStmt RStmts Pos Name UnOp BinOp)
open Noja.Asm (Res)

set_option linter.unusedSimpArgs false
set_option linter.unusedVariables false

/-- What `tokenize` gives: tokens of which the last, and no other, is `TDONE`. -/
def Toks : List Token → Prop
  | [] => False
  | [d] => d.kind = .done
  | t :: u :: ts => t.kind ≠ .done ∧ Toks (u :: ts)

/-- One for an opening brace, minus one for a closing one. -/
def brace : Kind → Int
  | .ch 123 => 1
  | .ch 125 => -1
  | _ => 0

/-- How many more opening than closing braces there are. -/
def excess : List Token → Int
  | [] => 0
  | t :: ts => brace t.kind + excess ts

theorem Toks.ne {ts : List Token} (h : Toks ts) : ∃ t r, ts = t :: r := by
  cases ts with
  | nil => exact h.elim
  | cons t r => exact ⟨t, r, rfl⟩

theorem Toks.tail {t : Token} {r : List Token} (h : Toks (t :: r)) (hne : t.kind ≠ .done) : Toks r := by
  cases r with
  | nil => exact absurd h hne
  | cons u r => exact h.2

theorem Toks.last {t : Token} {r : List Token} (h : Toks (t :: r)) (hd : t.kind = .done) : r = [] := by
  cases r with
  | nil => rfl
  | cons u r => exact absurd hd h.1

theorem Res.weaken {α : Type} {b b' : Prop} {P Q : α → Prop} {x : Exec α} (h : Res b P x) (hb : b → b')
    (hq : ∀ a, P a → Q a) : Res b' Q x := by
  cases x with
  | ok a => exact hq a h
  | err => trivial
  | ub => exact hb h
  | diverge => exact h.elim

theorem Res.seq {α β : Type} {b b' : Prop} {P : α → Prop} {Q : β → Prop} {x : Exec α} {f : α → Exec β}
    (h : Res b' P x) (hb : b' → b) (hf : ∀ a, P a → Res b Q (f a)) : Res b Q (x >>= f) :=
  (Res.weaken h hb fun _ h => h).bind hf

theorem Res.cur {β : Type} {b : Prop} {Q : β → Prop} {t : Token} {r : List Token} {f : Token → Exec β}
    (k : Res b Q (f t)) : Res b Q (Parse.cur (t :: r) >>= f) := k

theorem Res.next {β : Type} {b : Prop} {Q : β → Prop} {t : Token} {r : List Token} {f : List Token → Exec β}
    (h : Toks (t :: r)) (hne : t.kind ≠ .done) (k : Toks r → Res b Q (f r)) : Res b Q (Parse.next (t :: r) >>= f) := by
  have hr := h.tail hne
  obtain ⟨u, s, rfl⟩ := hr.ne
  exact k hr

/-- Tokens taken, at least `d` of them, with as many opening as closing braces. -/
def Took (d : Nat) (ts ts' : List Token) : Prop := Toks ts' ∧ ts'.length + d ≤ ts.length ∧ excess ts' = excess ts

/-- The token at which a loop ends. -/
def At (k : Kind) (ts : List Token) : Prop := ∃ t r, ts = t :: r ∧ t.kind = k

/-- `parse_expression_2` takes the operator at the cursor. -/
def goes (tuples assign : Bool) (m : Int) : List Token → Bool
  | [] => false
  | t :: _ => (isBinop t.kind && decide (prec t.kind ≥ m)) && !((t.kind == .ch 44 && !tuples) || (t.kind == .ch 61 && !assign))

/-- What is known of the functions with `n` for nesting. -/
structure Total (n : Nat) (R : Rec) : Prop where
  expr : ∀ a b ts, Toks ts → 8 * ts.length + 1 < n → Res (1 ≤ excess ts) (fun q => Took 1 ts q.2) (R.expr a b ts)
  expr2 : ∀ a b l m ts, Toks ts → 8 * ts.length < n →
    Res (1 ≤ excess ts) (fun q => Took 1 ts q.2 ∨ (q = (l, ts) ∧ goes a b m ts = false)) (R.expr2 a b l m ts)
  inner : ∀ a b k l ts, Toks ts → isBinop k = true → (k = .ch 61 → b = true) → 8 * ts.length + 1 < n →
    Res (1 ≤ excess ts) (fun q => Took 0 ts q.2) (R.inner a b k l ts)
  pre : ∀ ts, Toks ts → 8 * ts.length < n → Res (1 ≤ excess ts) (fun q => Took 1 ts q.2) (R.pre ts)
  post : ∀ e ts, Toks ts → 8 * ts.length < n → Res (1 ≤ excess ts) (fun q => Took 0 ts q.2) (R.post e ts)
  items : ∀ ts, Toks ts → 8 * ts.length + 2 < n →
    Res (1 ≤ excess ts) (fun q => Took 1 ts q.2 ∧ At (.ch 93) q.2) (R.items ts)
  args : ∀ e ts, Toks ts → 8 * ts.length + 2 < n →
    Res (1 ≤ excess ts) (fun q => Took 1 ts q.2 ∧ At (.ch 41) q.2) (R.args e ts)
  pairs : ∀ ts, Toks ts → 8 * ts.length + 2 < n →
    Res (0 ≤ excess ts) (fun q => Took 1 ts q.2 ∧ At (.ch 125) q.2) (R.pairs ts)
  params : ∀ e ts, Toks ts → 8 * ts.length + 2 < n →
    Res (1 ≤ excess ts) (fun q => Took 1 ts q.2 ∧ At (.ch 41) q.2) (R.params e ts)
  stmt : ∀ ts, Toks ts → 8 * ts.length + 2 < n → Res (1 ≤ excess ts) (fun q => Took 1 ts q.2) (R.stmt ts)
  stmts : ∀ k ts, Toks ts → 8 * ts.length + 3 < n →
    Res (1 ≤ excess ts) (fun q => Took 0 ts q.2 ∧ At k q.2) (R.stmts k ts)

theorem brace_binop {k : Kind} (h : isBinop k = true) : brace k = 0 := by
  cases k with
  | ch c =>
    simp only [isBinop, Bool.or_eq_true, beq_iff_eq] at h
    rcases h with ((((((((h | h) | h) | h) | h) | h) | h) | h) | h) | h <;> subst h <;> rfl
  | _ => rfl

theorem brace_unop {k : Kind} {o : UnOp} (h : unOp k = some o) : brace k = 0 := by
  unfold unOp at h
  split at h <;> first | rfl | cases h

theorem prec_binop {k : Kind} (h : isBinop k = true) : 0 ≤ prec k := by
  cases k with
  | ch c =>
    simp only [isBinop, Bool.or_eq_true, beq_iff_eq] at h
    rcases h with ((((((((h | h) | h) | h) | h) | h) | h) | h) | h) | h <;> subst h <;> decide
  | leq => decide
  | geq => decide
  | eql => decide
  | nql => decide
  | kwAnd => decide
  | kwOr => decide
  | _ => cases h

theorem prec_zero {k : Kind} (h : isBinop k = true) (h0 : prec k = 0) : k = .ch 61 := by
  cases k with
  | ch c =>
    simp only [isBinop, Bool.or_eq_true, beq_iff_eq] at h
    rcases h with ((((((((h | h) | h) | h) | h) | h) | h) | h) | h) | h <;> subst h <;>
      first | rfl | (exfalso; revert h0; decide)
  | leq => exact absurd h0 (by decide)
  | geq => exact absurd h0 (by decide)
  | eql => exact absurd h0 (by decide)
  | nql => exact absurd h0 (by decide)
  | kwAnd => exact absurd h0 (by decide)
  | kwOr => exact absurd h0 (by decide)
  | _ => cases h

theorem Took.refl {ts : List Token} (h : Toks ts) : Took 0 ts ts := ⟨h, by omega, rfl⟩

theorem Took.trans {a b : Nat} {ts us vs : List Token} (h1 : Took a ts us) (h2 : Took b us vs) : Took (a + b) ts vs :=
  ⟨h2.1, by have := h1.2.1; have := h2.2.1; omega, by rw [h2.2.2, h1.2.2]⟩

theorem Took.le {a b : Nat} {ts us : List Token} (h1 : Took a ts us) (h : b ≤ a) : Took b ts us :=
  ⟨h1.1, by have := h1.2.1; omega, h1.2.2⟩

theorem Took.bad {a : Nat} {ts us : List Token} (h : Took a ts us) : 1 ≤ excess us → 1 ≤ excess ts := by
  rw [h.2.2]; exact id

theorem Took.one {t : Token} {r : List Token} (h : Toks (t :: r)) (hne : t.kind ≠ .done) (hb : brace t.kind = 0) :
    Took 1 (t :: r) r := ⟨h.tail hne, by simp, by simp [excess, hb]⟩

/-- Reading on over a token of a given kind. -/
theorem Res.over {β : Type} {b : Prop} {Q : β → Prop} {d : Nat} {ts : List Token} {t : Token} {r : List Token}
    {f : List Token → Exec β} {k : Kind} (T : Took d ts (t :: r)) (hk : t.kind = k) (hd : k ≠ .done) (hb : brace k = 0)
    (next : Took (d + 1) ts r → Res b Q (f r)) : Res b Q (Parse.next (t :: r) >>= f) := by
  have hne : t.kind ≠ .done := by rw [hk]; exact hd
  exact Res.next T.1 hne fun hr => next (T.trans (Took.one T.1 hne (by rw [hk]; exact hb)))

/-- Reading the token at the cursor. -/
theorem Res.look {β : Type} {b : Prop} {Q : β → Prop} {d : Nat} {ts us : List Token} {f : Token → Exec β}
    (T : Took d ts us) (k : ∀ t r, us = t :: r → Res b Q (f t)) : Res b Q (Parse.cur us >>= f) := by
  obtain ⟨t, r, rfl⟩ := T.1.ne
  exact k t r rfl

section Bodies
variable {n : Nat} {R : Rec} (H : Total n R)
include H

theorem expr2_total (a b : Bool) (l : RExpr) (m : Int) (ts : List Token) (ht : Toks ts) (hn : 8 * ts.length < n + 1) :
    Res (1 ≤ excess ts) (fun q => Took 1 ts q.2 ∨ (q = (l, ts) ∧ goes a b m ts = false)) (expr2Body R a b l m ts) := by
  obtain ⟨t, r, rfl⟩ := ht.ne
  unfold expr2Body
  refine Res.cur ?_
  by_cases h1 : (isBinop t.kind && decide (prec t.kind ≥ m)) = true
  · rw [if_pos h1]
    by_cases h2 : ((t.kind == .ch 44 && !a) || (t.kind == .ch 61 && !b)) = true
    · rw [if_pos h2]
      exact .inr ⟨rfl, by simp only [goes, h2]; simp⟩
    · rw [if_neg h2]
      have hb : isBinop t.kind = true := by simp only [Bool.and_eq_true] at h1; exact h1.1
      have hex : excess (t :: r) = excess r := by simp [excess, brace_binop hb]
      have hne : t.kind ≠ .done := by intro h; rw [h] at hb; cases hb
      rw [List.length_cons] at hn
      refine Res.next ht hne fun hr => ?_
      refine Res.seq (H.pre r hr (by omega)) (by rw [hex]; exact id) ?_
      rintro ⟨x, s⟩ ⟨p1, p2, p3⟩
      dsimp only at p1 p2 p3 ⊢
      refine Res.seq (H.inner a b t.kind x s p1 hb (by
        intro h; rw [h] at h2; cases b with
        | true => rfl
        | false => simp at h2) (by omega)) (by rw [hex, p3]; exact id) ?_
      rintro ⟨y, u⟩ ⟨q1, q2, q3⟩
      dsimp only at q1 q2 q3 ⊢
      have hm : Res (1 ≤ excess (t :: r)) (fun _ => True) (mkBin t.kind l y) := by
        revert hb
        generalize t.kind = k
        intro hb
        cases k with
        | ch c =>
          simp only [isBinop, Bool.or_eq_true, beq_iff_eq] at hb
          rcases hb with ((((((((h | h) | h) | h) | h) | h) | h) | h) | h) | h <;> subst h <;> trivial
        | leq => trivial
        | geq => trivial
        | eql => trivial
        | nql => trivial
        | kwAnd => trivial
        | kwOr => trivial
        | _ => cases hb
      refine hm.bind fun e _ => ?_
      refine Res.weaken (H.expr2 a b e m u q1 (by omega)) (by rw [hex, ← p3, ← q3]; exact id) ?_
      rintro ⟨z, v⟩ hz
      left
      rw [Took, List.length_cons, hex]
      rcases hz with ⟨z1, z2, z3⟩ | ⟨z1, z2⟩
      · exact ⟨z1, by omega, by rw [z3, q3, p3]⟩
      · cases z1
        exact ⟨q1, by show u.length + 1 ≤ _; omega, by show excess u = _; rw [q3, p3]⟩
  · rw [if_neg h1]
    refine .inr ⟨rfl, ?_⟩
    simp only [goes]
    simp only [Bool.not_eq_true] at h1
    rw [h1]; rfl

theorem inner_total (a b : Bool) (k : Kind) (l : RExpr) (ts : List Token) (ht : Toks ts) (hkb : isBinop k = true) (hk : k = .ch 61 → b = true)
    (hn : 8 * ts.length + 1 < n + 1) :
    Res (1 ≤ excess ts) (fun q => Took 0 ts q.2) (innerBody R a b k l ts) := by
  obtain ⟨t, r, rfl⟩ := ht.ne
  unfold innerBody
  refine Res.cur ?_
  by_cases h1 : (isBinop t.kind && (decide (prec t.kind > prec k) || (prec t.kind == prec k && isRight t.kind))) = true
  · rw [if_pos h1]
    refine Res.seq (H.expr2 a b l _ (t :: r) ht (by omega)) id ?_
    rintro ⟨x, s⟩ hx
    dsimp only
    have hs : Toks s := by rcases hx with h | ⟨h, _⟩
                           · exact h.1
                           · cases h; exact ht
    obtain ⟨u, v, rfl⟩ := hs.ne
    refine Res.cur ?_
    rcases hx with ⟨h2, h3, h4⟩ | ⟨h2, h3⟩
    · dsimp only at h2 h3 h4
      by_cases hc : (u.kind == .ch 44 && !a) = true
      · rw [if_pos hc]
        exact ⟨h2, by show (u :: v).length + 0 ≤ _; omega, h4⟩
      · rw [if_neg hc]
        refine Res.weaken (H.inner a b k x (u :: v) h2 hkb hk (by omega)) (by rw [h4]; exact id) ?_
        rintro ⟨y, w⟩ ⟨y1, y2, y3⟩
        exact ⟨y1, by show w.length + 0 ≤ _; dsimp only at y2; omega, by rw [y3, h4]⟩
    · -- not taken: the tuple that is not allowed
      cases h2
      have h5 : (t.kind == .ch 44 && !a) = true := by
        simp only [goes] at h3
        simp only [Bool.and_eq_true, Bool.or_eq_true, decide_eq_true_eq, beq_iff_eq] at h1
        have hmin : (isBinop t.kind && decide (prec t.kind ≥ prec k + if prec k < prec t.kind then 1 else 0)) = true := by
          simp only [Bool.and_eq_true, decide_eq_true_eq]
          refine ⟨h1.1, ?_⟩
          by_cases hlt : prec k < prec t.kind
          · rw [if_pos hlt]; omega
          · rw [if_neg hlt]; omega
        rw [hmin] at h3
        simp only [Bool.true_and, Bool.not_eq_false', Bool.or_eq_true] at h3
        rcases h3 with h3 | h3
        · exact h3
        · exfalso
          simp only [Bool.and_eq_true, beq_iff_eq, Bool.not_eq_true'] at h3
          have hp : prec t.kind = 0 := by rw [h3.1]; rfl
          rw [hp] at h1
          have hge := prec_binop hkb
          rcases h1.2 with h | ⟨h, _⟩
          · omega
          · have := prec_zero hkb h.symm
            rw [hk this] at h3
            exact absurd h3.2 (by decide)
      rw [if_pos h5]
      exact ⟨ht, by simp, rfl⟩
  · rw [if_neg h1]
    exact ⟨ht, by simp, rfl⟩

theorem expr_total (a b : Bool) (ts : List Token) (ht : Toks ts) (hn : 8 * ts.length + 1 < n + 1) :
    Res (1 ≤ excess ts) (fun q => Took 1 ts q.2) (exprBody R a b ts) := by
  unfold exprBody
  refine Res.seq (H.pre ts ht (by omega)) id ?_
  rintro ⟨l, us⟩ T
  dsimp only at T ⊢
  refine Res.look T ?_
  rintro t r rfl
  by_cases h : t.kind = .done
  · rw [if_pos h]; exact T
  · rw [if_neg h]
    have := T.2.1
    refine Res.weaken (H.expr2 a b l _ _ T.1 (by omega)) T.bad ?_
    rintro ⟨e, vs⟩ (h | ⟨h, _⟩)
    · exact (T.trans h).le (by omega)
    · cases h; exact T

theorem list_total (ts : List Token) (ht : Toks ts) (h : At (.ch 91) ts) (hn : 8 * ts.length < n + 1) :
    Res (1 ≤ excess ts) (fun q => Took 1 ts q.2.2) (parseList R ts) := by
  obtain ⟨t, r, rfl, hk⟩ := h
  unfold parseList
  refine Res.cur (Res.over (Took.refl ht) hk (by decide) rfl fun T => Res.look T ?_)
  rintro u v rfl
  have hl := T.2.1
  have key : Res (1 ≤ excess (t :: u :: v)) (fun q => Took 1 (t :: u :: v) q.2 ∧ At (.ch 93) q.2)
      (if u.kind = .ch 93 then .ok (.nil, u :: v) else R.items (u :: v) : Exec (RExprs × List Token)) := by
    by_cases h : u.kind = .ch 93
    · rw [if_pos h]; exact ⟨T, u, v, rfl, h⟩
    · rw [if_neg h]
      refine Res.weaken (H.items _ T.1 (by omega)) T.bad ?_
      rintro ⟨es, ws⟩ ⟨h1, h2⟩
      exact ⟨(T.trans h1).le (by omega), h2⟩
  refine Res.bind key ?_
  rintro ⟨es, ws⟩ ⟨T1, x, y, rfl, hx⟩
  dsimp only
  exact Res.cur (Res.over T1 hx (by decide) rfl fun T2 => T2.le (by omega))

theorem items_total (ts : List Token) (ht : Toks ts) (hn : 8 * ts.length + 2 < n + 1) :
    Res (1 ≤ excess ts) (fun q => Took 1 ts q.2 ∧ At (.ch 93) q.2) (itemsBody R ts) := by
  unfold itemsBody
  refine Res.seq (H.expr _ _ ts ht (by omega)) id ?_
  rintro ⟨e, us⟩ T
  dsimp only at T ⊢
  refine Res.look T ?_
  rintro t r rfl
  have hl := T.2.1
  by_cases h : t.kind = .ch 93
  · rw [if_pos h]; exact ⟨T, t, r, rfl, h⟩
  · rw [if_neg h]
    by_cases h2 : t.kind ≠ .ch 44
    · rw [if_pos h2]; trivial
    · rw [if_neg h2]
      refine Res.over T (Classical.not_not.mp h2) (by decide) rfl fun T2 => ?_
      have hl2 := T2.2.1
      refine Res.seq (H.items r T2.1 (by omega)) T2.bad ?_
      rintro ⟨es, vs⟩ ⟨T3, h3⟩
      exact ⟨(T2.trans T3).le (by omega), h3⟩

theorem func_total (ts : List Token) (ht : Toks ts) (h : At .kwFun ts) (hn : 8 * ts.length < n + 1) :
    Res (1 ≤ excess ts) (fun q => Took 1 ts q.2) (parseFunc R ts) := by
  obtain ⟨t, r, rfl, hk⟩ := h
  unfold parseFunc
  refine Res.cur (Res.over (Took.refl ht) hk (by decide) rfl fun T => Res.look T ?_)
  rintro nm v rfl
  by_cases h1 : nm.kind ≠ .ident
  · rw [if_pos h1]; trivial
  · rw [if_neg h1]
    refine Res.over T (Classical.not_not.mp h1) (by decide) rfl fun T => Res.look T ?_
    rintro p v rfl
    by_cases h2 : p.kind ≠ .ch 40
    · rw [if_pos h2]; trivial
    · rw [if_neg h2]
      refine Res.over T (Classical.not_not.mp h2) (by decide) rfl fun T => Res.look T ?_
      rintro u w rfl
      have hl := T.2.1
      have key : Res (1 ≤ excess (t :: nm :: p :: u :: w)) (fun q => Took 1 (t :: nm :: p :: u :: w) q.2 ∧ At (.ch 41) q.2)
          (if u.kind = .ch 41 then .ok (.nil, u :: w) else R.params .nil (u :: w) : Exec (RParams × List Token)) := by
        by_cases h : u.kind = .ch 41
        · rw [if_pos h]; exact ⟨T.le (by omega), u, w, rfl, h⟩
        · rw [if_neg h]
          refine Res.weaken (H.params _ _ T.1 (by omega)) T.bad ?_
          rintro ⟨es, ws⟩ ⟨h1, h2⟩
          exact ⟨(T.trans h1).le (by omega), h2⟩
      refine Res.bind key ?_
      rintro ⟨ps, ws⟩ ⟨T1, x, y, rfl, hx⟩
      dsimp only
      refine Res.over T1 hx (by decide) rfl fun T2 => Res.look T2 ?_
      rintro b z rfl
      have hl2 := T2.2.1
      by_cases h3 : b.kind = .done
      · rw [if_pos h3]; trivial
      · rw [if_neg h3]
        refine Res.seq (H.stmt _ T2.1 (by omega)) T2.bad ?_
        rintro ⟨s, vs⟩ T3
        exact (T2.trans T3).le (by omega)

theorem optional_total (k : Kind) (hk : k ≠ .done) (hb : brace k = 0) (a b : Bool) (ts : List Token) (ht : Toks ts)
    (hn : 8 * ts.length < n + 1) :
    Res (1 ≤ excess ts) (fun q => Took 0 ts q.2) (optional k (R.expr a b) ts) := by
  unfold optional
  refine Res.look (Took.refl ht) ?_
  rintro t r rfl
  by_cases h : t.kind = k
  · rw [if_pos h]
    refine Res.over (Took.refl ht) h hk hb fun T => ?_
    have hl := T.2.1
    refine Res.seq (H.expr a b r T.1 (by omega)) T.bad ?_
    rintro ⟨e, us⟩ T2
    exact (T.trans T2).le (by omega)
  · rw [if_neg h]; exact Took.refl ht

theorem params_total (e : RParams) (ts : List Token) (ht : Toks ts) (hn : 8 * ts.length + 2 < n + 1) :
    Res (1 ≤ excess ts) (fun q => Took 1 ts q.2 ∧ At (.ch 41) q.2) (paramsBody R e ts) := by
  unfold paramsBody
  refine Res.look (Took.refl ht) ?_
  rintro t r rfl
  by_cases h : t.kind ≠ .ident
  · rw [if_pos h]; trivial
  · rw [if_neg h]
    refine Res.over (Took.refl ht) (Classical.not_not.mp h) (by decide) rfl fun T => ?_
    have hl := T.2.1
    refine Res.seq (optional_total H (.ch 58) (by decide) rfl false false r T.1 (by omega)) T.bad ?_
    rintro ⟨x, us⟩ T1
    dsimp only at T1 ⊢
    have T := T.trans T1
    have hl := T.2.1
    refine Res.seq (optional_total H (.ch 61) (by decide) rfl false true us T.1 (by omega)) T.bad ?_
    rintro ⟨y, vs⟩ T1
    dsimp only at T1 ⊢
    have T := T.trans T1
    refine Res.look T ?_
    rintro u w rfl
    have hl := T.2.1
    by_cases h1 : u.kind = .ch 41
    · rw [if_pos h1]; exact ⟨T.le (by omega), u, w, rfl, h1⟩
    · rw [if_neg h1]
      by_cases h2 : u.kind ≠ .ch 44
      · rw [if_pos h2]; trivial
      · rw [if_neg h2]
        refine Res.over T (Classical.not_not.mp h2) (by decide) rfl fun T2 => ?_
        have hl2 := T2.2.1
        refine Res.weaken (H.params _ _ T2.1 (by omega)) T2.bad ?_
        rintro ⟨es, vs⟩ ⟨T3, h3⟩
        exact ⟨(T2.trans T3).le (by omega), h3⟩

theorem key_total (ts : List Token) (ht : Toks ts) (hne : ¬ At .done ts) (hn : 8 * ts.length + 2 < n + 1) :
    Res (1 ≤ excess ts) (fun q => Took 1 ts q.2) (parseKey R ts) := by
  obtain ⟨t, r, rfl⟩ := ht.ne
  have hd : t.kind ≠ .done := fun h => hne ⟨t, r, rfl, h⟩
  obtain ⟨u, v, rfl⟩ := (ht.tail hd).ne
  unfold parseKey
  refine Res.bind (P := fun x => x = true → t.kind = .ident) (x := singleIdent (t :: u :: v)) ?_ ?_
  · show (t.kind == .ident && (u.kind == .done || u.kind == .ch 58)) = true → t.kind = .ident
    simp only [Bool.and_eq_true, beq_iff_eq]
    exact fun h => h.1
  intro single hs
  cases single with
  | true =>
    rw [if_pos rfl]
    exact Took.one ht hd (by rw [hs rfl]; rfl)
  | false =>
    rw [if_neg (by decide)]
    exact H.expr _ _ _ ht (by omega)

/-- A key and its item, if the source does not end where the key should be. -/
theorem keyItem_total (ts : List Token) (ht : Toks ts) (hne : ¬ At .done ts) (hn : 8 * ts.length + 2 < n + 1) :
    Res (1 ≤ excess ts) (fun q => Took 1 ts q.2.2) (keyItem R ts) := by
  unfold keyItem
  have key := key_total H ts ht hne hn
  refine Res.bind key ?_
  rintro ⟨k, ws⟩ T
  dsimp only at T ⊢
  refine Res.look T ?_
  rintro x y rfl
  by_cases h : x.kind ≠ .ch 58
  · rw [if_pos h]; trivial
  · rw [if_neg h]
    refine Res.over T (Classical.not_not.mp h) (by decide) rfl fun T2 => ?_
    have hl := T2.2.1
    refine Res.seq (H.expr _ _ _ T2.1 (by omega)) T2.bad ?_
    rintro ⟨e, us⟩ T3
    exact (T2.trans T3).le (by omega)

theorem pairs_total (ts : List Token) (ht : Toks ts) (hn : 8 * ts.length + 2 < n + 1) :
    Res (0 ≤ excess ts) (fun q => Took 1 ts q.2 ∧ At (.ch 125) q.2) (pairsBody R ts) := by
  unfold pairsBody
  obtain ⟨t, r, rfl⟩ := ht.ne
  refine Res.cur ?_
  have up : ∀ {d : Nat} {us : List Token}, Took d (t :: r) us → 0 ≤ excess us → 0 ≤ excess (t :: r) := by
    intro d us T h; rw [← T.2.2]; exact h
  by_cases h : t.kind = .kwFun
  · rw [if_pos h]
    refine Res.seq (func_total H _ ht ⟨t, r, rfl, h⟩ (by omega)) (by intro h; omega) ?_
    rintro ⟨d, us⟩ T
    dsimp only at T ⊢
    refine Res.look T ?_
    rintro u w rfl
    have hl := T.2.1
    by_cases h1 : u.kind = .ch 125
    · rw [if_pos h1]; exact ⟨T, u, w, rfl, h1⟩
    · rw [if_neg h1]
      refine Res.seq (H.pairs _ T.1 (by omega)) (up T) ?_
      rintro ⟨ps, vs⟩ ⟨T2, h2⟩
      exact ⟨(T.trans T2).le (by omega), h2⟩
  · rw [if_neg h]
    by_cases hd : t.kind = .done
    · have := ht.last hd
      subst this
      show 0 ≤ excess [t]
      simp [excess, hd, brace]
    · refine Res.seq (keyItem_total H _ ht (by rintro ⟨x, y, e, hx⟩; cases e; exact hd hx) (by omega)) (by intro h; omega) ?_
      rintro ⟨k, i, us⟩ T
      dsimp only at T ⊢
      refine Res.look T ?_
      rintro u w rfl
      have hl := T.2.1
      by_cases h1 : u.kind = .ch 125
      · rw [if_pos h1]; exact ⟨T, u, w, rfl, h1⟩
      · rw [if_neg h1]
        by_cases h2 : u.kind ≠ .ch 44
        · rw [if_pos h2]; trivial
        · rw [if_neg h2]
          refine Res.over T (Classical.not_not.mp h2) (by decide) rfl fun T2 => ?_
          have hl2 := T2.2.1
          refine Res.seq (H.pairs _ T2.1 (by omega)) (up T2) ?_
          rintro ⟨ps, vs⟩ ⟨T3, h3⟩
          exact ⟨(T2.trans T3).le (by omega), h3⟩

theorem map_total (ts : List Token) (ht : Toks ts) (h : At (.ch 123) ts) (hn : 8 * ts.length < n + 1) :
    Res (1 ≤ excess ts) (fun q => Took 1 ts q.2) (parseMap R ts) := by
  obtain ⟨t, r, rfl, hk⟩ := h
  unfold parseMap
  refine Res.cur (Res.next ht (by rw [hk]; decide) fun hr => ?_)
  obtain ⟨u, v, rfl⟩ := hr.ne
  refine Res.cur ?_
  have hex : excess (t :: u :: v) = 1 + excess (u :: v) := by
    show brace t.kind + excess (u :: v) = _
    rw [hk]; rfl
  by_cases hd : u.kind = .done
  · rw [if_pos hd]; trivial
  · rw [if_neg hd]
    have hl : (t :: u :: v).length = (u :: v).length + 1 := rfl
    have key : Res (1 ≤ excess (t :: u :: v)) (fun q => Took 0 (u :: v) q.2 ∧ At (.ch 125) q.2)
        (if u.kind = .ch 125 then .ok (.nil, u :: v) else R.pairs (u :: v) : Exec (RPairs × List Token)) := by
      by_cases h : u.kind = .ch 125
      · rw [if_pos h]; exact ⟨Took.refl hr, u, v, rfl, h⟩
      · rw [if_neg h]
        refine Res.weaken (H.pairs _ hr (by omega)) (by rw [hex]; omega) ?_
        rintro ⟨ps, vs⟩ ⟨T2, h2⟩
        exact ⟨T2.le (by omega), h2⟩
    refine Res.bind key ?_
    rintro ⟨ps, ws⟩ ⟨T1, x, y, rfl, hx⟩
    dsimp only at T1 ⊢
    refine Res.cur (Res.next T1.1 (by rw [hx]; decide) fun hy => ?_)
    refine ⟨hy, ?_, ?_⟩
    · have := T1.2.1
      simp only [List.length_cons] at this ⊢
      omega
    · have h1 := T1.2.2
      have h2 : excess (x :: y) = -1 + excess y := by
        show brace x.kind + excess y = _
        rw [hx]; rfl
      show excess y = _
      omega

omit H in
theorem stringLoop_total (bad : Prop) : ∀ (n : Nat) (t temp : List UInt8), t.length < n →
    Res bad (fun _ => True) (stringLoop n t temp)
  | 0, _, _, h => by omega
  | n + 1, t, temp, h => by
    unfold stringLoop
    dsimp only
    by_cases h1 : temp.length + (t.takeWhile (· != 92)).length ≥ 4096
    · rw [if_pos h1]; trivial
    · rw [if_neg h1]
      split
      · trivial
      · rename_i c r hr
        by_cases h2 : (temp ++ t.takeWhile (· != 92)).length + 1 ≥ 4096
        · rw [if_pos h2]; trivial
        · rw [if_neg h2]
          have hl := Noja.Asm.dropWhile_length (· != 92) t
          rw [hr] at hl
          cases r with
          | nil => trivial
          | cons e r =>
            dsimp only
            split
            · trivial
            · split
              · trivial
              · simp only [List.length_cons] at hl
                exact stringLoop_total bad n r _ (by omega)

theorem primary_total (flt : List UInt8 → Option (BitVec 64)) (ts : List Token) (ht : Toks ts) (hn : 8 * ts.length < n + 1) :
    Res (1 ≤ excess ts) (fun q => Took 1 ts q.2) (parsePrimary flt R ts) := by
  obtain ⟨t, r, rfl⟩ := ht.ne
  have simple : ∀ {k : Kind} {β : Type} (e : List Token → Exec β), t.kind = k → k ≠ .done → brace k = 0 →
      ∀ {Q : β → Prop}, (Took 1 (t :: r) r → Res (1 ≤ excess (t :: r)) Q (e r)) →
      Res (1 ≤ excess (t :: r)) Q (Parse.next (t :: r) >>= e) := by
    intro k β e hk hd hb Q h
    exact Res.over (Took.refl ht) hk hd hb fun T => h (T.le (by omega))
  unfold parsePrimary
  refine Res.cur ?_
  split
  · rename_i hk
    refine Res.seq (list_total H _ ht ⟨t, r, rfl, hk⟩ hn) id ?_
    rintro ⟨es, p, us⟩ T
    exact T
  · rename_i hk
    exact map_total H _ ht ⟨t, r, rfl, hk⟩ hn
  · rename_i hk
    refine simple _ hk (by decide) rfl fun T => ?_
    have hl := T.2.1
    refine Res.seq (H.expr _ _ _ T.1 (by omega)) T.bad ?_
    rintro ⟨e, us⟩ T2
    dsimp only at T2 ⊢
    refine Res.look T2 ?_
    rintro u w rfl
    by_cases h : u.kind ≠ .ch 41
    · rw [if_pos h]; trivial
    · rw [if_neg h]
      exact Res.over (T.trans T2) (Classical.not_not.mp h) (by decide) rfl fun T3 => T3.le (by omega)
  · rename_i hk
    unfold parseInt
    split
    · trivial
    · split
      · trivial
      · exact simple _ hk (by decide) rfl fun T => T
  · rename_i hk
    unfold parseFloat
    split
    · trivial
    · split
      · trivial
      · exact simple _ hk (by decide) rfl fun T => T
  · rename_i hk
    unfold parseString
    refine Res.bind (stringLoop_total _ _ _ _ (by simp; omega)) fun s _ => ?_
    refine simple _ hk (by decide) rfl fun T => ?_
    unfold mkStr
    obtain ⟨u, w, rfl⟩ := T.1.ne
    exact T
  · rename_i hk
    exact simple _ hk (by decide) rfl fun T => Res.look T (by rintro u w rfl; exact T)
  · rename_i hk
    exact simple _ hk (by decide) rfl fun T => Res.look T (by rintro u w rfl; exact T)
  · rename_i hk
    exact simple _ hk (by decide) rfl fun T => Res.look T (by rintro u w rfl; exact T)
  · rename_i hk
    exact simple _ hk (by decide) rfl fun T => T
  · trivial

theorem args_total (e : RExprs) (ts : List Token) (ht : Toks ts) (hn : 8 * ts.length + 2 < n + 1) :
    Res (1 ≤ excess ts) (fun q => Took 1 ts q.2 ∧ At (.ch 41) q.2) (argsBody R e ts) := by
  unfold argsBody
  refine Res.seq (H.expr _ _ ts ht (by omega)) id ?_
  rintro ⟨e, us⟩ T
  dsimp only at T ⊢
  refine Res.look T ?_
  rintro t r rfl
  have hl := T.2.1
  by_cases h : t.kind = .ch 41
  · rw [if_pos h]; exact ⟨T, t, r, rfl, h⟩
  · rw [if_neg h]
    by_cases h2 : t.kind ≠ .ch 44
    · rw [if_pos h2]; trivial
    · rw [if_neg h2]
      refine Res.over T (Classical.not_not.mp h2) (by decide) rfl fun T2 => ?_
      have hl2 := T2.2.1
      refine Res.weaken (H.args _ r T2.1 (by omega)) T2.bad ?_
      rintro ⟨es, vs⟩ ⟨T3, h3⟩
      exact ⟨(T2.trans T3).le (by omega), h3⟩

omit H in
theorem dot_total (arrow : Bool) (node : RExpr) (ts : List Token) {k : Kind} (ht : Toks ts) (h : At k ts) (hk : k ≠ .done)
    (hb : brace k = 0) : Res (1 ≤ excess ts) (fun q => Took 1 ts q.2) (parseDot arrow node ts) := by
  obtain ⟨t, r, rfl, htk⟩ := h
  unfold parseDot
  refine Res.over (Took.refl ht) htk hk hb fun T => Res.look T ?_
  rintro u w rfl
  by_cases h : u.kind ≠ .ident
  · rw [if_pos h]; trivial
  · rw [if_neg h]
    show Res _ _ (Parse.next (u :: w) >>= _)
    exact Res.over T (Classical.not_not.mp h) (by decide) rfl fun T2 => T2.le (by omega)

theorem index_total (node : RExpr) (ts : List Token) (ht : Toks ts) (h : At (.ch 91) ts) (hn : 8 * ts.length < n + 1) :
    Res (1 ≤ excess ts) (fun q => Took 1 ts q.2) (parseIndex R node ts) := by
  unfold parseIndex
  refine Res.seq (list_total H _ ht h hn) id ?_
  rintro ⟨es, p, us⟩ T
  dsimp only at T ⊢
  split
  · trivial
  · exact T
  · exact T

theorem call_total (node : RExpr) (ts : List Token) (ht : Toks ts) (h : At (.ch 40) ts) (hn : 8 * ts.length < n + 1) :
    Res (1 ≤ excess ts) (fun q => Took 1 ts q.2) (parseCall R node ts) := by
  obtain ⟨t, r, rfl, hk⟩ := h
  unfold parseCall
  refine Res.cur (Res.over (Took.refl ht) hk (by decide) rfl fun T => Res.look T ?_)
  rintro u v rfl
  have hl := T.2.1
  have key : Res (1 ≤ excess (t :: u :: v)) (fun q => Took 1 (t :: u :: v) q.2 ∧ At (.ch 41) q.2)
      (if u.kind = .ch 41 then .ok (.nil, u :: v) else R.args .nil (u :: v) : Exec (RExprs × List Token)) := by
    by_cases h : u.kind = .ch 41
    · rw [if_pos h]; exact ⟨T, u, v, rfl, h⟩
    · rw [if_neg h]
      refine Res.weaken (H.args _ _ T.1 (by omega)) T.bad ?_
      rintro ⟨es, ws⟩ ⟨h1, h2⟩
      exact ⟨(T.trans h1).le (by omega), h2⟩
  refine Res.bind key ?_
  rintro ⟨es, ws⟩ ⟨T1, x, y, rfl, hx⟩
  dsimp only
  exact Res.cur (Res.over T1 hx (by decide) rfl fun T2 => T2.le (by omega))

theorem post_total (node : RExpr) (ts : List Token) (ht : Toks ts) (hn : 8 * ts.length < n + 1) :
    Res (1 ≤ excess ts) (fun q => Took 0 ts q.2) (postBody R node ts) := by
  obtain ⟨t, r, rfl⟩ := ht.ne
  unfold postBody
  refine Res.cur ?_
  have go : ∀ {x : Exec (RExpr × List Token)}, Res (1 ≤ excess (t :: r)) (fun q => Took 1 (t :: r) q.2) x →
      Res (1 ≤ excess (t :: r)) (fun q => Took 0 (t :: r) q.2) (x >>= fun q => match q with | (e, ts) => R.post e ts) := by
    intro x hx
    refine Res.bind hx ?_
    rintro ⟨e, us⟩ T
    have hl := T.2.1
    dsimp only at T hl ⊢
    refine Res.weaken (H.post _ _ T.1 (by omega)) T.bad ?_
    rintro ⟨e, vs⟩ T2
    exact (T.trans T2).le (by omega)
  split
  · rename_i hk; exact go (dot_total _ _ _ ht ⟨t, r, rfl, hk⟩ (by decide) rfl)
  · rename_i hk; exact go (dot_total _ _ _ ht ⟨t, r, rfl, hk⟩ (by decide) rfl)
  · rename_i hk; exact go (index_total H _ _ ht ⟨t, r, rfl, hk⟩ hn)
  · rename_i hk; exact go (call_total H _ _ ht ⟨t, r, rfl, hk⟩ hn)
  · exact Took.refl ht

theorem pre_total (flt : List UInt8 → Option (BitVec 64)) (ts : List Token) (ht : Toks ts) (hn : 8 * ts.length < n + 1) :
    Res (1 ≤ excess ts) (fun q => Took 1 ts q.2) (preBody flt R ts) := by
  obtain ⟨t, r, rfl⟩ := ht.ne
  unfold preBody
  refine Res.cur ?_
  split
  · rename_i op hop
    have hne : t.kind ≠ .done := by intro h; rw [h] at hop; cases hop
    refine Res.next ht hne fun hr => ?_
    have T := Took.one ht hne (brace_unop hop)
    have hl := T.2.1
    refine Res.seq (H.pre _ hr (by omega)) T.bad ?_
    rintro ⟨e, us⟩ T2
    exact (T.trans T2).le (by omega)
  · refine Res.bind (primary_total H flt _ ht hn) ?_
    rintro ⟨e, us⟩ T
    have hl := T.2.1
    dsimp only at T hl ⊢
    refine Res.weaken (H.post _ _ T.1 (by omega)) T.bad ?_
    rintro ⟨e, vs⟩ T2
    exact (T.trans T2).le (by omega)

theorem condition_total (k : Kind) (hk : k ≠ .done) (hb : brace k = 0) (ts : List Token) (ht : Toks ts)
    (hn : 8 * ts.length + 2 < n + 1) :
    Res (1 ≤ excess ts) (fun q => Took 2 ts q.2) (condition R k ts) := by
  unfold condition
  refine Res.seq (H.expr _ _ _ ht (by omega)) id ?_
  rintro ⟨e, us⟩ T
  dsimp only at T ⊢
  refine Res.look T ?_
  rintro u w rfl
  by_cases h : u.kind ≠ k
  · rw [if_pos h]; trivial
  · rw [if_neg h]
    exact Res.over T (Classical.not_not.mp h) hk hb fun T2 => T2

theorem if_total (ts : List Token) (ht : Toks ts) (h : At .kwIf ts) (hn : 8 * ts.length < n + 1) :
    Res (1 ≤ excess ts) (fun q => Took 1 ts q.2) (parseIf R ts) := by
  obtain ⟨t, r, rfl, hk⟩ := h
  unfold parseIf
  refine Res.cur (Res.over (Took.refl ht) hk (by decide) rfl fun T => ?_)
  have hl := T.2.1
  refine Res.seq (condition_total H (.ch 58) (by decide) rfl r T.1 (by omega)) T.bad ?_
  rintro ⟨c, us⟩ T1
  have T := T.trans T1
  have hl := T.2.1
  dsimp only at T hl ⊢
  refine Res.seq (H.stmt _ T.1 (by omega)) T.bad ?_
  rintro ⟨s, vs⟩ T1
  have T := T.trans T1
  have hl := T.2.1
  dsimp only at T hl ⊢
  refine Res.look T ?_
  rintro u w rfl
  by_cases h : u.kind = .kwElse
  · rw [if_pos h]
    refine Res.over T h (by decide) rfl fun T => ?_
    have hl := T.2.1
    refine Res.seq (H.stmt _ T.1 (by omega)) T.bad ?_
    rintro ⟨s, vs⟩ T1
    have T := T.trans T1
    dsimp only at T ⊢
    refine Res.look T ?_
    rintro x y rfl
    exact T.le (by omega)
  · rw [if_neg h]; exact T.le (by omega)

theorem while_total (ts : List Token) (ht : Toks ts) (h : At .kwWhile ts) (hn : 8 * ts.length < n + 1) :
    Res (1 ≤ excess ts) (fun q => Took 1 ts q.2) (parseWhile R ts) := by
  obtain ⟨t, r, rfl, hk⟩ := h
  unfold parseWhile
  refine Res.cur (Res.over (Took.refl ht) hk (by decide) rfl fun T => ?_)
  have hl := T.2.1
  refine Res.seq (condition_total H (.ch 58) (by decide) rfl r T.1 (by omega)) T.bad ?_
  rintro ⟨c, us⟩ T1
  have T := T.trans T1
  have hl := T.2.1
  dsimp only at T hl ⊢
  refine Res.seq (H.stmt _ T.1 (by omega)) T.bad ?_
  rintro ⟨s, vs⟩ T1
  have T := T.trans T1
  dsimp only at T ⊢
  refine Res.look T ?_
  rintro x y rfl
  exact T.le (by omega)

theorem do_total (ts : List Token) (ht : Toks ts) (h : At .kwDo ts) (hn : 8 * ts.length < n + 1) :
    Res (1 ≤ excess ts) (fun q => Took 1 ts q.2) (parseDo R ts) := by
  obtain ⟨t, r, rfl, hk⟩ := h
  unfold parseDo
  refine Res.cur (Res.over (Took.refl ht) hk (by decide) rfl fun T => ?_)
  have hl := T.2.1
  refine Res.seq (H.stmt _ T.1 (by omega)) T.bad ?_
  rintro ⟨s, us⟩ T1
  have T := T.trans T1
  have hl := T.2.1
  dsimp only at T hl ⊢
  refine Res.look T ?_
  rintro u w rfl
  by_cases h : u.kind ≠ .kwWhile
  · rw [if_pos h]; trivial
  · rw [if_neg h]
    refine Res.over T (Classical.not_not.mp h) (by decide) rfl fun T => ?_
    have hl := T.2.1
    refine Res.seq (condition_total H (.ch 59) (by decide) rfl w T.1 (by omega)) T.bad ?_
    rintro ⟨c, vs⟩ T1
    have T := T.trans T1
    dsimp only at T ⊢
    refine Res.look T ?_
    rintro x y rfl
    exact T.le (by omega)

theorem stmts_total (k : Kind) (ts : List Token) (ht : Toks ts) (hn : 8 * ts.length + 3 < n + 1) :
    Res (1 ≤ excess ts) (fun q => Took 0 ts q.2 ∧ At k q.2) (stmtsBody R k ts) := by
  obtain ⟨t, r, rfl⟩ := ht.ne
  unfold stmtsBody
  refine Res.cur ?_
  by_cases h : t.kind = k
  · rw [if_pos h]; exact ⟨Took.refl ht, t, r, rfl, h⟩
  · rw [if_neg h]
    by_cases h2 : t.kind = .done
    · rw [if_pos h2]; trivial
    · rw [if_neg h2]
      refine Res.seq (H.stmt _ ht (by omega)) id ?_
      rintro ⟨s, us⟩ T
      have hl := T.2.1
      dsimp only at T hl ⊢
      refine Res.seq (H.stmts k _ T.1 (by omega)) T.bad ?_
      rintro ⟨ss, vs⟩ ⟨T2, h2⟩
      exact ⟨(T.trans T2).le (by omega), h2⟩

theorem block_total (ts : List Token) (ht : Toks ts) (h : At (.ch 123) ts) (hn : 8 * ts.length < n + 1) :
    Res (1 ≤ excess ts) (fun q => Took 1 ts q.2) (parseBlock R ts) := by
  obtain ⟨t, r, rfl, hk⟩ := h
  unfold parseBlock
  refine Res.next ht (by rw [hk]; decide) fun hr => ?_
  have hex : excess (t :: r) = 1 + excess r := by
    show brace t.kind + excess r = _
    rw [hk]; rfl
  have hl : (t :: r).length = r.length + 1 := rfl
  refine Res.seq (H.stmts _ r hr (by omega)) (by omega) ?_
  rintro ⟨ss, us⟩ ⟨T1, x, y, rfl, hx⟩
  dsimp only at T1 ⊢
  refine Res.next T1.1 (by rw [hx]; decide) fun hy => ?_
  refine ⟨hy, ?_, ?_⟩
  · have := T1.2.1
    simp only [List.length_cons] at this ⊢
    omega
  · have h1 := T1.2.2
    have h2 : excess (x :: y) = -1 + excess y := by
      show brace x.kind + excess y = _
      rw [hx]; rfl
    show excess y = _
    omega

theorem stmt_total (ts : List Token) (ht : Toks ts) (hn : 8 * ts.length + 2 < n + 1) :
    Res (1 ≤ excess ts) (fun q => Took 1 ts q.2) (stmtBody R ts) := by
  obtain ⟨t, r, rfl⟩ := ht.ne
  unfold stmtBody
  refine Res.cur ?_
  by_cases h : exprStart t.kind = true
  · rw [if_pos h]
    unfold parseExprStmt
    refine Res.bind (condition_total H (.ch 59) (by decide) rfl _ ht hn) ?_
    rintro ⟨c, us⟩ T
    exact T.le (by omega)
  · rw [if_neg h]
    split
    · rename_i hk; exact if_total H _ ht ⟨t, r, rfl, hk⟩ (by omega)
    · rename_i hk; exact block_total H _ ht ⟨t, r, rfl, hk⟩ (by omega)
    · rename_i hk
      unfold parseBreak
      refine Res.cur (Res.over (Took.refl ht) hk (by decide) rfl fun T => Res.look T ?_)
      rintro u w rfl
      by_cases h : u.kind ≠ .ch 59
      · rw [if_pos h]; trivial
      · rw [if_neg h]
        exact Res.over T (Classical.not_not.mp h) (by decide) rfl fun T => T.le (by omega)
    · rename_i hk
      unfold parseReturn
      refine Res.cur (Res.over (Took.refl ht) hk (by decide) rfl fun T => ?_)
      have hl := T.2.1
      refine Res.seq (condition_total H (.ch 59) (by decide) rfl _ T.1 (by omega)) T.bad ?_
      rintro ⟨c, us⟩ T1
      exact (T.trans T1).le (by omega)
    · rename_i hk
      refine Res.bind (func_total H _ ht ⟨t, r, rfl, hk⟩ (by omega)) ?_
      rintro ⟨d, us⟩ T
      exact T
    · rename_i hk; exact while_total H _ ht ⟨t, r, rfl, hk⟩ (by omega)
    · rename_i hk; exact do_total H _ ht ⟨t, r, rfl, hk⟩ (by omega)
    · trivial

end Bodies

theorem recs_total (flt : List UInt8 → Option (BitVec 64)) : ∀ n, Total n (recs flt n)
  | 0 => by constructor <;> intros <;> omega
  | n + 1 => by
    have H := recs_total flt n
    exact ⟨expr_total H, expr2_total H, inner_total H, pre_total H flt, post_total H, items_total H, args_total H,
      pairs_total H, params_total H, stmt_total H, stmts_total H⟩

theorem Lexeme.ne_done {k : Kind} {w r : List UInt8} (h : Lexeme k w r) : k ≠ .done := by
  cases h with
  | @word c w r _ _ _ =>
    intro h
    have key : ∀ (l : List (List UInt8 × Kind)), (∀ e ∈ l, e.2 ≠ .done) → (l.lookup (c :: w)).getD .ident ≠ .done := by
      intro l
      induction l with
      | nil => intro _ h; cases h
      | cons e l ih =>
        intro hl
        obtain ⟨a, b⟩ := e
        rw [List.lookup_cons]
        split
        · exact hl (a, b) (by simp)
        · exact ih fun e he => hl e (List.mem_cons_of_mem _ he)
    exact key kwords (by decide) h
  | oper _ _ hk =>
    intro h
    subst h
    have key : ∀ (l : List (List UInt8 × Kind)), (∀ e ∈ l, e.2 ≠ .done) → l.lookup w ≠ some .done := by
      intro l
      induction l with
      | nil => intro _ h; cases h
      | cons e l ih =>
        intro hl
        obtain ⟨a, b⟩ := e
        rw [List.lookup_cons]
        split
        · intro h; cases h; exact hl (a, .done) (by simp) rfl
        · exact ih fun e he => hl e (List.mem_cons_of_mem _ he)
    exact key optable (by decide) hk
  | _ => intro h; cases h

theorem Split.toks {t : List UInt8} {n : Nat} {ts : List Token} (h : Split t n ts) : Toks ts := by
  induction h with
  | done _ => rfl
  | @token g w r k n ts hb hne hl hs ih =>
    obtain ⟨u, v, rfl⟩ := ih.ne
    exact ⟨hl.ne_done, ih⟩

theorem tokenize_toks {past : UInt8} {t : List UInt8} {ts : List Token} (h : tokenize past t = .ok ts) : Toks ts :=
  ((C50_tokens past t ts).mp h).toks

theorem parse_total (flt : List UInt8 → Option (BitVec 64)) (past : UInt8) (src : List UInt8) :
    Res (past = 92 ∧ tokenize past src = .ub ∨ ∃ ts, tokenize past src = .ok ts ∧ 1 ≤ excess ts) (fun _ => True)
      (parse flt past src) := by
  unfold parse
  cases ht : tokenize past src with
  | ok ts =>
    have hT := tokenize_toks ht
    show Res _ _ ((recs flt (depth ts)).stmts .done ts >>= _)
    refine Res.seq (b' := 1 ≤ excess ts) ((recs_total flt (depth ts)).stmts .done ts hT (by unfold depth; omega))
      (fun h => .inr ⟨ts, rfl, h⟩) ?_
    rintro ⟨ss, us⟩ _
    trivial
  | err => trivial
  | ub =>
    rcases C50_ends past src with ⟨ts, h⟩ | h
    · rw [ht] at h; cases h
    · rw [ht] at h
      by_cases hp : past = 92
      · exact .inl ⟨hp, rfl⟩
      · rw [if_neg hp] at h; cases h
  | diverge =>
    rcases C50_ends past src with ⟨ts, h⟩ | h
    · rw [ht] at h; cases h
    · rw [ht] at h
      by_cases hp : past = 92
      · rw [if_pos hp] at h; cases h
      · rw [if_neg hp] at h; cases h

/-- C79: the parser ends on every text. -/
theorem C79_ends (flt : List UInt8 → Option (BitVec 64)) (past : UInt8) (src : List UInt8) :
    parse flt past src ≠ .diverge := by
  have h := parse_total flt past src
  intro e
  rw [e] at h
  exact h

/-- C79, as stated: whatever the text, the parser stays within its tokens. -/
def C79Statement : Prop :=
  ∀ (flt : List UInt8 → Option (BitVec 64)) (past : UInt8) (src : List UInt8), parse flt past src ≠ .ub

/-- C79, what holds: when the byte after the text is not a backslash (it is a NUL for a source read from a file), the
parser follows the null pointer after its last token only on texts with more opening than closing braces.
What is missing: texts that end within a map, see `C79_violated`. -/
theorem C79_partial (flt : List UInt8 → Option (BitVec 64)) {past : UInt8} (hp : past ≠ 92) (src : List UInt8)
    (hb : ∀ ts, tokenize past src = .ok ts → excess ts ≤ 0) : parse flt past src ≠ .ub := by
  have h := parse_total flt past src
  intro e
  rw [e] at h
  rcases h with h | ⟨ts, h, h2⟩
  · exact hp h.1
  · have := hb ts h
    omega

/-- The text is read, and it is not empty. -/
example : (match parse (fun _ => none) 0 (bytes "x={a:1,b:[2,3]};") with | .ok (.cons _ _) => true | _ => false) = true ∧
    ∀ ts, tokenize 0 (bytes "x={a:1,b:[2,3]};") = .ok ts → excess ts ≤ 0 := by
  constructor
  · decide +kernel
  · intro ts h
    have : (match tokenize 0 (bytes "x={a:1,b:[2,3]};") with | .ok ts => decide (excess ts ≤ 0) | _ => false) = true := by
      decide +kernel
    rw [h] at this
    exact of_decide_eq_true this

/-- C79: on a text that ends after a comma in a map the parser reads the kind of the token after the last one. -/
theorem C79_violated : ¬ C79Statement := fun h => by
  refine h (fun _ => none) 0 (bytes "x={a:1,") ?_
  have : (match parse (fun _ => none) 0 (bytes "x={a:1,") with | .ub => true | _ => false) = true := by decide +kernel
  revert this
  generalize parse (fun _ => none) 0 (bytes "x={a:1,") = r
  cases r <;> simp

/-- C79: the same after any beginning of a map that can be read: a text whose tokens run out at a comma within a map
makes the loop over the pairs read on from the last token. -/
theorem C79_map_end (flt : List UInt8 → Option (BitVec 64)) (n : Nat) (d : Token) (hd : d.kind = .done) :
    (recs flt (n + 1)).pairs [d] = .ub := by
  show pairsBody (recs flt n) [d] = .ub
  unfold pairsBody
  show (if d.kind = .kwFun then _ else _) = _
  rw [if_neg (by rw [hd]; decide)]
  rfl

/-- The last token of any text is one. -/
example : ({ kind := .done, off := 3, text := [] } : Token).kind = .done := rfl

end Noja.Parse
