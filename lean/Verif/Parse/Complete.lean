import Verif.Parse.Literal

/-!
# Every program of the grammar is accepted, with its tree
-/

namespace Noja.Parse

open Noja.VM (RExpr RExprs RPairs RCall RFun RParams ROpt RStmt RStmts Pos Name UnOp BinOp)

set_option linter.unusedSimpArgs false
set_option linter.unusedVariables false

/-! ## Tables -/

theorem Infix.facts {k : Kind} {p : Int} {f : RExpr → RExpr → Pos → RExpr} (h : Infix k p f) :
    isBinop k = true ∧ prec k = p ∧ 1 ≤ p ∧ p ≤ 7 ∧ isRight k = false ∧ (k == .ch 61) = false ∧
    ∀ a b, mkBin k a b = .ok (f a b (upto a.pos b.pos)) := by
  cases h <;> exact ⟨rfl, rfl, by decide, by decide, by decide, by decide, fun _ _ => rfl⟩

theorem Prefix.facts {k : Kind} {op : UnOp} (h : Prefix k op) : unOp k = some op := by cases h <;> rfl

theorem Called.facts {f : RExpr} {as : RExprs} {c : RCall} (h : Called f as c) (p : Pos) : mkCall f as p = .call c p := by
  cases h with
  | method => rfl
  | fn hf => cases f <;> first | rfl | exact absurd rfl (hf _ _ _)

theorem lastEnd_eq : ∀ (ss : RStmts) (s : RStmt) (e : Int), lastEnd (.cons s ss) e = endOf (.cons s ss)
  | .nil, s, e => rfl
  | .cons s' ss, s, e => by
    have := lastEnd_eq ss s' (s.pos.off + s.pos.len)
    simp only [lastEnd, endOf] at this ⊢
    exact this

theorem compPos_eq (ss : RStmts) : compPos ss = blockPos ss := by
  cases ss with
  | nil => rfl
  | cons s ss => unfold compPos blockPos; dsimp only; rw [lastEnd_eq]

/-! ## The text of strings -/

theorem Spells.length {b s : List UInt8} (h : Spells b s) : s.length ≤ b.length := by
  induction h with
  | nil => simp
  | plain _ _ ih => simpa using ih
  | esc _ _ ih => simp only [List.length_cons]; omega
  | last => simp

theorem Spells.split {b s : List UInt8} (h : Spells b s) : ∃ p : List UInt8, (∀ c ∈ p, c ≠ 92) ∧
    ((b = p ∧ s = p) ∨ (b = p ++ [92] ∧ s = p ++ [92]) ∨
      ∃ e c b' s', unescape e = some c ∧ Spells b' s' ∧ b = p ++ 92 :: e :: b' ∧ s = p ++ c :: s') := by
  induction h with
  | nil => exact ⟨[], by simp, .inl ⟨rfl, rfl⟩⟩
  | @plain c b s h2 hs ih =>
    obtain ⟨p, hp, ih⟩ := ih
    refine ⟨c :: p, ?_, ?_⟩
    · intro d hd
      rcases List.mem_cons.mp hd with rfl | hd
      · exact h2
      · exact hp d hd
    · rcases ih with ⟨rfl, rfl⟩ | ⟨rfl, rfl⟩ | ⟨e, c', b', s', h3, h4, rfl, rfl⟩
      · exact .inl ⟨rfl, rfl⟩
      · exact .inr (.inl ⟨rfl, rfl⟩)
      · exact .inr (.inr ⟨e, c', b', s', h3, h4, rfl, rfl⟩)
  | @esc e c b s h1 hs ih =>
    refine ⟨[], by simp, .inr (.inr ⟨e, c, b, s, ?_, hs, rfl, rfl⟩)⟩
    simp only [List.mem_cons, Prod.mk.injEq, List.not_mem_nil, or_false] at h1
    rcases h1 with ⟨rfl, rfl⟩ | ⟨rfl, rfl⟩ | ⟨rfl, rfl⟩ | ⟨rfl, rfl⟩ | ⟨rfl, rfl⟩ | ⟨rfl, rfl⟩ <;> rfl
  | last => exact ⟨[], by simp, .inr (.inl ⟨rfl, rfl⟩)⟩

theorem stringLoop_spells : ∀ (n : Nat) (b s temp : List UInt8), Spells b s → b.length < n → temp.length ≤ 4095 →
    stringLoop n b temp = if temp.length + s.length ≤ 4095 then .ok (temp ++ s) else .err
  | 0, _, _, _, _, h, _ => by omega
  | n + 1, b, s, temp, hsp, hn, ht => by
    obtain ⟨p, hp, hcase⟩ := hsp.split
    have hpp : ∀ c ∈ p, (c != 92) = true := by
      intro c hc; simp [hp c hc]
    rcases hcase with ⟨e1, e2⟩ | ⟨e1, e2⟩ | ⟨e, c, b', s', hu, hs', rfl, rfl⟩
    · rw [e1, e2]
      have h1 := Noja.Asm.takeWhile_run _ p [] hpp (by simp)
      have h2 := Noja.Asm.dropWhile_run _ p [] hpp (by simp)
      rw [List.append_nil] at h1 h2
      unfold stringLoop
      rw [h1, h2]
      dsimp only
      by_cases hc : temp.length + p.length ≥ 4096
      · rw [if_pos hc, if_neg (by omega)]
      · rw [if_neg hc, if_pos (by omega)]
    · rw [e1, e2]
      unfold stringLoop
      rw [Noja.Asm.takeWhile_run _ p [92] hpp (by simp), Noja.Asm.dropWhile_run _ p [92] hpp (by simp)]
      dsimp only
      simp only [List.length_append, List.length_cons, List.length_nil] at hn ⊢
      by_cases hc : temp.length + p.length ≥ 4096
      · rw [if_pos hc, if_neg (by omega)]
      · rw [if_neg hc]
        by_cases hc2 : temp.length + p.length + 1 ≥ 4096
        · rw [if_pos hc2, if_neg (by omega)]
        · rw [if_neg hc2, if_pos (by omega), List.append_assoc]
    · unfold stringLoop
      rw [Noja.Asm.takeWhile_run _ p (92 :: e :: b') hpp (by simp), Noja.Asm.dropWhile_run _ p (92 :: e :: b') hpp (by simp)]
      dsimp only
      simp only [List.length_append, List.length_cons] at hn ⊢
      by_cases hc : temp.length + p.length ≥ 4096
      · rw [if_pos hc, if_neg (by omega)]
      · rw [if_neg hc]
        by_cases hc2 : temp.length + p.length + 1 ≥ 4096
        · rw [if_pos hc2, if_neg (by omega)]
        · rw [if_neg hc2, hu]
          dsimp only
          have hl : (temp ++ p ++ [c]).length = temp.length + p.length + 1 := by simp; omega
          have hi := stringLoop_spells n b' s' (temp ++ p ++ [c]) hs' (by omega) (by omega)
          have ha : temp ++ p ++ [c] ++ s' = temp ++ (p ++ c :: s') := by simp
          rw [hl, ha] at hi
          have hsum : temp.length + (p.length + (s'.length + 1)) = temp.length + p.length + 1 + s'.length := by omega
          rw [hsum, ← hi]
          cases hs' with
          | nil =>
            rw [hi, if_pos (show temp.length + p.length + 1 + ([] : List UInt8).length ≤ 4095 by simp only [List.length_nil]; omega)]
            show Exec.ok (temp ++ p ++ [c]) = _
            simp
          | plain _ _ => rfl
          | esc _ _ => rfl
          | last => rfl

/-! ## Eventually -/

section
variable {α β : Type} {x : Exec α}

theorem Ev.of_eq {f g : Nat → Exec α} (h : ∀ n, f n = g n) (hg : Ev g x) : Ev f x := by
  obtain ⟨n, hg⟩ := hg
  exact ⟨n, fun m hm => by rw [h, hg m hm]⟩

theorem Ev.cur {t : Token} {r : List Token} {f : Nat → Token → Exec α} (h : Ev (fun n => f n t) x) :
    Ev (fun n => Parse.cur (t :: r) >>= fun t => f n t) x := h

theorem Ev.next {t : Token} {r : List Token} (hr : r ≠ []) {f : Nat → List Token → Exec α} (h : Ev (fun n => f n r) x) :
    Ev (fun n => Parse.next (t :: r) >>= fun ts => f n ts) x := by
  cases r with
  | nil => exact absurd rfl hr
  | cons u r => exact h

theorem Ev.yes {c : Prop} [Decidable c] (hc : c) {f g : Nat → Exec α} (h : Ev f x) : Ev (fun n => if c then f n else g n) x :=
  Ev.of_eq (fun n => if_pos hc) h

theorem Ev.no {c : Prop} [Decidable c] (hc : ¬ c) {f g : Nat → Exec α} (h : Ev g x) : Ev (fun n => if c then f n else g n) x :=
  Ev.of_eq (fun n => if_neg hc) h

/-- The two parts of what ends well. -/
theorem Ev.parts {f : Nat → Exec β} (hf : ∀ n, Le (f n) (f (n + 1))) {g : β → Nat → Exec α} {y : α}
    (h : Ev (fun n => f n >>= fun q => g q n) (.ok y)) : ∃ q, Ev f (.ok q) ∧ Ev (g q) (.ok y) := by
  obtain ⟨n, h⟩ := h
  cases hq : f n with
  | ok q =>
    have h1 := Ev.of_le hf hq (by simp)
    refine ⟨q, h1, ?_⟩
    obtain ⟨m, h1⟩ := h1
    refine ⟨n + m, fun k hk => ?_⟩
    have h2 := h k (by omega)
    dsimp only at h2
    rw [h1 k (by omega)] at h2
    exact h2
  | err => have := h n (by omega); dsimp only at this; rw [hq] at this; cases this
  | ub => have := h n (by omega); dsimp only at this; rw [hq] at this; cases this
  | diverge => have := h n (by omega); dsimp only at this; rw [hq] at this; cases this
end

section
variable {flt : List UInt8 → Option (BitVec 64)}

theorem Ev.expr {a b ts x} (h : Ev (fun n => exprBody (recs flt n) a b ts) x) : Ev (fun n => (recs flt n).expr a b ts) x :=
  Ev.succ (fun _ => rfl) h
theorem Ev.expr2 {a b l m ts x} (h : Ev (fun n => expr2Body (recs flt n) a b l m ts) x) :
    Ev (fun n => (recs flt n).expr2 a b l m ts) x := Ev.succ (fun _ => rfl) h
theorem Ev.inner {a b l m ts x} (h : Ev (fun n => innerBody (recs flt n) a b l m ts) x) :
    Ev (fun n => (recs flt n).inner a b l m ts) x := Ev.succ (fun _ => rfl) h
theorem Ev.pre {ts x} (h : Ev (fun n => preBody flt (recs flt n) ts) x) : Ev (fun n => (recs flt n).pre ts) x :=
  Ev.succ (fun _ => rfl) h
theorem Ev.post {e ts x} (h : Ev (fun n => postBody (recs flt n) e ts) x) : Ev (fun n => (recs flt n).post e ts) x :=
  Ev.succ (fun _ => rfl) h
theorem Ev.items {ts x} (h : Ev (fun n => itemsBody (recs flt n) ts) x) : Ev (fun n => (recs flt n).items ts) x :=
  Ev.succ (fun _ => rfl) h
theorem Ev.args {e ts x} (h : Ev (fun n => argsBody (recs flt n) e ts) x) : Ev (fun n => (recs flt n).args e ts) x :=
  Ev.succ (fun _ => rfl) h
theorem Ev.pairs {ts x} (h : Ev (fun n => pairsBody (recs flt n) ts) x) : Ev (fun n => (recs flt n).pairs ts) x :=
  Ev.succ (fun _ => rfl) h
theorem Ev.params {e ts x} (h : Ev (fun n => paramsBody (recs flt n) e ts) x) : Ev (fun n => (recs flt n).params e ts) x :=
  Ev.succ (fun _ => rfl) h
theorem Ev.stmt {ts x} (h : Ev (fun n => stmtBody (recs flt n) ts) x) : Ev (fun n => (recs flt n).stmt ts) x :=
  Ev.succ (fun _ => rfl) h
theorem Ev.stmts {k ts x} (h : Ev (fun n => stmtsBody (recs flt n) k ts) x) : Ev (fun n => (recs flt n).stmts k ts) x :=
  Ev.succ (fun _ => rfl) h

/-! ## What may follow, and what comes first -/

/-- Tokens that `parse_postfix_expression` takes. -/
def postKind (k : Kind) : Bool := k == .ch 46 || k == .arw || k == .ch 91 || k == .ch 40

/-- Tokens that `parse_expression_2` takes. -/
def absorbs (tu as : Bool) (k : Kind) : Bool := isBinop k && !((k == .ch 44 && !tu) || (k == .ch 61 && !as))

/-- The first token is of some kind. -/
def First (p : Kind → Bool) (ts : List Token) : Prop := ∃ t u, ts = t :: u ∧ p t.kind = true

theorem First.ne {p : Kind → Bool} {ts : List Token} (h : First p ts) : ts ≠ [] := by
  obtain ⟨t, u, rfl, _⟩ := h; simp

/-- What may follow a postfix expression that is complete. -/
def NoPost (r : List Token) : Prop := First (fun k => !postKind k) r

/-- What may follow operators of level `m`. -/
def StopM (tu : Bool) (m : Int) (r : List Token) : Prop :=
  First (fun k => !postKind k && (!isBinop k || (k == .ch 44 && !tu) || decide (prec k ≤ m))) r

/-- What may follow an expression. -/
def StopA (tu as : Bool) (r : List Token) : Prop := First (fun k => !postKind k && !absorbs tu as k) r

theorem StopM.noPost {tu m r} (h : StopM tu m r) : NoPost r := by
  obtain ⟨t, u, rfl, h⟩ := h
  simp only [Bool.and_eq_true] at h
  exact ⟨t, u, rfl, h.1⟩

/-- The first tokens of primary expressions, of expressions and of statements. -/
def primFirst : Kind → Bool
  | .ch c => c == 91 || c == 123 || c == 40
  | .int | .float | .string | .kwNone | .kwTrue | .kwFalse | .ident => true
  | _ => false

def exprFirst (k : Kind) : Bool := primFirst k || (unOp k).isSome

def stmtFirst (k : Kind) : Bool :=
  exprFirst k || k == .kwIf || k == .kwBreak || k == .kwReturn || k == .kwFun || k == .kwWhile || k == .kwDo

theorem First.mono {p q : Kind → Bool} {ts : List Token} (h : First p ts) (hpq : ∀ k, p k = true → q k = true) : First q ts := by
  obtain ⟨t, u, rfl, h⟩ := h
  exact ⟨t, u, rfl, hpq _ h⟩

theorem First.not {p : Kind → Bool} {t : Token} {u : List Token} {k : Kind} (h : First p (t :: u)) (hk : p k = false) : t.kind ≠ k := by
  obtain ⟨t', u', e, h⟩ := h
  cases e
  intro e
  rw [e, hk] at h
  cases h

theorem first_of {p : Kind → Bool} {t : Token} {u : List Token} {k : Kind} (h : t.kind = k) (hk : p k = true) : First p (t :: u) :=
  ⟨t, u, rfl, by rw [h]; exact hk⟩

theorem unOp_some {k : Kind} (h : (unOp k).isSome = true) : k = .ch 43 ∨ k = .ch 45 ∨ k = .ch 63 ∨ k = .kwNot := by
  unfold unOp at h
  split at h
  · exact .inl rfl
  · exact .inr (.inl rfl)
  · exact .inr (.inr (.inl rfl))
  · exact .inr (.inr (.inr rfl))
  · cases h

theorem exprFirst_start {k : Kind} (h : exprFirst k = true) (hk : k ≠ .ch 123) : exprStart k = true := by
  unfold exprFirst at h
  rcases Bool.or_eq_true _ _ ▸ h with h | h
  · cases k <;> first | rfl | exact absurd h (by decide) | skip
    rename_i c
    simp only [primFirst, exprStart, Bool.or_eq_true, beq_iff_eq] at h ⊢
    rcases h with (h | h) | h
    · simp [h]
    · subst h; exact absurd rfl hk
    · simp [h]
  · rcases unOp_some h with rfl | rfl | rfl | rfl <;> rfl

theorem prim_unOp {k : Kind} (h : primFirst k = true) : unOp k = none := by
  cases hu : unOp k with
  | none => rfl
  | some op =>
    rcases unOp_some (k := k) (by rw [hu]; rfl) with rfl | rfl | rfl | rfl <;> exact absurd h (by decide)

/-! ## The loops -/

theorem post_stop {e : RExpr} {r : List Token} (h : NoPost r) : Ev (fun n => (recs flt n).post e r) (.ok (e, r)) := by
  obtain ⟨t, u, rfl, h⟩ := h
  refine Ev.post (Ev.of_eq (fun n => ?_) (Ev.const _))
  unfold postBody
  show (match t.kind with | .ch 46 => _ | .arw => _ | .ch 91 => _ | .ch 40 => _ | _ => _) = _
  split
  · rename_i hk; rw [hk] at h; cases h
  · rename_i hk; rw [hk] at h; cases h
  · rename_i hk; rw [hk] at h; cases h
  · rename_i hk; rw [hk] at h; cases h
  · rfl

theorem expr2_stop {tu as : Bool} {l : RExpr} {m : Int} {t : Token} {u : List Token}
    (h : absorbs tu as t.kind = true → prec t.kind < m) :
    Ev (fun n => (recs flt n).expr2 tu as l m (t :: u)) (.ok (l, t :: u)) := by
  refine Ev.expr2 ?_
  unfold expr2Body
  refine Ev.cur ?_
  by_cases h1 : (isBinop t.kind && decide (prec t.kind ≥ m)) = true
  · refine Ev.yes h1 ?_
    by_cases h2 : ((t.kind == .ch 44 && !tu) || (t.kind == .ch 61 && !as)) = true
    · exact Ev.yes h2 (Ev.const _)
    · exfalso
      simp only [Bool.and_eq_true, decide_eq_true_eq] at h1
      have h3 : ((t.kind == .ch 44 && !tu) || (t.kind == .ch 61 && !as)) = false := by simpa using h2
      have := h (by unfold absorbs; rw [h1.1, h3]; rfl)
      omega
  · exact Ev.no h1 (Ev.const _)

theorem prec_bound {k : Kind} (h : isBinop k = true) : 0 ≤ prec k ∧ prec k ≤ 7 := by
  unfold isBinop at h
  split at h
  · simp only [Bool.or_eq_true, beq_iff_eq] at h
    rcases h with ((((((((h | h) | h) | h) | h) | h) | h) | h) | h) | h <;> subst h <;> decide
  all_goals first | decide | cases h

/-- One operator. -/
theorem expr2_step {tu as : Bool} {a b : RExpr} {m p : Int} {f} {t : Token} {us r : List Token} {x}
    (hi : Infix t.kind p f) (htu : t.kind = .ch 44 → tu = true) (hm : m ≤ p) (hus : us ≠ [])
    (hb : Ev (fun n => (recs flt n).pre us >>= fun q => (recs flt n).inner tu as t.kind q.1 q.2) (.ok (b, r)))
    (hx : Ev (fun n => (recs flt n).expr2 tu as (f a b (upto a.pos b.pos)) m r) x) :
    Ev (fun n => (recs flt n).expr2 tu as a m (t :: us)) x := by
  obtain ⟨h1, h2, h3, h4, h5, h6, h7⟩ := hi.facts
  refine Ev.expr2 ?_
  unfold expr2Body
  refine Ev.cur (Ev.yes (by rw [h1, h2]; simpa using hm) (Ev.no ?_ ?_))
  · rw [h6]
    simp only [Bool.and_eq_true, Bool.or_eq_true, beq_iff_eq, Bool.not_eq_true', Bool.false_eq_true, false_and, or_false, not_and]
    intro hk
    rw [htu hk]
    decide
  · refine Ev.next hus ?_
    obtain ⟨q, hq1, hq2⟩ := Ev.parts (f := fun n => (recs flt n).pre us) (fun n => (recs_le flt n).pre us) hb
    refine Ev.bind hq1 (Ev.bind hq2 ?_)
    refine Ev.of_eq (fun n => ?_) hx
    show (mkBin t.kind a b >>= fun e => (recs flt n).expr2 tu as e m r) = _
    rw [h7]
    rfl

/-- The same for an assignment. -/
theorem expr2_assign {tu : Bool} {a b : RExpr} {m : Int} {t : Token} {us r : List Token} {x}
    (ht : t.kind = .ch 61) (hm : m ≤ 0) (hus : us ≠ [])
    (hb : Ev (fun n => (recs flt n).pre us >>= fun q => (recs flt n).inner tu true (.ch 61) q.1 q.2) (.ok (b, r)))
    (hx : Ev (fun n => (recs flt n).expr2 tu true (.ass a b (upto a.pos b.pos)) m r) x) :
    Ev (fun n => (recs flt n).expr2 tu true a m (t :: us)) x := by
  refine Ev.expr2 ?_
  unfold expr2Body
  refine Ev.cur ?_
  dsimp only
  rw [ht]
  refine Ev.yes (by simpa [isBinop, prec] using hm) (Ev.no (by simp) ?_)
  refine Ev.next hus ?_
  obtain ⟨q, hq1, hq2⟩ := Ev.parts (f := fun n => (recs flt n).pre us) (fun n => (recs_le flt n).pre us) hb
  exact Ev.bind hq1 (Ev.bind hq2 (Ev.of_eq (fun n => rfl) hx))

/-- An `expr2` that ends well is at a token. -/
theorem expr2_cons {tu as : Bool} {l : RExpr} {m : Int} {ts : List Token} {y}
    (h : Ev (fun n => (recs flt n).expr2 tu as l m ts) (.ok y)) : ∃ t u, ts = t :: u := by
  cases ts with
  | cons t u => exact ⟨t, u, rfl⟩
  | nil =>
    obtain ⟨n, h⟩ := h
    have := h (n + 1) (by omega)
    cases this

/-- What `expr2` does at a token that it does not take. -/
theorem expr2_stop_eq {tu as : Bool} {l : RExpr} {m : Int} {t : Token} {u : List Token} {y}
    (h : Ev (fun n => (recs flt n).expr2 tu as l m (t :: u)) (.ok y)) (hs : absorbs tu as t.kind = true → prec t.kind < m) :
    y = (l, t :: u) := by
  have := Ev.unique h (expr2_stop (flt := flt) (l := l) (u := u) hs)
  cases this
  rfl

/-- The right operand of an operator of level `p`. -/
theorem inner_ops {tu as : Bool} {k : Kind} {p : Int} {f} {b : RExpr} {us r : List Token} (hi : Infix k p f)
    (hs : StopM tu p r)
    (h : Ev (fun n => (recs flt n).pre us >>= fun q => (recs flt n).expr2 tu as q.1 (p + 1) q.2) (.ok (b, r))) :
    Ev (fun n => (recs flt n).pre us >>= fun q => (recs flt n).inner tu as k q.1 q.2) (.ok (b, r)) := by
  obtain ⟨h1, h2, h3, h4, h5, h6, h7⟩ := hi.facts
  obtain ⟨q, hq1, hq2⟩ := Ev.parts (f := fun n => (recs flt n).pre us) (fun n => (recs_le flt n).pre us) h
  obtain ⟨l, ts⟩ := q
  dsimp only at hq2
  refine Ev.bind hq1 ?_
  obtain ⟨t, u, rfl⟩ := expr2_cons hq2
  obtain ⟨t', u', rfl, hr⟩ := hs
  simp only [Bool.and_eq_true, Bool.or_eq_true, Bool.not_eq_true', beq_iff_eq, decide_eq_true_eq] at hr
  -- an operator of a lower level is left alone
  have low : ∀ (l : RExpr) (t : Token) (u : List Token), ¬ (isBinop t.kind = true ∧ p < prec t.kind) →
      Ev (fun n => (recs flt n).inner tu as k l (t :: u)) (.ok (l, t :: u)) := by
    intro l t u hn
    refine Ev.inner ?_
    unfold innerBody
    refine Ev.cur (Ev.no ?_ (Ev.const _))
    simp only [Bool.and_eq_true, Bool.or_eq_true, beq_iff_eq, decide_eq_true_eq, h2, not_and]
    rintro hb (hp | ⟨hp, hr⟩)
    · exact hn ⟨hb, hp⟩
    · have : t.kind = .ch 61 := by simpa [isRight] using hr
      rw [this] at hp
      have : prec (.ch 61) = 0 := rfl
      omega
  by_cases hc : isBinop t.kind = true ∧ p < prec t.kind
  · refine Ev.inner ?_
    unfold innerBody
    refine Ev.cur (Ev.yes ?_ ?_)
    · simp only [Bool.and_eq_true, Bool.or_eq_true, beq_iff_eq, decide_eq_true_eq, h2]
      exact ⟨hc.1, .inl hc.2⟩
    · rw [h2, if_pos hc.2]
      refine Ev.bind hq2 (Ev.cur ?_)
      by_cases hcomma : (t'.kind == .ch 44 && !tu) = true
      · exact Ev.yes hcomma (Ev.const _)
      · refine Ev.no hcomma (low b t' u' ?_)
        rintro ⟨hb, hp⟩
        simp only [Bool.and_eq_true, beq_iff_eq, Bool.not_eq_true'] at hcomma
        rcases hr.2 with (hr | hr) | hr
        · rw [hr] at hb; cases hb
        · exact hcomma hr
        · omega
  · have := expr2_stop_eq hq2 (by
      intro ha
      unfold absorbs at ha
      simp only [Bool.and_eq_true] at ha
      by_cases hp : p < prec t.kind
      · exact absurd ⟨ha.1, hp⟩ hc
      · omega)
    cases this
    exact low _ t u hc

/-- `inner`, for an assignment, at a token that is no operator or a comma that does not belong to the expression. -/
theorem inner_end {tu : Bool} {l : RExpr} {t : Token} {u : List Token} (h : isBinop t.kind = false) :
    Ev (fun n => (recs flt n).inner tu true (.ch 61) l (t :: u)) (.ok (l, t :: u)) := by
  refine Ev.inner ?_
  unfold innerBody
  exact Ev.cur (Ev.no (by rw [h]; simp) (Ev.const _))

/-- What does not continue an expression in which assignments are allowed. -/
theorem unabsorbed {tu : Bool} {k : Kind} (h : absorbs tu true k = false) : isBinop k = false ∨ (k = .ch 44 ∧ tu = false) := by
  unfold absorbs at h
  by_cases hb : isBinop k = true
  · rw [hb] at h
    simp only [Bool.true_and, Bool.not_eq_false', Bool.or_eq_true, Bool.and_eq_true, beq_iff_eq, Bool.not_eq_true',
      Bool.not_true, Bool.false_eq_true, and_false, or_false] at h
    exact .inr h
  · exact .inl (by simpa using hb)

/-- After `inner` has found `b`, with nothing following that belongs to it. -/
theorem inner_last {tu : Bool} {b : RExpr} {r : List Token} (hs : StopA tu true r) :
    Ev (fun n => Parse.cur r >>= fun t => if (t.kind == .ch 44 && !tu) = true then .ok (b, r) else
      (recs flt n).inner tu true (.ch 61) b r) (.ok (b, r)) := by
  obtain ⟨t, u, rfl, h⟩ := hs
  simp only [Bool.and_eq_true, Bool.not_eq_true'] at h
  refine Ev.cur ?_
  by_cases hc : (t.kind == .ch 44 && !tu) = true
  · exact Ev.yes hc (Ev.const _)
  · refine Ev.no hc (inner_end ?_)
    rcases unabsorbed h.2 with h | h
    · exact h
    · simp [h] at hc

/-- `inner`, for an assignment, when the operand has no assignment. -/
theorem inner_asn_ops {tu : Bool} {b : RExpr} {us r : List Token} (hs : StopA tu true r)
    (h : Ev (fun n => (recs flt n).pre us >>= fun q => (recs flt n).expr2 tu true q.1 1 q.2) (.ok (b, r))) :
    Ev (fun n => (recs flt n).pre us >>= fun q => (recs flt n).inner tu true (.ch 61) q.1 q.2) (.ok (b, r)) := by
  obtain ⟨q, hq1, hq2⟩ := Ev.parts (f := fun n => (recs flt n).pre us) (fun n => (recs_le flt n).pre us) h
  obtain ⟨l, ts⟩ := q
  dsimp only at hq2
  refine Ev.bind hq1 ?_
  obtain ⟨t, u, rfl⟩ := expr2_cons hq2
  by_cases hb : isBinop t.kind = true
  · refine Ev.inner ?_
    unfold innerBody
    by_cases he : t.kind = .ch 61
    · -- nothing precedes the assignment, which would then have to be taken
      have := expr2_stop_eq hq2 (by rw [he]; intro _; decide)
      cases this
      obtain ⟨t', u', e, h⟩ := hs
      cases e
      rw [he] at h
      exact absurd h (by cases tu <;> decide)
    · have hp : 0 < prec t.kind := by
        have := (prec_bound hb).1
        have hz := prec_zero hb
        by_cases h0 : prec t.kind = 0
        · exact absurd (hz h0) he
        · omega
      refine Ev.cur (Ev.yes ?_ ?_)
      · simp only [Bool.and_eq_true, Bool.or_eq_true, decide_eq_true_eq]
        exact ⟨hb, .inl hp⟩
      · rw [if_pos (show prec (.ch 61) < prec t.kind from hp)]
        exact Ev.bind hq2 (inner_last hs)
  · have hb : isBinop t.kind = false := by simpa using hb
    have := expr2_stop_eq hq2 (by intro ha; unfold absorbs at ha; rw [hb] at ha; cases ha)
    cases this
    exact inner_end hb

/-- `inner`, for an assignment, when the operand is an assignment. -/
theorem inner_asn_assign {tu : Bool} {a b : RExpr} {us vs r : List Token} {t' : Token} (ht : t'.kind = .ch 61) (hvs : vs ≠ [])
    (hs : StopA tu true r)
    (h : Ev (fun n => (recs flt n).pre us >>= fun q => (recs flt n).expr2 tu true q.1 1 q.2) (.ok (a, t' :: vs)))
    (hb : Ev (fun n => (recs flt n).pre vs >>= fun q => (recs flt n).inner tu true (.ch 61) q.1 q.2) (.ok (b, r))) :
    Ev (fun n => (recs flt n).pre us >>= fun q => (recs flt n).inner tu true (.ch 61) q.1 q.2)
      (.ok (.ass a b (upto a.pos b.pos), r)) := by
  obtain ⟨q, hq1, hq2⟩ := Ev.parts (f := fun n => (recs flt n).pre us) (fun n => (recs_le flt n).pre us) h
  obtain ⟨l, ts⟩ := q
  dsimp only at hq2
  refine Ev.bind hq1 ?_
  obtain ⟨t, u, rfl⟩ := expr2_cons hq2
  -- at the `=`
  have key : Ev (fun n => (recs flt n).inner tu true (.ch 61) a (t' :: vs)) (.ok (.ass a b (upto a.pos b.pos), r)) := by
    refine Ev.inner ?_
    unfold innerBody
    refine Ev.cur (Ev.yes ?_ ?_)
    · rw [ht]; decide
    · rw [ht]
      refine Ev.bind (a := (.ass a b (upto a.pos b.pos), r)) ?_ (inner_last hs)
      refine expr2_assign ht (by decide) hvs hb ?_
      obtain ⟨t2, u2, rfl, h2⟩ := hs
      simp only [Bool.and_eq_true, Bool.not_eq_true'] at h2
      exact expr2_stop (by rw [h2.2]; intro h; cases h)
  by_cases hb : isBinop t.kind = true
  · by_cases he : t.kind = .ch 61
    · have := expr2_stop_eq hq2 (by rw [he]; intro _; decide)
      cases this
      exact key
    · have hp : 0 < prec t.kind := by
        have := (prec_bound hb).1
        have hz := prec_zero hb
        by_cases h0 : prec t.kind = 0
        · exact absurd (hz h0) he
        · omega
      refine Ev.inner ?_
      unfold innerBody
      refine Ev.cur (Ev.yes ?_ ?_)
      · simp only [Bool.and_eq_true, Bool.or_eq_true, decide_eq_true_eq]
        exact ⟨hb, .inl hp⟩
      · rw [if_pos (show prec (.ch 61) < prec t.kind from hp)]
        refine Ev.bind hq2 (Ev.cur (Ev.no ?_ key))
        rw [ht]; simp
  · have hb : isBinop t.kind = false := by simpa using hb
    have := expr2_stop_eq hq2 (by intro ha; unfold absorbs at ha; rw [hb] at ha; cases ha)
    cases this
    rw [ht] at hb
    cases hb

/-! ## The functions of the parser on what the grammar derives -/

variable (flt)

/-- What the parser makes of each part of a program, if what follows does not belong to it. -/
def Meets : Nt → List Token → List Token → Prop
  | .prim e, ts, r => First primFirst ts ∧ (r ≠ [] → Ev (fun n => parsePrimary flt (recs flt n) ts) (.ok (e, r)))
  | .post e, ts, r => First primFirst ts ∧ (r ≠ [] → ∀ x, Ev (fun n => (recs flt n).post e r) x →
      Ev (fun n => parsePrimary flt (recs flt n) ts >>= fun q => (recs flt n).post q.1 q.2) x)
  | .pre e, ts, r => First exprFirst ts ∧ (NoPost r → Ev (fun n => (recs flt n).pre ts) (.ok (e, r)))
  | .ops tu m e, ts, r => First exprFirst ts ∧ (StopM tu m r → ∀ (as : Bool) (m' : Int), m' ≤ m → ∀ x,
      Ev (fun n => (recs flt n).expr2 tu as e m' r) x →
      Ev (fun n => (recs flt n).pre ts >>= fun q => (recs flt n).expr2 tu as q.1 m' q.2) x)
  | .asn tu as e, ts, r => First exprFirst ts ∧ (StopA tu as r → Ev (fun n => (recs flt n).expr tu as ts) (.ok (e, r)) ∧
      (as = true → Ev (fun n => (recs flt n).pre ts >>= fun q => (recs flt n).inner tu true (.ch 61) q.1 q.2) (.ok (e, r))))
  | .items es, ts, r => First exprFirst ts ∧ (First (· == .ch 93) r → Ev (fun n => (recs flt n).items ts) (.ok (es, r)))
  | .list es p, ts, r => First (· == .ch 91) ts ∧ (r ≠ [] → Ev (fun n => parseList (recs flt n) ts) (.ok (es, p, r)))
  | .args acc es, ts, r => First exprFirst ts ∧ (First (· == .ch 41) r → Ev (fun n => (recs flt n).args acc ts) (.ok (es, r)))
  | .key e, ts, r => First exprFirst ts ∧ (First (· == .ch 58) r → Ev (fun n => parseKey (recs flt n) ts) (.ok (e, r)))
  | .pairs ps, ts, r => First (fun k => exprFirst k || k == .kwFun) ts ∧
      (First (· == .ch 125) r → Ev (fun n => (recs flt n).pairs ts) (.ok (ps, r)))
  | .opt k as o, ts, r => (ts = r ∨ First (· == k) ts) ∧
      (StopA false as r → Ev (fun n => optional k ((recs flt n).expr false as) ts) (.ok (o, r)))
  | .params acc ps, ts, r => First (· == .ident) ts ∧
      (First (· == .ch 41) r → Ev (fun n => (recs flt n).params acc ts) (.ok (ps, r)))
  | .func d, ts, r => First (· == .kwFun) ts ∧
      (r ≠ [] → Ev (fun n => parseFunc (recs flt n) ts) (.ok (⟨d.name, d.namePos, d.f, d.pos⟩, r)))
  | .stmt s, ts, r => First stmtFirst ts ∧ (r ≠ [] → Ev (fun n => (recs flt n).stmt ts) (.ok (s, r)))
  | .stmts k ss, ts, r => k = .done ∨ k = .ch 125 → First (· == k) r → ts ≠ [] ∧ Ev (fun n => (recs flt n).stmts k ts) (.ok (ss, r))

variable {flt}

/-- The token that ends an expression does not belong to it. -/
theorem stopA_of {tu as : Bool} {t : Token} {u : List Token} {k : Kind} (h : t.kind = k)
    (hk : (!postKind k && !absorbs tu as k) = true) : StopA tu as (t :: u) := first_of h hk

theorem parsePrimary_at {t : Token} {r : List Token} {R : Rec} {k : Kind} (h : t.kind = k) :
    parsePrimary flt R (t :: r) = (match (generalizing := false) k with
      | .ch 91 => parseList R (t :: r) >>= fun q => .ok (.list q.1 q.2.1, q.2.2)
      | .ch 123 => parseMap R (t :: r)
      | .ch 40 => next (t :: r) >>= fun ts => R.expr true true ts >>= fun q => cur q.2 >>= fun c =>
        if c.kind ≠ .ch 41 then .err else next q.2 >>= fun ts => .ok (q.1, ts)
      | .int => parseInt t (t :: r)
      | .float => parseFloat flt t (t :: r)
      | .string => parseString t (t :: r)
      | .kwNone => next (t :: r) >>= fun ts => cur ts >>= fun t => .ok (.none t.pos, ts)
      | .kwTrue => next (t :: r) >>= fun ts => cur ts >>= fun t => .ok (.tru t.pos, ts)
      | .kwFalse => next (t :: r) >>= fun ts => cur ts >>= fun t => .ok (.fls t.pos, ts)
      | .ident => next (t :: r) >>= fun ts => .ok (.ident t.text t.pos, ts)
      | _ => .err) := by
  obtain ⟨k', o, w⟩ := t
  dsimp only at h
  subst h
  unfold parsePrimary
  show (match (generalizing := false) k' with
      | .ch 91 => _ | .ch 123 => _ | .ch 40 => _ | .int => _ | .float => _ | .string => _ | .kwNone => _ | .kwTrue => _
      | .kwFalse => _ | .ident => _ | _ => _ : Exec (RExpr × List Token)) = _
  split <;> rfl

theorem postBody_at {t : Token} {r : List Token} {R : Rec} {e : RExpr} {k : Kind} (h : t.kind = k) :
    postBody R e (t :: r) = (match (generalizing := false) k with
      | .ch 46 => parseDot false e (t :: r) >>= fun q => R.post q.1 q.2
      | .arw => parseDot true e (t :: r) >>= fun q => R.post q.1 q.2
      | .ch 91 => parseIndex R e (t :: r) >>= fun q => R.post q.1 q.2
      | .ch 40 => parseCall R e (t :: r) >>= fun q => R.post q.1 q.2
      | _ => .ok (e, t :: r)) := by
  obtain ⟨k', o, w⟩ := t
  dsimp only at h
  subst h
  unfold postBody
  show (match (generalizing := false) k' with | .ch 46 => _ | .arw => _ | .ch 91 => _ | .ch 40 => _ | _ => _ : Exec (RExpr × List Token)) = _
  split <;> rfl

theorem stmtBody_at {t : Token} {r : List Token} {R : Rec} {k : Kind} (h : t.kind = k) (hx : exprStart k = false) :
    stmtBody R (t :: r) = (match (generalizing := false) k with
      | .kwIf => parseIf R (t :: r)
      | .ch 123 => parseBlock R (t :: r)
      | .kwBreak => parseBreak (t :: r)
      | .kwReturn => parseReturn R (t :: r)
      | .kwFun => parseFunc R (t :: r) >>= fun q => .ok (.func q.1.name q.1.f q.1.pos q.1.pos, q.2)
      | .kwWhile => parseWhile R (t :: r)
      | .kwDo => parseDo R (t :: r)
      | _ => .err) := by
  obtain ⟨k', o, w⟩ := t
  dsimp only at h
  subst h
  unfold stmtBody
  show (if exprStart k' = true then _ else match (generalizing := false) k' with
      | .kwIf => _ | .ch 123 => _ | .kwBreak => _ | .kwReturn => _ | .kwFun => _ | .kwWhile => _ | .kwDo => _
      | _ => _ : Exec (RStmt × List Token)) = _
  rw [if_neg (by rw [hx]; decide)]

theorem condition_of {k : Kind} {e : RExpr} {ts r : List Token} {c : Token} (hr : r ≠ []) (hc : c.kind = k)
    (h : Ev (fun n => (recs flt n).expr true true ts) (.ok (e, c :: r))) :
    Ev (fun n => condition (recs flt n) k ts) (.ok (e, r)) := by
  unfold condition
  exact Ev.bind h (Ev.cur (Ev.no (by rw [hc]; simp) (Ev.next hr (Ev.const _))))

/-- An expression, from what `parse_expression_2` makes of it. -/
theorem expr_of {tu as : Bool} {e : RExpr} {ts r : List Token}
    (h : Ev (fun n => (recs flt n).pre ts >>= fun q => (recs flt n).expr2 tu as q.1 (-1000000000) q.2) (.ok (e, r))) :
    Ev (fun n => (recs flt n).expr tu as ts) (.ok (e, r)) := by
  refine Ev.expr ?_
  unfold exprBody
  obtain ⟨q, hq1, hq2⟩ := Ev.parts (f := fun n => (recs flt n).pre ts) (fun n => (recs_le flt n).pre ts) h
  obtain ⟨l, us⟩ := q
  refine Ev.bind hq1 ?_
  dsimp only at hq2 ⊢
  obtain ⟨t, u, rfl⟩ := expr2_cons hq2
  refine Ev.cur ?_
  by_cases hd : t.kind = .done
  · have := expr2_stop_eq hq2 (by rw [hd]; intro h; exact absurd h (by simp [absorbs, isBinop]))
    cases this
    exact Ev.yes hd (Ev.const _)
  · exact Ev.no hd hq2

theorem Meets.of {x : Nt} {ts r : List Token} (h : Derives flt x ts r) : Meets flt x ts r := by
  induction h with
  | @int t r hk hl hv =>
    refine ⟨first_of hk rfl, fun hr => Ev.of_eq (fun n => parsePrimary_at hk) ?_⟩
    dsimp only
    unfold parseInt
    have hlen : t.len = (t.text.length : Int) := rfl
    refine Ev.no (by rw [hlen]; omega) ?_
    have : strtoll t.text = some (valueRev t.text.reverse : Int) := by
      have hd : decimal t.text = valueRev t.text.reverse := by rw [← decimal_value, List.reverse_reverse]
      unfold strtoll
      rw [hd, if_pos (by omega)]
    rw [this]
    exact Ev.next hr (Ev.const _)
  | @float t r b hk hl hv =>
    refine ⟨first_of hk rfl, fun hr => Ev.of_eq (fun n => parsePrimary_at hk) ?_⟩
    dsimp only
    unfold parseFloat
    have hlen : t.len = (t.text.length : Int) := rfl
    refine Ev.no (by rw [hlen]; omega) ?_
    rw [hv]
    exact Ev.next hr (Ev.const _)
  | @string t u r s hk hs hl =>
    refine ⟨first_of hk rfl, fun hr => Ev.of_eq (fun n => parsePrimary_at hk) ?_⟩
    dsimp only
    unfold parseString
    rw [stringLoop_spells _ _ s [] hs (by simp; omega) (by simp), if_pos (by simpa using hl)]
    exact Ev.const _
  | @ident t r hk =>
    exact ⟨first_of hk rfl, fun hr => Ev.of_eq (fun n => parsePrimary_at hk) (Ev.next hr (Ev.const _))⟩
  | @none t u r hk => exact ⟨first_of hk rfl, fun hr => Ev.of_eq (fun n => parsePrimary_at hk) (Ev.const _)⟩
  | @tru t u r hk => exact ⟨first_of hk rfl, fun hr => Ev.of_eq (fun n => parsePrimary_at hk) (Ev.const _)⟩
  | @fls t u r hk => exact ⟨first_of hk rfl, fun hr => Ev.of_eq (fun n => parsePrimary_at hk) (Ev.const _)⟩
  | @parens o ts e c r ho h hc ih =>
    refine ⟨first_of ho rfl, fun hr => Ev.of_eq (fun n => parsePrimary_at ho) ?_⟩
    refine Ev.next ih.1.ne (Ev.bind (ih.2 (stopA_of hc rfl)).1 (Ev.cur (Ev.no (by simp [hc]) (Ev.next hr (Ev.const _)))))
  | @prim_list ts es p r h ih =>
    refine ⟨ih.1.mono (by intro k hk; rw [beq_iff_eq] at hk; subst hk; rfl), fun hr => ?_⟩
    obtain ⟨t, u, rfl, hk⟩ := ih.1
    refine Ev.of_eq (fun n => parsePrimary_at (beq_iff_eq.mp hk)) ?_
    exact Ev.bind (ih.2 hr) (Ev.const _)
  | @map0 o c r ho hc =>
    refine ⟨first_of ho rfl, fun hr => Ev.of_eq (fun n => parsePrimary_at ho) ?_⟩
    unfold parseMap
    refine Ev.cur (Ev.next (by simp) (Ev.cur (Ev.no (by rw [hc]; decide) ?_)))
    refine Ev.bind (a := (.nil, c :: r)) (Ev.yes hc (Ev.const _)) (Ev.cur (Ev.next hr (Ev.const _)))
  | @map o ts ps c r ho h hc ih =>
    refine ⟨first_of ho rfl, fun hr => Ev.of_eq (fun n => parsePrimary_at ho) ?_⟩
    unfold parseMap
    obtain ⟨t, u, rfl, ht⟩ := ih.1
    refine Ev.cur (Ev.next (by simp) (Ev.cur (Ev.no (ih.1.not rfl) ?_)))
    refine Ev.bind (a := (ps, c :: r)) (Ev.no (ih.1.not rfl) (ih.2 (first_of hc rfl))) (Ev.cur (Ev.next hr (Ev.const _)))
  | @list0 o c r ho hc =>
    refine ⟨first_of ho rfl, fun hr => ?_⟩
    unfold parseList
    refine Ev.cur (Ev.next (by simp) (Ev.cur ?_))
    exact Ev.bind (a := (.nil, c :: r)) (Ev.yes hc (Ev.const _)) (Ev.cur (Ev.next hr (Ev.const _)))
  | @list o ts es c r ho h hc ih =>
    refine ⟨first_of ho rfl, fun hr => ?_⟩
    unfold parseList
    obtain ⟨t, u, rfl, ht⟩ := ih.1
    refine Ev.cur (Ev.next (by simp) (Ev.cur ?_))
    exact Ev.bind (a := (es, c :: r)) (Ev.no (ih.1.not rfl) (ih.2 (first_of hc rfl))) (Ev.cur (Ev.next hr (Ev.const _)))
  | @items_one ts e r h ih =>
    refine ⟨ih.1, fun hr => Ev.items ?_⟩
    obtain ⟨c, u, rfl, hc⟩ := hr
    have hc := beq_iff_eq.mp hc
    unfold itemsBody
    exact Ev.bind (ih.2 (stopA_of hc rfl)).1 (Ev.cur (Ev.yes hc (Ev.const _)))
  | @items_more ts e c us es r h hc h2 ih ih2 =>
    refine ⟨ih.1, fun hr => Ev.items ?_⟩
    unfold itemsBody
    exact Ev.bind (ih.2 (stopA_of hc rfl)).1 (Ev.cur (Ev.no (by rw [hc]; decide) (Ev.no (by simp [hc])
      (Ev.next ih2.1.ne (Ev.bind (ih2.2 hr) (Ev.const _))))))
  | @key_ident t c r ht hc =>
    refine ⟨first_of ht rfl, fun hr => ?_⟩
    unfold parseKey
    refine Ev.of_eq (fun n => ?_) (Ev.const _)
    show (if (t.kind == .ident && (c.kind == .done || c.kind == .ch 58)) = true then _ else _) = _
    rw [if_pos (by rw [ht, hc]; decide)]
    rfl
  | @key_expr t u ts e r hn h ih =>
    refine ⟨ih.1, fun hr => ?_⟩
    unfold parseKey
    have hs : (t.kind == .ident && (u.kind == .done || u.kind == .ch 58)) = false := by
      by_cases ht : t.kind = .ident
      · have := hn ht
        simp [this]
      · simp [ht]
    refine Ev.of_eq (g := fun n => (recs flt n).expr false true (t :: u :: ts)) (fun n => ?_) ?_
    · show (if (t.kind == .ident && (u.kind == .done || u.kind == .ch 58)) = true then _ else _) = _
      rw [if_neg (by rw [hs]; decide)]
    · obtain ⟨c, v, rfl, hc⟩ := hr
      exact (ih.2 (stopA_of (beq_iff_eq.mp hc) rfl)).1
  | @pair_last ts k c us e r h1 hc h2 ih1 ih2 =>
    refine ⟨ih1.1.mono (by intro k hk; rw [hk]; rfl), fun hr => Ev.pairs ?_⟩
    unfold pairsBody
    obtain ⟨t, u, rfl, ht⟩ := ih1.1
    refine Ev.cur (Ev.no (ih1.1.not rfl) ?_)
    obtain ⟨d, v, rfl, hd⟩ := hr
    have hd := beq_iff_eq.mp hd
    have key : Ev (fun n => keyItem (recs flt n) (t :: u)) (.ok (k, e, d :: v)) := by
      unfold keyItem
      exact Ev.bind (ih1.2 (first_of hc rfl)) (Ev.cur (Ev.no (by simp [hc]) (Ev.next ih2.1.ne
        (Ev.bind (ih2.2 (stopA_of hd rfl)).1 (Ev.const _)))))
    exact Ev.bind key (Ev.cur (Ev.yes hd (Ev.const _)))
  | @pair_more ts k c us e d vs ps r h1 hc h2 hd h3 ih1 ih2 ih3 =>
    refine ⟨ih1.1.mono (by intro k hk; rw [hk]; rfl), fun hr => Ev.pairs ?_⟩
    unfold pairsBody
    obtain ⟨t, u, rfl, ht⟩ := ih1.1
    refine Ev.cur (Ev.no (ih1.1.not rfl) ?_)
    have key : Ev (fun n => keyItem (recs flt n) (t :: u)) (.ok (k, e, d :: vs)) := by
      unfold keyItem
      exact Ev.bind (ih1.2 (first_of hc rfl)) (Ev.cur (Ev.no (by simp [hc]) (Ev.next ih2.1.ne
        (Ev.bind (ih2.2 (stopA_of hd rfl)).1 (Ev.const _)))))
    exact Ev.bind key (Ev.cur (Ev.no (by rw [hd]; decide) (Ev.no (by simp [hd]) (Ev.next ih3.1.ne
      (Ev.bind (ih3.2 hr) (Ev.const _))))))
  | @pair_func_last ts d r h ih =>
    refine ⟨ih.1.mono (by intro k hk; rw [beq_iff_eq] at hk; subst hk; rfl), fun hr => Ev.pairs ?_⟩
    unfold pairsBody
    obtain ⟨t, u, rfl, ht⟩ := ih.1
    obtain ⟨c, v, rfl, hc⟩ := hr
    refine Ev.cur (Ev.yes (beq_iff_eq.mp ht) ?_)
    exact Ev.bind (ih.2 (by simp)) (Ev.cur (Ev.yes (beq_iff_eq.mp hc) (Ev.const _)))
  | @pair_func ts d us ps r h1 h2 ih1 ih2 =>
    refine ⟨ih1.1.mono (by intro k hk; rw [beq_iff_eq] at hk; subst hk; rfl), fun hr => Ev.pairs ?_⟩
    unfold pairsBody
    obtain ⟨t, u, rfl, ht⟩ := ih1.1
    refine Ev.cur (Ev.yes (beq_iff_eq.mp ht) ?_)
    refine Ev.bind (ih1.2 ih2.1.ne) ?_
    obtain ⟨c, v, rfl, hc⟩ := ih2.1
    exact Ev.cur (Ev.no (ih2.1.not rfl) (Ev.bind (ih2.2 hr) (Ev.const _)))
  | @post_prim e ts r h ih => exact ⟨ih.1, fun hr x hx => Ev.bind (ih.2 hr) hx⟩
  | @dot e ts d n r h hd hn ih =>
    refine ⟨ih.1, fun hr x hx => ih.2 (by simp) x (Ev.post (Ev.of_eq (fun n => postBody_at hd) ?_))⟩
    refine Ev.bind (a := (.select e (.str (cString n.text) (place n)) (upto e.pos (place n)), r)) ?_ hx
    unfold parseDot
    refine Ev.next (by simp) (Ev.cur (Ev.no (by simp [hn]) ?_))
    exact Ev.next (f := fun _ ts => .ok (_, ts)) hr (Ev.const _)
  | @arrow e ts d n r h hd hn ih =>
    refine ⟨ih.1, fun hr x hx => ih.2 (by simp) x (Ev.post (Ev.of_eq (fun n => postBody_at hd) ?_))⟩
    dsimp only
    refine Ev.bind (a := (.arw e (.str (cString n.text) (place n)) (upto e.pos (place n)), r)) ?_ hx
    unfold parseDot
    refine Ev.next (by simp) (Ev.cur (Ev.no (by simp [hn]) ?_))
    exact Ev.next (f := fun _ ts => .ok (_, ts)) hr (Ev.const _)
  | @index e ts us i p r h1 h2 ih1 ih2 =>
    refine ⟨ih1.1, fun hr x hx => ih1.2 ih2.1.ne x ?_⟩
    obtain ⟨o, v, rfl, ho⟩ := ih2.1
    refine Ev.post (Ev.of_eq (fun n => postBody_at (beq_iff_eq.mp ho)) ?_)
    refine Ev.bind (a := (.select e i (upto e.pos p), r)) ?_ hx
    unfold parseIndex
    exact Ev.bind (ih2.2 hr) (Ev.const _)
  | @indices e ts us i j es p r h1 h2 ih1 ih2 =>
    refine ⟨ih1.1, fun hr x hx => ih1.2 ih2.1.ne x ?_⟩
    obtain ⟨o, v, rfl, ho⟩ := ih2.1
    refine Ev.post (Ev.of_eq (fun n => postBody_at (beq_iff_eq.mp ho)) ?_)
    refine Ev.bind (a := (.select e (.list (.cons i (.cons j es)) p) (upto e.pos p), r)) ?_ hx
    unfold parseIndex
    exact Ev.bind (ih2.2 hr) (Ev.const _)
  | @call0 f ts o c r cl h ho hc hcl ih =>
    refine ⟨ih.1, fun hr x hx => ih.2 (by simp) x (Ev.post (Ev.of_eq (fun n => postBody_at ho) ?_))⟩
    refine Ev.bind (a := (.call cl (upto (place o) (place c)), r)) ?_ hx
    unfold parseCall
    refine Ev.cur (Ev.next (by simp) (Ev.cur ?_))
    refine Ev.bind (a := (.nil, c :: r)) (Ev.yes hc (Ev.const _)) (Ev.cur (Ev.next hr ?_))
    refine Ev.of_eq (fun n => ?_) (Ev.const _)
    rw [hcl.facts]
    rfl
  | @call f ts o us as c r cl h1 ho h2 hc hcl ih1 ih2 =>
    refine ⟨ih1.1, fun hr x hx => ih1.2 (by simp) x (Ev.post (Ev.of_eq (fun n => postBody_at ho) ?_))⟩
    refine Ev.bind (a := (.call cl (upto (place o) (place c)), r)) ?_ hx
    unfold parseCall
    obtain ⟨t, u, rfl, ht⟩ := ih2.1
    refine Ev.cur (Ev.next (by simp) (Ev.cur ?_))
    refine Ev.bind (a := (as, c :: r)) (Ev.no (ih2.1.not rfl) (ih2.2 (first_of hc rfl))) (Ev.cur (Ev.next hr ?_))
    refine Ev.of_eq (fun n => ?_) (Ev.const _)
    rw [hcl.facts]
    rfl
  | @args_one acc ts e r h ih =>
    refine ⟨ih.1, fun hr => Ev.args ?_⟩
    obtain ⟨c, u, rfl, hc⟩ := hr
    have hc := beq_iff_eq.mp hc
    unfold argsBody
    exact Ev.bind (ih.2 (stopA_of hc rfl)).1 (Ev.cur (Ev.yes hc (Ev.const _)))
  | @args_more acc ts e c us as r h hc h2 ih ih2 =>
    refine ⟨ih.1, fun hr => Ev.args ?_⟩
    unfold argsBody
    exact Ev.bind (ih.2 (stopA_of hc rfl)).1 (Ev.cur (Ev.no (by rw [hc]; decide) (Ev.no (by simp [hc])
      (Ev.next ih2.1.ne (ih2.2 hr)))))
  | @pre_post e ts r h ih =>
    refine ⟨ih.1.mono (by intro k hk; unfold exprFirst; rw [hk]; rfl), fun hr => Ev.pre ?_⟩
    have hx := ih.2 hr.ne _ (post_stop hr)
    obtain ⟨t, u, rfl, ht⟩ := ih.1
    unfold preBody
    refine Ev.cur ?_
    dsimp only
    rw [prim_unOp ht]
    exact hx
  | @un t op e ts r hop h ih =>
    refine ⟨⟨t, ts, rfl, by unfold exprFirst; rw [hop.facts]; simp⟩, fun hr => Ev.pre ?_⟩
    unfold preBody
    refine Ev.cur ?_
    dsimp only
    rw [hop.facts]
    exact Ev.next ih.1.ne (Ev.bind (ih.2 hr) (Ev.const _))
  | @ops_pre tu m e ts r h ih =>
    exact ⟨ih.1, fun hr as m' _ x hx => Ev.bind (ih.2 hr.noPost) hx⟩
  | @left tu m p f a b ts t us r hi hm htu h1 h2 ih1 ih2 =>
    refine ⟨ih1.1, fun hr as m' hm' x hx => ?_⟩
    obtain ⟨f1, f2, f3, f4, f5, f6, f7⟩ := hi.facts
    have hsp : StopM tu p r := by
      obtain ⟨t', u', rfl, h⟩ := hr
      refine ⟨t', u', rfl, ?_⟩
      simp only [Bool.and_eq_true, Bool.or_eq_true, decide_eq_true_eq] at h ⊢
      refine ⟨h.1, ?_⟩
      rcases h.2 with h | h
      · exact .inl h
      · exact .inr (by omega)
    have hsp1 : StopM tu (p + 1) r := by
      obtain ⟨t', u', rfl, h⟩ := hsp
      refine ⟨t', u', rfl, ?_⟩
      simp only [Bool.and_eq_true, Bool.or_eq_true, decide_eq_true_eq] at h ⊢
      refine ⟨h.1, ?_⟩
      rcases h.2 with h | h
      · exact .inl h
      · exact .inr (by omega)
    have hst : StopM tu p (t :: us) := by
      refine ⟨t, us, rfl, ?_⟩
      simp only [Bool.and_eq_true, Bool.or_eq_true, decide_eq_true_eq]
      refine ⟨?_, .inr (by omega)⟩
      generalize t.kind = k at hi
      cases hi <;> rfl
    refine ih1.2 hst as m' (by omega) x (expr2_step hi htu (by omega) ih2.1.ne ?_ hx)
    refine inner_ops hi hsp (ih2.2 hsp1 as (p + 1) (by omega) _ ?_)
    obtain ⟨t', u', rfl, h⟩ := hsp
    refine expr2_stop ?_
    simp only [Bool.and_eq_true, Bool.or_eq_true, decide_eq_true_eq, Bool.not_eq_true'] at h
    intro ha
    unfold absorbs at ha
    simp only [Bool.and_eq_true, Bool.not_eq_true', Bool.or_eq_false_iff] at ha
    rcases h.2 with (h | h) | h
    · rw [h] at ha; exact absurd ha.1 (by decide)
    · have := ha.2.1; rw [h.1, h.2] at this; cases this
    · omega
  | @asn_ops tu as e ts r h ih =>
    refine ⟨ih.1, fun hr => ?_⟩
    have hst : StopM tu 1 r := by
      obtain ⟨t, u, rfl, hs⟩ := hr
      refine ⟨t, u, rfl, ?_⟩
      simp only [Bool.and_eq_true, Bool.not_eq_true', Bool.or_eq_true, decide_eq_true_eq] at hs ⊢
      refine ⟨hs.1, ?_⟩
      have h2 := hs.2
      unfold absorbs at h2
      by_cases hb : isBinop t.kind = true
      · rw [hb] at h2
        simp only [Bool.true_and, Bool.not_eq_false', Bool.or_eq_true, Bool.and_eq_true, beq_iff_eq, Bool.not_eq_true'] at h2
        rcases h2 with h2 | h2
        · exact .inl (.inr (by simp [h2]))
        · exact .inr (by rw [h2.1]; decide)
      · exact .inl (.inl (by simpa using hb))
    have stop : ∀ (as' : Bool) (m : Int), (as' = true → as = true) → Ev (fun n => (recs flt n).expr2 tu as' e m r) (.ok (e, r)) := by
      intro as' m has
      obtain ⟨t, u, rfl, hs⟩ := hr
      refine expr2_stop ?_
      simp only [Bool.and_eq_true, Bool.not_eq_true'] at hs
      intro ha
      have : absorbs tu as t.kind = true := by
        unfold absorbs at ha ⊢
        simp only [Bool.and_eq_true, Bool.not_eq_true', Bool.or_eq_false_iff, Bool.and_eq_false_iff, Bool.not_eq_false'] at ha ⊢
        exact ⟨ha.1, ha.2.1, ha.2.2.imp id has⟩
      rw [this] at hs
      exact absurd hs.2 (by decide)
    refine ⟨expr_of (ih.2 hst as _ (by omega) _ (stop as _ id)), fun has => ?_⟩
    subst has
    exact inner_asn_ops hr (ih.2 hst true 1 (by omega) _ (stop true 1 id))
  | @assign tu a b ts t us r h1 ht h2 ih1 ih2 =>
    refine ⟨ih1.1, fun hr => ?_⟩
    have hst : StopM tu 1 (t :: us) := by
      refine ⟨t, us, rfl, ?_⟩
      rw [ht]; cases tu <;> decide
    have hb := (ih2.2 hr).2 rfl
    refine ⟨expr_of (ih1.2 hst true _ (by omega) _ (expr2_assign ht (by decide) ih2.1.ne hb ?_)), fun _ => ?_⟩
    · obtain ⟨t', u', rfl, h⟩ := hr
      simp only [Bool.and_eq_true, Bool.not_eq_true'] at h
      exact expr2_stop (by rw [h.2]; intro h; cases h)
    · refine inner_asn_assign ht ih2.1.ne hr (ih1.2 hst true 1 (by omega) _ ?_) hb
      exact expr2_stop (by rw [ht]; intro _; decide)
  | @opt_no k as t r hk =>
    refine ⟨.inl rfl, fun hr => ?_⟩
    unfold optional
    exact Ev.cur (Ev.no hk (Ev.const _))
  | @opt_yes k as t ts e r hk h ih =>
    refine ⟨.inr (first_of hk (by simp)), fun hr => ?_⟩
    unfold optional
    exact Ev.cur (Ev.yes hk (Ev.next ih.1.ne (Ev.bind (ih.2 hr).1 (Ev.const _))))
  | @params_one acc n ts typ us dflt t r hn h1 h2 ih1 ih2 =>
    refine ⟨first_of hn rfl, fun hr => Ev.params ?_⟩
    obtain ⟨t', r', e, ht⟩ := hr
    cases e
    have ht := beq_iff_eq.mp ht
    have hus : StopA false false us ∧ us ≠ [] := by
      rcases ih2.1 with rfl | h
      · exact ⟨stopA_of ht rfl, by simp⟩
      · exact ⟨h.mono (by intro k hk; rw [beq_iff_eq] at hk; subst hk; rfl), h.ne⟩
    have hts : ts ≠ [] := by
      rcases ih1.1 with rfl | h
      · exact hus.2
      · exact h.ne
    unfold paramsBody
    exact Ev.cur (Ev.no (by simp [hn]) (Ev.next hts (Ev.bind (ih1.2 hus.1) (Ev.bind (ih2.2 (stopA_of ht rfl))
      (Ev.cur (Ev.yes ht (Ev.const _)))))))
  | @params_more acc n ts typ us dflt t vs ps r hn h1 h2 ht h3 ih1 ih2 ih3 =>
    refine ⟨first_of hn rfl, fun hr => Ev.params ?_⟩
    have hus : StopA false false us ∧ us ≠ [] := by
      rcases ih2.1 with rfl | h
      · exact ⟨stopA_of ht rfl, by simp⟩
      · exact ⟨h.mono (by intro k hk; rw [beq_iff_eq] at hk; subst hk; rfl), h.ne⟩
    have hts : ts ≠ [] := by
      rcases ih1.1 with rfl | h
      · exact hus.2
      · exact h.ne
    unfold paramsBody
    exact Ev.cur (Ev.no (by simp [hn]) (Ev.next hts (Ev.bind (ih1.2 hus.1) (Ev.bind (ih2.2 (stopA_of ht rfl))
      (Ev.cur (Ev.no (by rw [ht]; decide) (Ev.no (by simp [ht]) (Ev.next ih3.1.ne (ih3.2 hr)))))))))
  | @func0 f n o c ts b r hf hn ho hc h ih =>
    refine ⟨first_of hf rfl, fun hr => ?_⟩
    unfold parseFunc
    refine Ev.cur (Ev.next (by simp) (Ev.cur (Ev.no (by simp [hn]) (Ev.next (by simp) (Ev.cur (Ev.no (by simp [ho])
      (Ev.next (by simp) (Ev.cur ?_))))))))
    refine Ev.bind (a := (.nil, c :: ts)) (Ev.yes hc (Ev.const _)) (Ev.next ih.1.ne ?_)
    obtain ⟨t, u, rfl, ht⟩ := ih.1
    exact Ev.cur (Ev.no (ih.1.not rfl) (Ev.bind (ih.2 hr) (Ev.const _)))
  | @func f n o ps us c ts b r hf hn ho h1 hc h2 ih1 ih2 =>
    refine ⟨first_of hf rfl, fun hr => ?_⟩
    unfold parseFunc
    obtain ⟨x, y, rfl, hx⟩ := ih1.1
    refine Ev.cur (Ev.next (by simp) (Ev.cur (Ev.no (by simp [hn]) (Ev.next (by simp) (Ev.cur (Ev.no (by simp [ho])
      (Ev.next (by simp) (Ev.cur ?_))))))))
    refine Ev.bind (a := (ps, c :: ts)) (Ev.no (ih1.1.not rfl) (ih1.2 (first_of hc rfl))) (Ev.next ih2.1.ne ?_)
    obtain ⟨t, u, rfl, ht⟩ := ih2.1
    exact Ev.cur (Ev.no (ih2.1.not rfl) (Ev.bind (ih2.2 hr) (Ev.const _)))
  | @stmt_expr t ts e s r ht h hs ih =>
    refine ⟨ih.1.mono (by intro k hk; unfold stmtFirst; rw [hk]; rfl), fun hr => Ev.stmt ?_⟩
    unfold stmtBody
    obtain ⟨t', u', e', h'⟩ := ih.1
    cases e'
    refine Ev.cur (Ev.yes (exprFirst_start h' ht) ?_)
    unfold parseExprStmt
    exact Ev.bind (condition_of hr hs (ih.2 (stopA_of hs rfl)).1) (Ev.const _)
  | @block o ts ss c r ho h hc ih =>
    refine ⟨first_of ho rfl, fun hr => Ev.stmt (Ev.of_eq (fun n => stmtBody_at ho rfl) ?_)⟩
    unfold parseBlock
    have ih := ih (.inr rfl) (first_of hc rfl)
    rw [← compPos_eq]
    exact Ev.next ih.1 (Ev.bind ih.2 (Ev.next hr (Ev.const _)))
  | @brk b s r hb hs =>
    refine ⟨first_of hb rfl, fun hr => Ev.stmt (Ev.of_eq (fun n => stmtBody_at hb rfl) ?_)⟩
    dsimp only
    unfold parseBreak
    exact Ev.cur (Ev.next (by simp) (Ev.cur (Ev.no (by simp [hs]) (Ev.next hr (Ev.const _)))))
  | @ret t ts e s r ht h hs ih =>
    refine ⟨first_of ht rfl, fun hr => Ev.stmt (Ev.of_eq (fun n => stmtBody_at ht rfl) ?_)⟩
    dsimp only
    unfold parseReturn
    exact Ev.cur (Ev.next ih.1.ne (Ev.bind (condition_of hr hs (ih.2 (stopA_of hs rfl)).1) (Ev.const _)))
  | @stmt_func d ts r h ih =>
    refine ⟨ih.1.mono (by intro k hk; rw [beq_iff_eq] at hk; subst hk; rfl), fun hr => Ev.stmt ?_⟩
    obtain ⟨t, u, rfl, ht⟩ := ih.1
    refine Ev.of_eq (fun n => stmtBody_at (beq_iff_eq.mp ht) rfl) ?_
    exact Ev.bind (ih.2 hr) (Ev.const _)
  | @while_ w ts c x us b t r hw h1 hx h2 ih1 ih2 =>
    refine ⟨first_of hw rfl, fun hr => Ev.stmt (Ev.of_eq (fun n => stmtBody_at hw rfl) ?_)⟩
    dsimp only
    unfold parseWhile
    exact Ev.cur (Ev.next ih1.1.ne (Ev.bind (condition_of ih2.1.ne hx (ih1.2 (stopA_of hx rfl)).1)
      (Ev.bind (ih2.2 hr) (Ev.cur (Ev.const _)))))
  | @do_ d ts b w us c s t r hd h1 hw h2 hs ih1 ih2 =>
    refine ⟨first_of hd rfl, fun hr => Ev.stmt (Ev.of_eq (fun n => stmtBody_at hd rfl) ?_)⟩
    dsimp only
    unfold parseDo
    exact Ev.cur (Ev.next ih1.1.ne (Ev.bind (ih1.2 (by simp)) (Ev.cur (Ev.no (by simp [hw]) (Ev.next ih2.1.ne
      (Ev.bind (condition_of hr hs (ih2.2 (stopA_of hs rfl)).1) (Ev.cur (Ev.const _))))))))
  | @if_ i ts c x us b t r hi h1 hx h2 ht ih1 ih2 =>
    refine ⟨first_of hi rfl, fun hr => Ev.stmt (Ev.of_eq (fun n => stmtBody_at hi rfl) ?_)⟩
    dsimp only
    unfold parseIf
    exact Ev.cur (Ev.next ih1.1.ne (Ev.bind (condition_of ih2.1.ne hx (ih1.2 (stopA_of hx rfl)).1)
      (Ev.bind (ih2.2 hr) (Ev.cur (Ev.no ht (Ev.const _))))))
  | @if_else i ts c x us b e vs b' t r hi h1 hx h2 he h3 ih1 ih2 ih3 =>
    refine ⟨first_of hi rfl, fun hr => Ev.stmt (Ev.of_eq (fun n => stmtBody_at hi rfl) ?_)⟩
    dsimp only
    unfold parseIf
    exact Ev.cur (Ev.next ih1.1.ne (Ev.bind (condition_of ih2.1.ne hx (ih1.2 (stopA_of hx rfl)).1)
      (Ev.bind (ih2.2 (by simp)) (Ev.cur (Ev.yes he (Ev.next ih3.1.ne (Ev.bind (ih3.2 hr) (Ev.cur (Ev.const _)))))))))
  | @stmts_nil k r =>
    intro hk hr
    refine ⟨hr.ne, Ev.stmts ?_⟩
    obtain ⟨t, u, rfl, ht⟩ := hr
    unfold stmtsBody
    exact Ev.cur (Ev.yes (beq_iff_eq.mp ht) (Ev.const _))
  | @stmts_cons k s ts us ss r h1 h2 ih1 ih2 =>
    intro hk hr
    obtain ⟨hne, hss⟩ := ih2 hk hr
    refine ⟨ih1.1.ne, Ev.stmts ?_⟩
    unfold stmtsBody
    obtain ⟨t, u, rfl, ht⟩ := ih1.1
    refine Ev.cur (Ev.no ?_ (Ev.no (ih1.1.not rfl) (Ev.bind (ih1.2 hne) (Ev.bind hss (Ev.const _)))))
    rcases hk with rfl | rfl
    · exact ih1.1.not rfl
    · exact ih1.1.not rfl

/-- A program of the grammar is parsed, with its tree. -/
theorem parse_complete {past : UInt8} {src : List UInt8} {ts : List Token} {ss : RStmts} (ht : tokenize past src = .ok ts)
    (h : Program flt ts ss) : parse flt past src = .ok ss := by
  obtain ⟨d, hd, h⟩ := h
  obtain ⟨_, hev⟩ := (Meets.of h : Meets flt (.stmts .done ss) ts [d]) (.inl rfl) ⟨d, [], rfl, by rw [hd]; rfl⟩
  unfold parse
  rw [ht]
  have hT := tokenize_toks ht
  have htot := (recs_total flt (depth ts)).stmts .done ts hT (by unfold depth; omega)
  have hne : (recs flt (depth ts)).stmts .done ts ≠ .diverge := by
    intro e; rw [e] at htot; exact htot
  have h2 := Ev.of_le (fun n => (recs_le flt n).stmts .done ts) (n := depth ts) rfl hne
  have := Ev.unique h2 hev
  show (recs flt (depth ts)).stmts .done ts >>= _ = _
  rw [this]
  rfl

end

end Noja.Parse
