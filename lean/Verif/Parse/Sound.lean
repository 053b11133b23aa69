import Verif.Parse.Complete

/-!
# The parser accepts programs of the grammar only

With `Complete.lean`: a text is accepted exactly if its tokens are a program of the grammar, with the tree that the
grammar gives (C80); so the grammar is unambiguous.
-/

namespace Noja.Parse

open Noja.VM (RExpr RExprs RPairs RCall RFun RParams ROpt RStmt RStmts Pos Name UnOp BinOp)

set_option linter.unusedSimpArgs false
set_option linter.unusedVariables false

/-- What holds of a result, if there is one. -/
def Oks {α : Type} (P : α → Prop) : Exec α → Prop
  | .ok a => P a
  | _ => True

section
variable {α β : Type} {P : α → Prop} {Q : β → Prop}

theorem Oks.bind {x : Exec α} {f : α → Exec β} (h : Oks P x) (hf : ∀ a, P a → Oks Q (f a)) : Oks Q (x >>= f) := by
  cases x with
  | ok a => exact hf a h
  | err => trivial
  | ub => trivial
  | diverge => trivial

theorem Oks.mono {P' : α → Prop} {x : Exec α} (h : Oks P x) (hp : ∀ a, P a → P' a) : Oks P' x := by
  cases x with
  | ok a => exact hp a h
  | err => trivial
  | ub => trivial
  | diverge => trivial

theorem Oks.cur {ts : List Token} {f : Token → Exec β} (h : ∀ t u, ts = t :: u → Oks Q (f t)) : Oks Q (Parse.cur ts >>= f) := by
  cases ts with
  | nil => trivial
  | cons t u => exact h t u rfl

theorem Oks.next {t : Token} {r : List Token} {f : List Token → Exec β} (h : ∀ u v, r = u :: v → Oks Q (f r)) :
    Oks Q (Parse.next (t :: r) >>= f) := by
  cases r with
  | nil => trivial
  | cons u v => exact h u v rfl

theorem Oks.ite {c : Prop} [Decidable c] {x y : Exec α} (hx : c → Oks P x) (hy : ¬ c → Oks P y) : Oks P (if c then x else y) := by
  by_cases h : c
  · rw [if_pos h]; exact hx h
  · rw [if_neg h]; exact hy h

theorem Oks.out {x : Exec α} {a : α} (h : Oks P x) (e : x = .ok a) : P a := by rw [e] at h; exact h
end

/-! ## Tables -/

theorem unOp_prefix {k : Kind} {op : UnOp} (h : unOp k = some op) : Prefix k op := by
  unfold unOp at h
  split at h <;> first | (cases h; constructor) | cases h

theorem binop_infix {k : Kind} (h : isBinop k = true) : k = .ch 61 ∨ ∃ p f, Infix k p f := by
  cases k with
  | ch c =>
    simp only [isBinop, Bool.or_eq_true, beq_iff_eq] at h
    rcases h with ((((((((h | h) | h) | h) | h) | h) | h) | h) | h) | h <;> subst h <;>
      first | exact .inl rfl | exact .inr ⟨_, _, by constructor⟩
  | leq => exact .inr ⟨_, _, .leq⟩
  | geq => exact .inr ⟨_, _, .geq⟩
  | eql => exact .inr ⟨_, _, .eql⟩
  | nql => exact .inr ⟨_, _, .nql⟩
  | kwAnd => exact .inr ⟨_, _, .and⟩
  | kwOr => exact .inr ⟨_, _, .or⟩
  | _ => cases h

theorem mkCall_called (f : RExpr) (as : RExprs) (p : Pos) : ∃ c, Called f as c ∧ mkCall f as p = .call c p := by
  cases f with
  | arw s i q => exact ⟨_, .method, rfl⟩
  | _ => exact ⟨_, .fn (by intro s i q h; cases h), rfl⟩

theorem unescape_table {e c : UInt8} (h : unescape e = some c) :
    (e, c) ∈ [((34 : UInt8), (34 : UInt8)), (39, 39), (92, 92), (110, 10), (116, 9), (114, 13)] := by
  unfold unescape at h
  split at h <;> first | (cases h; decide) | cases h

theorem Spells.plains {b s : List UInt8} (h : Spells b s) : ∀ p : List UInt8, (∀ c ∈ p, c ≠ 92) → Spells (p ++ b) (p ++ s)
  | [], _ => h
  | c :: p, hp => .plain (hp c (by simp)) (h.plains p fun d hd => hp d (by simp [hd]))

theorem takeWhile_all {p : UInt8 → Bool} : ∀ (t : List UInt8), ∀ c ∈ t.takeWhile p, p c = true
  | [], c, h => by cases h
  | d :: t, c, h => by
    rw [List.takeWhile_cons] at h
    by_cases hd : p d = true
    · rw [if_pos hd] at h
      rcases List.mem_cons.mp h with rfl | h
      · exact hd
      · exact takeWhile_all t c h
    · rw [if_neg hd] at h; cases h

theorem dropWhile_head {p : UInt8 → Bool} : ∀ (t : List UInt8) {c : UInt8} {r : List UInt8}, t.dropWhile p = c :: r → p c = false
  | [], c, r, h => by cases h
  | d :: t, c, r, h => by
    rw [List.dropWhile_cons] at h
    by_cases hd : p d = true
    · rw [if_pos hd] at h
      exact dropWhile_head t h
    · rw [if_neg hd] at h
      cases h
      simpa using hd

theorem stringLoop_sound : ∀ (n : Nat) (b temp : List UInt8),
    Oks (fun x => ∃ s, Spells b s ∧ x = temp ++ s ∧ x.length ≤ 4095) (stringLoop n b temp)
  | 0, _, _ => trivial
  | n + 1, b, temp => by
    have hb : b.takeWhile (· != 92) ++ b.dropWhile (· != 92) = b := List.takeWhile_append_dropWhile
    have hp : ∀ c ∈ b.takeWhile (· != 92), c ≠ 92 := fun c hc => by
      have := takeWhile_all b c hc
      simpa using this
    unfold stringLoop
    dsimp only
    refine Oks.ite (fun _ => trivial) fun h1 => ?_
    cases hd : b.dropWhile (· != 92) with
    | nil =>
      rw [hd, List.append_nil] at hb
      dsimp only
      refine ⟨b.takeWhile (· != 92), ?_, rfl, by rw [List.length_append]; omega⟩
      have := Spells.nil.plains _ hp
      rw [List.append_nil] at this
      rw [hb] at this ⊢
      exact this
    | cons x r =>
      have hx : x = 92 := by
        have := dropWhile_head b hd
        simpa using this
      subst hx
      rw [hd] at hb
      dsimp only
      refine Oks.ite (fun _ => trivial) fun h2 => ?_
      rw [List.length_append] at h2
      generalize b.takeWhile (· != 92) = p at hb hp h1 h2
      subst hb
      cases r with
      | nil => exact ⟨_, Spells.last.plains p hp, by simp, by simp; omega⟩
      | cons e r =>
        dsimp only
        cases hu : unescape e with
        | none => trivial
        | some c =>
          dsimp only
          refine Oks.ite (fun hr => ?_) fun hr => ?_
          · have hr : r = [] := by cases r with
              | nil => rfl
              | cons _ _ => cases hr
            subst hr
            exact ⟨_, (Spells.esc (unescape_table hu) .nil).plains p hp, by simp, by simp; omega⟩
          · refine Oks.mono (stringLoop_sound n r _) ?_
            rintro x ⟨s, hs, rfl, hl⟩
            exact ⟨_, (Spells.esc (unescape_table hu) hs).plains p hp, by simp, hl⟩

/-! ## The operators -/

section
variable {flt : List UInt8 → Option (BitVec 64)}

theorem ops_le {tu : Bool} {q m : Int} {e : RExpr} {ts r : List Token} (h : Derives flt (.ops tu q e) ts r) (hm : m ≤ q) :
    Derives flt (.ops tu m e) ts r := by
  cases h with
  | ops_pre h => exact .ops_pre h
  | left hi hq htu h1 h2 => exact .left hi (by omega) htu h1 h2

/-- An operator that follows and belongs to the expression is of level `q` at most. -/
def Head (tu as : Bool) (q : Int) (r : List Token) : Prop :=
  ∀ t u, r = t :: u → absorbs tu as t.kind = true → prec t.kind ≤ q

/-- Nothing that follows belongs to the expression. -/
def Quiet (tu : Bool) (r : List Token) : Prop := ∀ t u, r = t :: u → absorbs tu true t.kind = false

theorem Head.of_quiet {tu as : Bool} {q : Int} {r : List Token} (h : Quiet tu r) (has : as = true) : Head tu as q r := by
  intro t u e ha
  subst has
  rw [h t u e] at ha
  cases ha

variable (flt)

/-- What the operator loops have read. -/
def State (tu as : Bool) (m : Int) (e : RExpr) (ts0 r : List Token) : Prop :=
  (∃ q, Derives flt (.ops tu q e) ts0 r ∧ m ≤ q ∧ 1 ≤ q ∧ Head tu as q r) ∨
  (m ≤ 0 ∧ as = true ∧ Derives flt (.asn tu true e) ts0 r ∧ Quiet tu r)

/-- What the functions read is derived. -/
structure Sound (R : Rec) : Prop where
  expr : ∀ tu as ts, Oks (fun y => Derives flt (.asn tu as y.1) ts y.2) (R.expr tu as ts)
  expr2 : ∀ tu as l m ts ts0, State flt tu as m l ts0 ts →
    Oks (fun y => State flt tu as m y.1 ts0 y.2 ∧ Head tu as (m - 1) y.2) (R.expr2 tu as l m ts)
  quiet : ∀ tu as l m ts, (∀ t u, ts = t :: u → absorbs tu as t.kind = false) → Oks (fun y => y = (l, ts)) (R.expr2 tu as l m ts)
  inner : ∀ tu as k p f l ts ts0, Infix k p f → State flt tu as (p + 1) l ts0 ts →
    Oks (fun y => Derives flt (.ops tu (p + 1) y.1) ts0 y.2 ∧ Head tu as p y.2) (R.inner tu as k l ts)
  assign : ∀ tu l ts ts0, State flt tu true 0 l ts0 ts →
    Oks (fun y => Derives flt (.asn tu true y.1) ts0 y.2 ∧ Quiet tu y.2) (R.inner tu true (.ch 61) l ts)
  pre : ∀ ts, Oks (fun y => Derives flt (.pre y.1) ts y.2) (R.pre ts)
  post : ∀ e ts ts0, Derives flt (.post e) ts0 ts → Oks (fun y => Derives flt (.post y.1) ts0 y.2) (R.post e ts)
  items : ∀ ts, Oks (fun y => Derives flt (.items y.1) ts y.2 ∧ At (.ch 93) y.2) (R.items ts)
  args : ∀ acc ts, Oks (fun y => Derives flt (.args acc y.1) ts y.2 ∧ At (.ch 41) y.2) (R.args acc ts)
  pairs : ∀ ts, Oks (fun y => Derives flt (.pairs y.1) ts y.2 ∧ At (.ch 125) y.2) (R.pairs ts)
  params : ∀ acc ts, Oks (fun y => Derives flt (.params acc y.1) ts y.2 ∧ At (.ch 41) y.2) (R.params acc ts)
  stmt : ∀ ts, Oks (fun y => Derives flt (.stmt y.1) ts y.2) (R.stmt ts)
  stmts : ∀ k ts, Oks (fun y => Derives flt (.stmts k y.1) ts y.2 ∧ At k y.2) (R.stmts k ts)

variable {flt}

theorem State.of_pre {tu as : Bool} {m : Int} {e : RExpr} {ts0 r : List Token} (h : Derives flt (.pre e) ts0 r) (hm : m ≤ 8) :
    State flt tu as m e ts0 r := by
  refine .inl ⟨8, .ops_pre h, hm, by decide, ?_⟩
  intro t u e ha
  unfold absorbs at ha
  simp only [Bool.and_eq_true] at ha
  have := (prec_bound ha.1).2
  omega

/-- The state at an operator that is taken. -/
theorem State.at {tu as : Bool} {m : Int} {e : RExpr} {ts0 u : List Token} {t : Token} (h : State flt tu as m e ts0 (t :: u))
    (ha : absorbs tu as t.kind = true) : ∃ q, Derives flt (.ops tu q e) ts0 (t :: u) ∧ m ≤ q ∧ 1 ≤ q ∧ prec t.kind ≤ q := by
  rcases h with ⟨q, h1, h2, h3, h4⟩ | ⟨_, rfl, _, h4⟩
  · exact ⟨q, h1, h2, h3, h4 t u rfl ha⟩
  · rw [h4 t u rfl] at ha; cases ha

theorem State.asn {tu as : Bool} {m : Int} {e : RExpr} {ts0 r : List Token} (h : State flt tu as m e ts0 r) :
    Derives flt (.asn tu as e) ts0 r := by
  rcases h with ⟨q, h1, h2, h3, h4⟩ | ⟨_, rfl, h, h4⟩
  · exact .asn_ops (ops_le h1 h3)
  · exact h

section
variable {R : Rec} (H : Sound flt R)
include H

theorem expr2_sound (tu as : Bool) (l : RExpr) (m : Int) (ts ts0 : List Token) (hs : State flt tu as m l ts0 ts) :
    Oks (fun y => State flt tu as m y.1 ts0 y.2 ∧ Head tu as (m - 1) y.2) (expr2Body R tu as l m ts) := by
  unfold expr2Body
  refine Oks.cur ?_
  rintro t u rfl
  refine Oks.ite (fun h1 => Oks.ite (fun h2 => ?_) fun h2 => ?_) fun h1 => ?_
  · refine ⟨hs, ?_⟩
    intro t' u' e ha
    cases e
    unfold absorbs at ha
    rw [h2] at ha
    simp at ha
  · simp only [Bool.and_eq_true, decide_eq_true_eq] at h1
    have h2 : ((t.kind == .ch 44 && !tu) || (t.kind == .ch 61 && !as)) = false := by simpa using h2
    have ha : absorbs tu as t.kind = true := by unfold absorbs; rw [h1.1, h2]; rfl
    obtain ⟨q, hq, hmq, h1q, hpq⟩ := hs.at ha
    refine Oks.next fun v w hu => ?_
    refine Oks.bind (H.pre u) ?_
    rintro ⟨r1, us⟩ hr1
    dsimp only at hr1 ⊢
    rcases binop_infix h1.1 with he | ⟨p, f, hi⟩
    · have has : as = true := by
        cases as with
        | true => rfl
        | false => rw [he] at h2; simp at h2
      subst has
      rw [he]
      refine Oks.bind (H.assign tu r1 us u (State.of_pre hr1 (by decide))) ?_
      rintro ⟨b, r⟩ ⟨hb, hqr⟩
      dsimp only at hb hqr ⊢
      show Oks _ (R.expr2 tu true (.ass l b (upto l.pos b.pos)) m r)
      have hm0 : m ≤ 0 := by
        have : prec t.kind = 0 := by rw [he]; rfl
        omega
      refine Oks.mono (H.expr2 tu true _ m r ts0 (.inr ⟨hm0, rfl, .assign (ops_le hq h1q) he hb, hqr⟩)) fun _ h => h
    · obtain ⟨f1, f2, f3, f4, f5, f6, f7⟩ := hi.facts
      refine Oks.bind (H.inner tu as t.kind p f r1 us u hi (State.of_pre hr1 (by omega))) ?_
      rintro ⟨b, r⟩ ⟨hb, hqr⟩
      dsimp only at hb hqr ⊢
      rw [f7]
      show Oks _ (R.expr2 tu as (f l b (upto l.pos b.pos)) m r)
      rw [f2] at h1 hpq
      refine Oks.mono (H.expr2 tu as _ m r ts0 (.inl ⟨p, ?_, h1.2, f3, hqr⟩)) fun _ h => h
      refine .left hi (by omega) ?_ (ops_le hq hpq) hb
      intro hk
      cases tu with
      | true => rfl
      | false => rw [hk] at h2; simp at h2
  · refine ⟨hs, ?_⟩
    intro t' u' e ha
    cases e
    unfold absorbs at ha
    simp only [Bool.and_eq_true, decide_eq_true_eq, not_and] at ha h1
    have := h1 ha.1
    omega

omit H in
theorem quiet_sound (tu as : Bool) (l : RExpr) (m : Int) (ts : List Token)
    (hq : ∀ t u, ts = t :: u → absorbs tu as t.kind = false) : Oks (fun y => y = (l, ts)) (expr2Body R tu as l m ts) := by
  unfold expr2Body
  refine Oks.cur ?_
  rintro t u rfl
  refine Oks.ite (fun h1 => Oks.ite (fun h2 => rfl) fun h2 => ?_) fun h1 => rfl
  exfalso
  have := hq t u rfl
  unfold absorbs at this
  simp only [Bool.and_eq_true] at h1
  rw [h1.1] at this
  simp only [Bool.not_eq_true] at h2
  rw [h2] at this
  cases this

theorem inner_sound (tu as : Bool) (k : Kind) (p : Int) (f) (l : RExpr) (ts ts0 : List Token) (hi : Infix k p f)
    (hs : State flt tu as (p + 1) l ts0 ts) :
    Oks (fun y => Derives flt (.ops tu (p + 1) y.1) ts0 y.2 ∧ Head tu as p y.2) (innerBody R tu as k l ts) := by
  obtain ⟨f1, f2, f3, f4, f5, f6, f7⟩ := hi.facts
  unfold innerBody
  refine Oks.cur ?_
  rintro t u rfl
  refine Oks.ite (fun h1 => ?_) fun h1 => ?_
  · simp only [Bool.and_eq_true, Bool.or_eq_true, decide_eq_true_eq, beq_iff_eq, f2] at h1
    have hgt : p < prec t.kind := by
      rcases h1.2 with h | ⟨h, h'⟩
      · exact h
      · have : t.kind = .ch 61 := by simpa [isRight] using h'
        rw [this] at h
        have h0 : prec (.ch 61) = 0 := rfl
        omega
    rw [f2, if_pos hgt]
    refine Oks.bind (H.expr2 tu as l (p + 1) (t :: u) ts0 hs) ?_
    rintro ⟨b, r⟩ ⟨hb, hh⟩
    dsimp only at hb hh ⊢
    refine Oks.cur ?_
    rintro t' u' rfl
    refine Oks.ite (fun h2 => ?_) fun h2 => ?_
    · rcases hb with ⟨q, hq, hpq, _, _⟩ | ⟨h, _⟩
      · exact ⟨ops_le hq hpq, by rw [show p = p + 1 - 1 by omega]; exact hh⟩
      · omega
    · exact H.inner tu as k p f b _ ts0 hi hb
  · rcases hs with ⟨q, hq, hpq, _, _⟩ | ⟨h, _⟩
    · refine ⟨ops_le hq hpq, ?_⟩
      intro t' u' e ha
      cases e
      unfold absorbs at ha
      simp only [Bool.and_eq_true] at ha
      simp only [Bool.and_eq_true, Bool.or_eq_true, decide_eq_true_eq, beq_iff_eq, f2, not_and, not_or] at h1
      have := (h1 ha.1).1
      omega
    · omega

theorem assign_sound (tu : Bool) (l : RExpr) (ts ts0 : List Token) (hs : State flt tu true 0 l ts0 ts) :
    Oks (fun y => Derives flt (.asn tu true y.1) ts0 y.2 ∧ Quiet tu y.2) (innerBody R tu true (.ch 61) l ts) := by
  unfold innerBody
  refine Oks.cur ?_
  rintro t u rfl
  refine Oks.ite (fun h1 => ?_) fun h1 => ?_
  · simp only [Bool.and_eq_true] at h1
    -- what the recursion gives
    have step : Oks (fun y : RExpr × List Token => State flt tu true 0 y.1 ts0 y.2)
        (R.expr2 tu true l (prec (.ch 61) + (if prec (.ch 61) < prec t.kind then 1 else 0)) (t :: u)) := by
      rcases hs with ⟨q, hq, _, h1q, hh⟩ | ⟨_, _, hd, hh⟩
      · have h0 : prec (.ch 61) = 0 := rfl
        refine Oks.mono (H.expr2 tu true l _ (t :: u) ts0 (.inl ⟨q, hq, ?_, h1q, hh⟩)) ?_
        · rw [h0]
          by_cases h : 0 < prec t.kind
          · rw [if_pos h]; omega
          · rw [if_neg h]; omega
        · rintro ⟨b, r⟩ ⟨hb, _⟩
          rcases hb with ⟨q', a1, a2, a3, a4⟩ | ⟨_, a2, a3, a4⟩
          · exact .inl ⟨q', a1, by omega, a3, a4⟩
          · exact .inr ⟨by omega, rfl, a3, a4⟩
      · refine Oks.mono (H.quiet tu true l _ (t :: u) hh) ?_
        rintro _ rfl
        exact .inr ⟨by omega, rfl, hd, hh⟩
    refine Oks.bind step ?_
    rintro ⟨b, r⟩ hb
    dsimp only at hb ⊢
    refine Oks.cur ?_
    rintro t' u' rfl
    refine Oks.ite (fun h2 => ?_) fun h2 => ?_
    · refine ⟨hb.asn, ?_⟩
      intro t2 u2 e
      cases e
      unfold absorbs
      rw [h2]
      simp
    · exact H.assign tu b _ ts0 hb
  · refine ⟨hs.asn, ?_⟩
    intro t2 u2 e
    cases e
    have hnb : isBinop t.kind = false := by
      cases hb : isBinop t.kind with
      | false => rfl
      | true =>
        exfalso
        rw [hb] at h1
        simp only [Bool.true_and, Bool.or_eq_true, Bool.and_eq_true, decide_eq_true_eq, beq_iff_eq, not_or, not_and] at h1
        have h0 : prec (.ch 61) = 0 := rfl
        have := (prec_bound hb).1
        have hz : prec t.kind = 0 := by omega
        have := prec_zero hb hz
        exact h1.2 (by rw [this]) (by rw [this]; rfl)
    unfold absorbs
    rw [hnb]
    rfl

theorem expr_sound (tu as : Bool) (ts : List Token) :
    Oks (fun y => Derives flt (.asn tu as y.1) ts y.2) (exprBody R tu as ts) := by
  unfold exprBody
  refine Oks.bind (H.pre ts) ?_
  rintro ⟨l, us⟩ hl
  dsimp only at hl ⊢
  refine Oks.cur ?_
  rintro t u rfl
  refine Oks.ite (fun _ => .asn_ops (.ops_pre hl)) fun _ => ?_
  exact Oks.mono (H.expr2 tu as l _ (t :: u) ts (State.of_pre hl (by decide))) fun y hy => hy.1.asn

/-! ## The rest -/

theorem list_sound (ts : List Token) (hts : ∀ t u, ts = t :: u → t.kind = .ch 91) :
    Oks (fun y => Derives flt (.list y.1 y.2.1) ts y.2.2) (parseList R ts) := by
  unfold parseList
  refine Oks.cur ?_
  rintro o u rfl
  have ho := hts o u rfl
  refine Oks.next ?_
  rintro t v rfl
  show Oks _ ((if t.kind = .ch 93 then (.ok (.nil, t :: v) : Exec (RExprs × List Token)) else R.items (t :: v)) >>= _)
  by_cases hc : t.kind = .ch 93
  · rw [if_pos hc]
    show Oks _ (next (t :: v) >>= fun ts => .ok (_, _, ts))
    refine Oks.next ?_
    rintro x y rfl
    exact .list0 ho hc
  · rw [if_neg hc]
    refine Oks.bind (H.items (t :: v)) ?_
    rintro ⟨es, r⟩ ⟨hd, c, r', e, hc⟩
    dsimp only at e hd ⊢
    subst e
    refine Oks.cur ?_
    intro _ _ e
    cases e
    refine Oks.next ?_
    rintro x y rfl
    exact .list ho hd hc

theorem items_sound (ts : List Token) :
    Oks (fun y => Derives flt (.items y.1) ts y.2 ∧ At (.ch 93) y.2) (itemsBody R ts) := by
  unfold itemsBody
  refine Oks.bind (H.expr false true ts) ?_
  rintro ⟨e, r⟩ he
  dsimp only at he ⊢
  refine Oks.cur ?_
  rintro t u rfl
  refine Oks.ite (fun h => ⟨.items_one he, _, _, rfl, h⟩) fun h => Oks.ite (fun _ => trivial) fun h2 => ?_
  refine Oks.next ?_
  rintro x y rfl
  refine Oks.bind (H.items (x :: y)) ?_
  rintro ⟨es, r⟩ ⟨hd, ha⟩
  exact ⟨.items_more he (by simpa using h2) hd, ha⟩

theorem args_sound (acc : RExprs) (ts : List Token) :
    Oks (fun y => Derives flt (.args acc y.1) ts y.2 ∧ At (.ch 41) y.2) (argsBody R acc ts) := by
  unfold argsBody
  refine Oks.bind (H.expr false true ts) ?_
  rintro ⟨e, r⟩ he
  dsimp only at he ⊢
  refine Oks.cur ?_
  rintro t u rfl
  refine Oks.ite (fun h => ⟨.args_one he, _, _, rfl, h⟩) fun h => Oks.ite (fun _ => trivial) fun h2 => ?_
  refine Oks.next ?_
  rintro x y rfl
  refine Oks.mono (H.args (.cons e acc) (x :: y)) ?_
  rintro ⟨es, r⟩ ⟨hd, ha⟩
  exact ⟨.args_more he (by simpa using h2) hd, ha⟩

theorem opt_sound (k : Kind) (as : Bool) (ts : List Token) :
    Oks (fun y => Derives flt (.opt k as y.1) ts y.2) (optional k (R.expr false as) ts) := by
  unfold optional
  refine Oks.cur ?_
  rintro t u rfl
  refine Oks.ite (fun h => ?_) fun h => .opt_no h
  refine Oks.next ?_
  rintro x y rfl
  refine Oks.bind (H.expr false as (x :: y)) ?_
  rintro ⟨e, r⟩ he
  exact .opt_yes h he

theorem params_sound (acc : RParams) (ts : List Token) :
    Oks (fun y => Derives flt (.params acc y.1) ts y.2 ∧ At (.ch 41) y.2) (paramsBody R acc ts) := by
  unfold paramsBody
  refine Oks.cur ?_
  rintro n u rfl
  refine Oks.ite (fun _ => trivial) fun hn => ?_
  have hn : n.kind = .ident := by simpa using hn
  refine Oks.next ?_
  rintro x y rfl
  refine Oks.bind (opt_sound H (.ch 58) false (x :: y)) ?_
  rintro ⟨typ, us⟩ h1
  refine Oks.bind (opt_sound H (.ch 61) true us) ?_
  rintro ⟨dflt, vs⟩ h2
  dsimp only at h1 h2 ⊢
  refine Oks.cur ?_
  rintro t w rfl
  refine Oks.ite (fun h => ⟨.params_one hn h1 h2, _, _, rfl, h⟩) fun h => Oks.ite (fun _ => trivial) fun h3 => ?_
  refine Oks.next ?_
  rintro x' y' rfl
  refine Oks.mono (H.params _ (x' :: y')) ?_
  rintro ⟨ps, r⟩ ⟨hd, ha⟩
  exact ⟨.params_more hn h1 h2 (by simpa using h3) hd, ha⟩

theorem func_sound (ts : List Token) (hts : ∀ t u, ts = t :: u → t.kind = .kwFun) :
    Oks (fun y => Derives flt (.func ⟨y.1.name, y.1.namePos, y.1.f, y.1.pos⟩) ts y.2) (parseFunc R ts) := by
  unfold parseFunc
  refine Oks.cur ?_
  rintro f u rfl
  have hf := hts f u rfl
  refine Oks.next ?_
  rintro n v rfl
  show Oks _ (if n.kind ≠ .ident then _ else _)
  refine Oks.ite (fun _ => trivial) fun hn => ?_
  have hn : n.kind = .ident := by simpa using hn
  refine Oks.next ?_
  rintro o w rfl
  show Oks _ (if o.kind ≠ .ch 40 then _ else _)
  refine Oks.ite (fun _ => trivial) fun ho => ?_
  have ho : o.kind = .ch 40 := by simpa using ho
  refine Oks.next ?_
  rintro t x rfl
  show Oks _ ((if t.kind = .ch 41 then (.ok (.nil, t :: x) : Exec (RParams × List Token)) else R.params .nil (t :: x)) >>= _)
  by_cases hc : t.kind = .ch 41
  · rw [if_pos hc]
    show Oks _ (next (t :: x) >>= _)
    refine Oks.next ?_
    rintro c y rfl
    show Oks _ (if c.kind = .done then _ else _)
    refine Oks.ite (fun _ => trivial) fun _ => ?_
    refine Oks.bind (H.stmt (c :: y)) ?_
    rintro ⟨b, r⟩ hb
    exact .func0 hf hn ho hc hb
  · rw [if_neg hc]
    refine Oks.bind (H.params .nil (t :: x)) ?_
    rintro ⟨ps, r⟩ ⟨hd, c, r', e, hc⟩
    dsimp only at e hd ⊢
    subst e
    refine Oks.next ?_
    rintro c' y rfl
    show Oks _ (if c'.kind = .done then _ else _)
    refine Oks.ite (fun _ => trivial) fun _ => ?_
    refine Oks.bind (H.stmt (c' :: y)) ?_
    rintro ⟨b, r⟩ hb
    exact .func hf hn ho hd hc hb

theorem key_sound (ts : List Token) : Oks (fun y => At (.ch 58) y.2 → Derives flt (.key y.1) ts y.2) (parseKey R ts) := by
  unfold parseKey singleIdent
  cases ts with
  | nil => trivial
  | cons t u =>
    cases u with
    | nil => trivial
    | cons c r =>
      show Oks _ (if (t.kind == .ident && (c.kind == .done || c.kind == .ch 58)) = true then _ else _)
      refine Oks.ite (fun h => ?_) fun h => ?_
      · show At (.ch 58) (c :: r) → _
        rintro ⟨c', r', e, hc⟩
        cases e
        simp only [Bool.and_eq_true, beq_iff_eq] at h
        exact .key_ident h.1 hc
      · refine Oks.mono (H.expr false true _) fun y hy _ => .key_expr ?_ hy
        intro ht
        rw [ht] at h
        simp only [beq_self_eq_true, Bool.true_and, Bool.or_eq_true, beq_iff_eq, not_or] at h
        exact ⟨h.2, h.1⟩

theorem pairs_sound (ts : List Token) :
    Oks (fun y => Derives flt (.pairs y.1) ts y.2 ∧ At (.ch 125) y.2) (pairsBody R ts) := by
  unfold pairsBody
  refine Oks.cur ?_
  rintro t u rfl
  refine Oks.ite (fun hf => ?_) fun hf => ?_
  · refine Oks.bind (func_sound H (t :: u) (by intro _ _ e; cases e; exact hf)) ?_
    rintro ⟨d, us⟩ hd
    dsimp only at hd ⊢
    refine Oks.cur ?_
    rintro c v rfl
    refine Oks.ite (fun h => ⟨.pair_func_last hd, _, _, rfl, h⟩) fun h => ?_
    refine Oks.bind (H.pairs (c :: v)) ?_
    rintro ⟨ps, r⟩ ⟨hp, ha⟩
    exact ⟨.pair_func hd hp, ha⟩
  · unfold keyItem
    have key : Oks (fun y : RExpr × RExpr × List Token => ∃ c us, Derives flt (.key y.1) (t :: u) (c :: us) ∧ c.kind = .ch 58 ∧
        Derives flt (.asn false true y.2.1) us y.2.2) (keyItem R (t :: u)) := by
      unfold keyItem
      refine Oks.bind (key_sound H (t :: u)) ?_
      rintro ⟨k, us⟩ hk
      dsimp only at hk ⊢
      refine Oks.cur ?_
      rintro c v rfl
      refine Oks.ite (fun _ => trivial) fun hc => ?_
      have hc : c.kind = .ch 58 := by simpa using hc
      refine Oks.next ?_
      rintro x y rfl
      refine Oks.bind (H.expr false true (x :: y)) ?_
      rintro ⟨e, r⟩ he
      exact ⟨c, x :: y, hk ⟨_, _, rfl, hc⟩, hc, he⟩
    refine Oks.bind key ?_
    rintro ⟨k, e, us⟩ ⟨c, ws, hk, hc, he⟩
    dsimp only at hk he ⊢
    refine Oks.cur ?_
    rintro d v rfl
    refine Oks.ite (fun h => ⟨.pair_last hk hc he, _, _, rfl, h⟩) fun h => Oks.ite (fun _ => trivial) fun h2 => ?_
    refine Oks.next ?_
    rintro x y rfl
    refine Oks.bind (H.pairs (x :: y)) ?_
    rintro ⟨ps, r⟩ ⟨hp, ha⟩
    exact ⟨.pair_more hk hc he (by simpa using h2) hp, ha⟩

theorem map_sound (o : Token) (u : List Token) (ho : o.kind = .ch 123) :
    Oks (fun y => Derives flt (.prim y.1) (o :: u) y.2) (parseMap R (o :: u)) := by
  unfold parseMap
  show Oks _ (next (o :: u) >>= _)
  refine Oks.next ?_
  rintro t v rfl
  show Oks _ (if t.kind = .done then _ else _)
  refine Oks.ite (fun _ => trivial) fun _ => ?_
  show Oks _ ((if t.kind = .ch 125 then (.ok (.nil, t :: v) : Exec (RPairs × List Token)) else R.pairs (t :: v)) >>= _)
  by_cases hc : t.kind = .ch 125
  · rw [if_pos hc]
    show Oks _ (next (t :: v) >>= fun ts => .ok (_, ts))
    refine Oks.next ?_
    rintro x y rfl
    exact .map0 ho hc
  · rw [if_neg hc]
    refine Oks.bind (H.pairs (t :: v)) ?_
    rintro ⟨es, r⟩ ⟨hd, c, r', e, hc⟩
    dsimp only at e hd ⊢
    subst e
    show Oks _ (next (c :: r') >>= fun ts => .ok (_, ts))
    refine Oks.next ?_
    rintro x y rfl
    exact .map ho hd hc

theorem primary_sound (ts : List Token) : Oks (fun y => Derives flt (.prim y.1) ts y.2) (parsePrimary flt R ts) := by
  cases ts with
  | nil => trivial
  | cons t r =>
    rw [parsePrimary_at rfl]
    split
    · rename_i hk
      refine Oks.bind (list_sound H (t :: r) (by intro _ _ e; cases e; exact hk)) ?_
      rintro ⟨es, p, us⟩ h
      exact .prim_list h
    · rename_i hk; exact map_sound H t r hk
    · rename_i hk
      refine Oks.next ?_
      rintro x y rfl
      refine Oks.bind (H.expr true true (x :: y)) ?_
      rintro ⟨e, us⟩ he
      dsimp only at he ⊢
      refine Oks.cur ?_
      rintro c v rfl
      refine Oks.ite (fun _ => trivial) fun hc => ?_
      refine Oks.next ?_
      rintro x' y' rfl
      exact .parens hk he (by simpa using hc)
    · rename_i hk
      unfold parseInt
      refine Oks.ite (fun _ => trivial) fun hl => ?_
      have hl : t.text.length < 64 := by
        have : t.len = (t.text.length : Int) := rfl
        omega
      have hd : decimal t.text = valueRev t.text.reverse := by rw [← decimal_value, List.reverse_reverse]
      unfold strtoll
      rw [hd]
      by_cases hv : valueRev t.text.reverse ≤ 9223372036854775807
      · rw [if_pos hv]
        refine Oks.next ?_
        rintro x y rfl
        exact .int hk hl (by omega)
      · rw [if_neg hv]; trivial
    · rename_i hk
      unfold parseFloat
      refine Oks.ite (fun _ => trivial) fun hl => ?_
      have hl : t.text.length < 64 := by
        have : t.len = (t.text.length : Int) := rfl
        omega
      cases hv : flt t.text with
      | none => trivial
      | some b =>
        refine Oks.next ?_
        rintro x y rfl
        exact .float hk hl hv
    · rename_i hk
      unfold parseString
      refine Oks.bind (stringLoop_sound _ _ _) ?_
      rintro s ⟨s', hs, hs2, hlen⟩
      rw [List.nil_append] at hs2
      subst hs2
      refine Oks.next ?_
      rintro x y rfl
      exact .string hk hs hlen
    · rename_i hk
      refine Oks.next ?_
      rintro x y rfl
      exact .none hk
    · rename_i hk
      refine Oks.next ?_
      rintro x y rfl
      exact .tru hk
    · rename_i hk
      refine Oks.next ?_
      rintro x y rfl
      exact .fls hk
    · rename_i hk
      refine Oks.next ?_
      rintro x y rfl
      exact .ident hk
    · trivial

theorem post_sound (e : RExpr) (ts ts0 : List Token) (hp : Derives flt (.post e) ts0 ts) :
    Oks (fun y => Derives flt (.post y.1) ts0 y.2) (postBody R e ts) := by
  cases ts with
  | nil => trivial
  | cons t r =>
    rw [postBody_at rfl]
    have dot : ∀ a : Bool, (t.kind = if a then .arw else .ch 46) →
        Oks (fun y => Derives flt (.post y.1) ts0 y.2) (parseDot a e (t :: r) >>= fun q => R.post q.1 q.2) := by
      intro a hk
      refine Oks.bind (P := fun y => Derives flt (.post y.1) ts0 y.2) ?_ fun q hq => H.post _ _ _ hq
      unfold parseDot
      refine Oks.next ?_
      rintro n v rfl
      show Oks _ (if n.kind ≠ .ident then _ else _)
      refine Oks.ite (fun _ => trivial) fun hn => ?_
      have hn : n.kind = .ident := by simpa using hn
      show Oks _ (next (n :: v) >>= fun ts => .ok (_, ts))
      refine Oks.next ?_
      rintro x y rfl
      cases a with
      | true => exact .arrow hp hk hn
      | false => exact .dot hp hk hn
    split
    · rename_i hk; exact dot false hk
    · rename_i hk; exact dot true hk
    · rename_i hk
      refine Oks.bind (P := fun y => Derives flt (.post y.1) ts0 y.2) ?_ fun q hq => H.post _ _ _ hq
      unfold parseIndex
      refine Oks.bind (list_sound H (t :: r) (by intro _ _ e; cases e; exact hk)) ?_
      rintro ⟨es, p, us⟩ h
      dsimp only at h ⊢
      cases es with
      | nil => trivial
      | cons i es =>
        cases es with
        | nil => exact .index hp h
        | cons j es => exact .indices hp h
    · rename_i hk
      refine Oks.bind (P := fun y => Derives flt (.post y.1) ts0 y.2) ?_ fun q hq => H.post _ _ _ hq
      unfold parseCall
      show Oks _ (next (t :: r) >>= _)
      refine Oks.next ?_
      rintro c v rfl
      show Oks _ ((if c.kind = .ch 41 then (.ok (.nil, c :: v) : Exec (RExprs × List Token)) else R.args .nil (c :: v)) >>= _)
      by_cases hc : c.kind = .ch 41
      · rw [if_pos hc]
        show Oks _ (next (c :: v) >>= fun ts => .ok (_, ts))
        refine Oks.next ?_
        rintro x y rfl
        obtain ⟨cl, h1, h2⟩ := mkCall_called e .nil (upto (place t) (place c))
        show Derives flt (.post (mkCall e .nil (upto (place t) (place c)))) ts0 (x :: y)
        rw [h2]
        exact .call0 hp hk hc h1
      · rw [if_neg hc]
        refine Oks.bind (H.args .nil (c :: v)) ?_
        rintro ⟨es, r⟩ ⟨hd, c', r', e', hc⟩
        dsimp only at e' hd ⊢
        subst e'
        show Oks _ (next (c' :: r') >>= fun ts => .ok (_, ts))
        refine Oks.next ?_
        rintro x y rfl
        obtain ⟨cl, h1, h2⟩ := mkCall_called e es (upto (place t) (place c'))
        show Derives flt (.post (mkCall e es (upto (place t) (place c')))) ts0 (x :: y)
        rw [h2]
        exact .call hp hk hd hc h1
    · exact hp

theorem pre_sound (ts : List Token) : Oks (fun y => Derives flt (.pre y.1) ts y.2) (preBody flt R ts) := by
  unfold preBody
  refine Oks.cur ?_
  rintro t u rfl
  cases ho : unOp t.kind with
  | none =>
    refine Oks.bind (primary_sound H (t :: u)) ?_
    rintro ⟨e, us⟩ he
    exact Oks.mono (H.post e us _ (.post_prim he)) fun y hy => .pre_post hy
  | some op =>
    refine Oks.next ?_
    rintro x y rfl
    refine Oks.bind (H.pre (x :: y)) ?_
    rintro ⟨e, r⟩ he
    exact .un (unOp_prefix ho) he

theorem condition_sound (k : Kind) (ts : List Token) :
    Oks (fun y => ∃ c, c.kind = k ∧ Derives flt (.asn true true y.1) ts (c :: y.2)) (condition R k ts) := by
  unfold condition
  refine Oks.bind (H.expr true true ts) ?_
  rintro ⟨e, us⟩ he
  dsimp only at he ⊢
  refine Oks.cur ?_
  rintro c v rfl
  refine Oks.ite (fun _ => trivial) fun hc => ?_
  refine Oks.next ?_
  rintro x y rfl
  exact ⟨c, by simpa using hc, he⟩

theorem if_sound (t : Token) (r : List Token) (ht : t.kind = .kwIf) :
    Oks (fun y => Derives flt (.stmt y.1) (t :: r) y.2) (parseIf R (t :: r)) := by
  unfold parseIf
  show Oks _ (next (t :: r) >>= _)
  refine Oks.next ?_
  rintro x y rfl
  refine Oks.bind (condition_sound H (.ch 58) (x :: y)) ?_
  rintro ⟨c, us⟩ ⟨d, hd, hc⟩
  refine Oks.bind (H.stmt us) ?_
  rintro ⟨s, vs⟩ hs
  dsimp only at hs hc ⊢
  refine Oks.cur ?_
  rintro e v rfl
  refine Oks.ite (fun he => ?_) fun he => .if_ ht hc hd hs he
  refine Oks.next ?_
  rintro x' y' rfl
  refine Oks.bind (H.stmt (x' :: y')) ?_
  rintro ⟨s', vs'⟩ hs'
  dsimp only at hs' ⊢
  refine Oks.cur ?_
  rintro e' v' rfl
  exact .if_else ht hc hd hs he hs'

theorem while_sound (t : Token) (r : List Token) (ht : t.kind = .kwWhile) :
    Oks (fun y => Derives flt (.stmt y.1) (t :: r) y.2) (parseWhile R (t :: r)) := by
  unfold parseWhile
  show Oks _ (next (t :: r) >>= _)
  refine Oks.next ?_
  rintro x y rfl
  refine Oks.bind (condition_sound H (.ch 58) (x :: y)) ?_
  rintro ⟨c, us⟩ ⟨d, hd, hc⟩
  refine Oks.bind (H.stmt us) ?_
  rintro ⟨s, vs⟩ hs
  dsimp only at hs hc ⊢
  refine Oks.cur ?_
  rintro e v rfl
  exact .while_ ht hc hd hs

theorem do_sound (t : Token) (r : List Token) (ht : t.kind = .kwDo) :
    Oks (fun y => Derives flt (.stmt y.1) (t :: r) y.2) (parseDo R (t :: r)) := by
  unfold parseDo
  show Oks _ (next (t :: r) >>= _)
  refine Oks.next ?_
  rintro x y rfl
  refine Oks.bind (H.stmt (x :: y)) ?_
  rintro ⟨s, vs⟩ hs
  dsimp only at hs ⊢
  refine Oks.cur ?_
  rintro w v rfl
  refine Oks.ite (fun _ => trivial) fun hw => ?_
  refine Oks.next ?_
  rintro x' y' rfl
  refine Oks.bind (condition_sound H (.ch 59) (x' :: y')) ?_
  rintro ⟨c, us⟩ ⟨d, hd, hc⟩
  dsimp only at hc ⊢
  refine Oks.cur ?_
  rintro e v' rfl
  exact .do_ ht hs (by simpa using hw) hc hd

theorem stmt_sound (ts : List Token) : Oks (fun y => Derives flt (.stmt y.1) ts y.2) (stmtBody R ts) := by
  cases ts with
  | nil => trivial
  | cons t r =>
    by_cases hx : exprStart t.kind = true
    · unfold stmtBody
      show Oks _ (if exprStart t.kind = true then _ else _)
      rw [if_pos hx]
      unfold parseExprStmt
      refine Oks.bind (condition_sound H (.ch 59) (t :: r)) ?_
      rintro ⟨e, us⟩ ⟨c, hc, he⟩
      exact .stmt_expr (by intro h; rw [h] at hx; cases hx) he hc
    · rw [stmtBody_at rfl (by simpa using hx)]
      split
      · rename_i hk; exact if_sound H t r hk
      · rename_i hk
        unfold parseBlock
        refine Oks.next ?_
        rintro x y rfl
        refine Oks.bind (H.stmts (.ch 125) (x :: y)) ?_
        rintro ⟨ss, us⟩ ⟨hs, c, v, e, hc⟩
        dsimp only at hs e ⊢
        subst e
        refine Oks.next ?_
        rintro x' y' rfl
        show Derives flt (.stmt (.comp ss (compPos ss))) _ _
        rw [compPos_eq]
        exact .block hk hs hc
      · rename_i hk
        unfold parseBreak
        show Oks _ (next (t :: r) >>= _)
        refine Oks.next ?_
        rintro s y rfl
        show Oks _ (if s.kind ≠ .ch 59 then _ else _)
        refine Oks.ite (fun _ => trivial) fun hs => ?_
        refine Oks.next ?_
        rintro x' y' rfl
        exact .brk hk (by simpa using hs)
      · rename_i hk
        unfold parseReturn
        show Oks _ (next (t :: r) >>= _)
        refine Oks.next ?_
        rintro x y rfl
        refine Oks.bind (condition_sound H (.ch 59) (x :: y)) ?_
        rintro ⟨e, us⟩ ⟨c, hc, he⟩
        exact .ret hk he hc
      · rename_i hk
        refine Oks.bind (func_sound H (t :: r) (by intro _ _ e; cases e; exact hk)) ?_
        rintro ⟨d, us⟩ hd
        exact .stmt_func hd
      · rename_i hk; exact while_sound H t r hk
      · rename_i hk; exact do_sound H t r hk
      · trivial

theorem stmts_sound (k : Kind) (ts : List Token) :
    Oks (fun y => Derives flt (.stmts k y.1) ts y.2 ∧ At k y.2) (stmtsBody R k ts) := by
  unfold stmtsBody
  refine Oks.cur ?_
  rintro t u rfl
  refine Oks.ite (fun h => ⟨.stmts_nil, _, _, rfl, h⟩) fun _ => Oks.ite (fun _ => trivial) fun _ => ?_
  refine Oks.bind (H.stmt (t :: u)) ?_
  rintro ⟨s, us⟩ hs
  refine Oks.bind (H.stmts k us) ?_
  rintro ⟨ss, r⟩ ⟨hss, ha⟩
  exact ⟨.stmts_cons hs hss, ha⟩

end

theorem recs_sound : ∀ n, Sound flt (recs flt n)
  | 0 => by constructor <;> intros <;> trivial
  | n + 1 => by
    have H := recs_sound n
    exact ⟨expr_sound H, expr2_sound H, quiet_sound, inner_sound H, assign_sound H, pre_sound H, post_sound H, items_sound H,
      args_sound H, pairs_sound H, params_sound H, stmt_sound H, stmts_sound H⟩

/-- A text that is parsed is a program of the grammar, with this tree. -/
theorem parse_sound {past : UInt8} {src : List UInt8} {ss : RStmts} (h : parse flt past src = .ok ss) :
    ∃ ts, tokenize past src = .ok ts ∧ Program flt ts ss := by
  unfold parse at h
  cases ht : tokenize past src with
  | ok ts =>
    rw [ht] at h
    refine ⟨ts, rfl, ?_⟩
    have h : ((recs flt (depth ts)).stmts .done ts >>= fun q => (.ok q.1 : Exec RStmts)) = .ok ss := h
    cases hr : (recs flt (depth ts)).stmts .done ts with
    | ok q =>
      rw [hr] at h
      cases h
      obtain ⟨hd, d, r, e, hk⟩ := ((recs_sound (flt := flt) (depth ts)).stmts .done ts).out hr
      have hT := tokenize_toks ht
      have htot := (recs_total flt (depth ts)).stmts .done ts hT (by unfold depth; omega)
      rw [hr] at htot
      have hT' : Toks q.2 := htot.1.1
      rw [e] at hT' hd
      have := hT'.last hk
      subst this
      exact ⟨d, hk, hd⟩
    | err => rw [hr] at h; cases h
    | ub => rw [hr] at h; cases h
    | diverge => rw [hr] at h; cases h
  | err => rw [ht] at h; cases h
  | ub => rw [ht] at h; cases h
  | diverge => rw [ht] at h; cases h

end

end Noja.Parse
