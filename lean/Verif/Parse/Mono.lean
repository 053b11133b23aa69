import Verif.Parse.Model

/-!
# More nesting does not change a result
-/

namespace Noja.Parse

open Noja.VM (RExpr RExprs RPairs RCall RFun RParams ROpt RStmt RStmts Pos Name UnOp BinOp)

set_option linter.unusedSimpArgs false
set_option linter.unusedVariables false

/-- The second outcome is the first, unless this is `diverge`. -/
def Le {α : Type} (x y : Exec α) : Prop := x = .diverge ∨ x = y

theorem Le.refl {α : Type} (x : Exec α) : Le x x := .inr rfl

theorem Le.bind {α β : Type} {x y : Exec α} {f g : α → Exec β} (h : Le x y) (hf : ∀ a, Le (f a) (g a)) :
    Le (x >>= f) (y >>= g) := by
  rcases h with h | h
  · subst h; exact .inl rfl
  · subst h
    cases x with
    | ok a => exact hf a
    | err => exact .inr rfl
    | ub => exact .inr rfl
    | diverge => exact .inr rfl

theorem Le.ite {α : Type} {c : Prop} [Decidable c] {x y u v : Exec α} (h1 : Le x y) (h2 : Le u v) :
    Le (if c then x else u) (if c then y else v) := by
  by_cases h : c
  · rw [if_pos h, if_pos h]; exact h1
  · rw [if_neg h, if_neg h]; exact h2

/-- `Rec`s of which one goes further. -/
structure RecLe (R S : Rec) : Prop where
  expr : ∀ a b ts, Le (R.expr a b ts) (S.expr a b ts)
  expr2 : ∀ a b l m ts, Le (R.expr2 a b l m ts) (S.expr2 a b l m ts)
  inner : ∀ a b l m ts, Le (R.inner a b l m ts) (S.inner a b l m ts)
  pre : ∀ ts, Le (R.pre ts) (S.pre ts)
  post : ∀ e ts, Le (R.post e ts) (S.post e ts)
  items : ∀ ts, Le (R.items ts) (S.items ts)
  args : ∀ e ts, Le (R.args e ts) (S.args e ts)
  pairs : ∀ ts, Le (R.pairs ts) (S.pairs ts)
  params : ∀ e ts, Le (R.params e ts) (S.params e ts)
  stmt : ∀ ts, Le (R.stmt ts) (S.stmt ts)
  stmts : ∀ e ts, Le (R.stmts e ts) (S.stmts e ts)

variable {R S : Rec} (h : RecLe R S)
include h

theorem expr2Body_le (a b : Bool) (l : RExpr) (m : Int) (ts : List Token) :
    Le (expr2Body R a b l m ts) (expr2Body S a b l m ts) := by
  unfold expr2Body
  refine .bind (.refl _) fun op => .ite (.ite (.refl _) ?_) (.refl _)
  refine .bind (.refl _) fun ts => .bind (h.pre ts) fun x => .bind (h.inner _ _ _ _ _) fun y => .bind (.refl _) fun e => ?_
  exact h.expr2 _ _ _ _ _

theorem innerBody_le (a b : Bool) (k : Kind) (l : RExpr) (ts : List Token) :
    Le (innerBody R a b k l ts) (innerBody S a b k l ts) := by
  unfold innerBody
  refine .bind (.refl _) fun t => .ite (.bind (h.expr2 _ _ _ _ _) fun x => .bind (.refl _) fun t => .ite (.refl _) ?_) (.refl _)
  exact h.inner _ _ _ _ _

theorem exprBody_le (a b : Bool) (ts : List Token) : Le (exprBody R a b ts) (exprBody S a b ts) := by
  unfold exprBody
  exact .bind (h.pre _) fun x => .bind (.refl _) fun t => .ite (.refl _) (h.expr2 _ _ _ _ _)

theorem parseList_le (ts : List Token) : Le (parseList R ts) (parseList S ts) := by
  unfold parseList
  exact .bind (.refl _) fun _ => .bind (.refl _) fun _ => .bind (.refl _) fun _ =>
    .bind (.ite (.refl _) (h.items _)) fun _ => .refl _

theorem itemsBody_le (ts : List Token) : Le (itemsBody R ts) (itemsBody S ts) := by
  unfold itemsBody
  exact .bind (h.expr _ _ _) fun _ => .bind (.refl _) fun _ => .ite (.refl _) (.ite (.refl _)
    (.bind (.refl _) fun _ => .bind (h.items _) fun _ => .refl _))

theorem parseFunc_le (ts : List Token) : Le (parseFunc R ts) (parseFunc S ts) := by
  unfold parseFunc
  exact .bind (.refl _) fun _ => .bind (.refl _) fun _ => .bind (.refl _) fun _ => .ite (.refl _)
    (.bind (.refl _) fun _ => .bind (.refl _) fun _ => .ite (.refl _) (.bind (.refl _) fun _ => .bind (.refl _) fun _ =>
      .bind (.ite (.refl _) (h.params _ _)) fun _ => .bind (.refl _) fun _ => .bind (.refl _) fun _ => .ite (.refl _)
        (.bind (h.stmt _) fun _ => .refl _)))

omit h in
theorem optional_le (k : Kind) {e f : P RExpr} (he : ∀ ts, Le (e ts) (f ts)) (ts : List Token) :
    Le (optional k e ts) (optional k f ts) := by
  unfold optional
  exact .bind (.refl _) fun _ => .ite (.bind (.refl _) fun _ => .bind (he _) fun _ => .refl _) (.refl _)

theorem paramsBody_le (argv : RParams) (ts : List Token) : Le (paramsBody R argv ts) (paramsBody S argv ts) := by
  unfold paramsBody
  exact .bind (.refl _) fun _ => .ite (.refl _) (.bind (.refl _) fun _ => .bind (optional_le _ (h.expr _ _) _) fun _ =>
    .bind (optional_le _ (h.expr _ _) _) fun _ => .bind (.refl _) fun _ => .ite (.refl _) (.ite (.refl _)
      (.bind (.refl _) fun _ => h.params _ _)))

theorem parseKey_le (ts : List Token) : Le (parseKey R ts) (parseKey S ts) := by
  unfold parseKey
  exact .bind (.refl _) fun _ => .ite (.refl _) (h.expr _ _ _)

theorem keyItem_le (ts : List Token) : Le (keyItem R ts) (keyItem S ts) := by
  unfold keyItem
  exact .bind (parseKey_le h _) fun _ => .bind (.refl _) fun _ => .ite (.refl _) (.bind (.refl _) fun _ =>
    .bind (h.expr _ _ _) fun _ => .refl _)

theorem pairsBody_le (ts : List Token) : Le (pairsBody R ts) (pairsBody S ts) := by
  unfold pairsBody
  exact .bind (.refl _) fun _ => .ite
    (.bind (parseFunc_le h _) fun _ => .bind (.refl _) fun _ => .ite (.refl _) (.bind (h.pairs _) fun _ => .refl _))
    (.bind (keyItem_le h _) fun _ => .bind (.refl _) fun _ => .ite (.refl _) (.ite (.refl _)
      (.bind (.refl _) fun _ => .bind (h.pairs _) fun _ => .refl _)))

theorem parseMap_le (ts : List Token) : Le (parseMap R ts) (parseMap S ts) := by
  unfold parseMap
  exact .bind (.refl _) fun _ => .bind (.refl _) fun _ => .bind (.refl _) fun _ => .ite (.refl _)
    (.bind (.ite (.refl _) (h.pairs _)) fun _ => .refl _)

theorem parsePrimary_le (flt : List UInt8 → Option (BitVec 64)) (ts : List Token) :
    Le (parsePrimary flt R ts) (parsePrimary flt S ts) := by
  unfold parsePrimary
  refine .bind (.refl _) fun t => ?_
  split
  · exact .bind (parseList_le h _) fun _ => .refl _
  · exact parseMap_le h _
  · exact .bind (.refl _) fun _ => .bind (h.expr _ _ _) fun _ => .refl _
  all_goals exact .refl _

theorem argsBody_le (argv : RExprs) (ts : List Token) : Le (argsBody R argv ts) (argsBody S argv ts) := by
  unfold argsBody
  exact .bind (h.expr _ _ _) fun _ => .bind (.refl _) fun _ => .ite (.refl _) (.ite (.refl _)
    (.bind (.refl _) fun _ => h.args _ _))

theorem parseIndex_le (node : RExpr) (ts : List Token) : Le (parseIndex R node ts) (parseIndex S node ts) := by
  unfold parseIndex
  exact .bind (parseList_le h _) fun _ => .refl _

theorem parseCall_le (node : RExpr) (ts : List Token) : Le (parseCall R node ts) (parseCall S node ts) := by
  unfold parseCall
  exact .bind (.refl _) fun _ => .bind (.refl _) fun _ => .bind (.refl _) fun _ =>
    .bind (.ite (.refl _) (h.args _ _)) fun _ => .refl _

theorem postBody_le (node : RExpr) (ts : List Token) : Le (postBody R node ts) (postBody S node ts) := by
  unfold postBody
  refine .bind (.refl _) fun t => ?_
  split
  · exact .bind (.refl _) fun _ => h.post _ _
  · exact .bind (.refl _) fun _ => h.post _ _
  · exact .bind (parseIndex_le h _ _) fun _ => h.post _ _
  · exact .bind (parseCall_le h _ _) fun _ => h.post _ _
  · exact .refl _

theorem preBody_le (flt : List UInt8 → Option (BitVec 64)) (ts : List Token) : Le (preBody flt R ts) (preBody flt S ts) := by
  unfold preBody
  refine .bind (.refl _) fun t => ?_
  split
  · exact .bind (.refl _) fun _ => .bind (h.pre _) fun _ => .refl _
  · exact .bind (parsePrimary_le h flt _) fun _ => h.post _ _

theorem condition_le (k : Kind) (ts : List Token) : Le (condition R k ts) (condition S k ts) := by
  unfold condition
  exact .bind (h.expr _ _ _) fun _ => .refl _

theorem parseIf_le (ts : List Token) : Le (parseIf R ts) (parseIf S ts) := by
  unfold parseIf
  exact .bind (.refl _) fun _ => .bind (.refl _) fun _ => .bind (condition_le h _ _) fun _ => .bind (h.stmt _) fun _ =>
    .bind (.refl _) fun _ => .ite (.bind (.refl _) fun _ => .bind (h.stmt _) fun _ => .refl _) (.refl _)

theorem parseWhile_le (ts : List Token) : Le (parseWhile R ts) (parseWhile S ts) := by
  unfold parseWhile
  exact .bind (.refl _) fun _ => .bind (.refl _) fun _ => .bind (condition_le h _ _) fun _ => .bind (h.stmt _) fun _ => .refl _

theorem parseDo_le (ts : List Token) : Le (parseDo R ts) (parseDo S ts) := by
  unfold parseDo
  exact .bind (.refl _) fun _ => .bind (.refl _) fun _ => .bind (h.stmt _) fun _ => .bind (.refl _) fun _ =>
    .ite (.refl _) (.bind (.refl _) fun _ => .bind (condition_le h _ _) fun _ => .refl _)

theorem stmtsBody_le (fin : Kind) (ts : List Token) : Le (stmtsBody R fin ts) (stmtsBody S fin ts) := by
  unfold stmtsBody
  exact .bind (.refl _) fun _ => .ite (.refl _) (.ite (.refl _) (.bind (h.stmt _) fun _ => .bind (h.stmts _ _) fun _ => .refl _))

theorem stmtBody_le (ts : List Token) : Le (stmtBody R ts) (stmtBody S ts) := by
  unfold stmtBody
  refine .bind (.refl _) fun t => .ite (.bind (condition_le h _ _) fun _ => .refl _) ?_
  split
  · exact parseIf_le h _
  · exact .bind (.refl _) fun _ => .bind (h.stmts _ _) fun _ => .refl _
  · exact .refl _
  · exact .bind (.refl _) fun _ => .bind (.refl _) fun _ => .bind (condition_le h _ _) fun _ => .refl _
  · exact .bind (parseFunc_le h _) fun _ => .refl _
  · exact parseWhile_le h _
  · exact parseDo_le h _
  · exact .refl _

omit h in
theorem recs_le (flt : List UInt8 → Option (BitVec 64)) : ∀ n, RecLe (recs flt n) (recs flt (n + 1))
  | 0 => by constructor <;> intros <;> exact .inl rfl
  | n + 1 => by
    have ih := recs_le flt n
    exact ⟨exprBody_le ih, expr2Body_le ih, innerBody_le ih, preBody_le ih flt, postBody_le ih, itemsBody_le ih,
      argsBody_le ih, pairsBody_le ih, paramsBody_le ih, stmtBody_le ih, stmtsBody_le ih⟩

/-- The outcome with enough nesting. -/
def Ev {α : Type} (f : Nat → Exec α) (x : Exec α) : Prop := ∃ n, ∀ m, n ≤ m → f m = x

omit h in
theorem Ev.unique {α : Type} {f : Nat → Exec α} {x y : Exec α} (h1 : Ev f x) (h2 : Ev f y) : x = y := by
  obtain ⟨n, h1⟩ := h1
  obtain ⟨m, h2⟩ := h2
  rw [← h1 (n + m) (by omega), h2 (n + m) (by omega)]

omit h in
theorem Ev.of_le {α : Type} {f : Nat → Exec α} (hf : ∀ n, Le (f n) (f (n + 1))) {n : Nat} {x : Exec α} (h : f n = x)
    (hx : x ≠ .diverge) : Ev f x := by
  refine ⟨n, fun m hm => ?_⟩
  obtain ⟨d, rfl⟩ := Nat.exists_eq_add_of_le hm
  clear hm
  induction d with
  | zero => exact h
  | succ d ih =>
    rcases hf (n + d) with h' | h'
    · rw [h'] at ih; exact absurd ih.symm hx
    · rw [← Nat.add_assoc, ← h', ih]

omit h in
theorem Ev.const {α : Type} (x : Exec α) : Ev (fun _ => x) x := ⟨0, fun _ _ => rfl⟩

omit h in
theorem Ev.bind {α β : Type} {f : Nat → Exec α} {g : α → Nat → Exec β} {a : α} {x : Exec β} (h1 : Ev f (.ok a))
    (h2 : Ev (g a) x) : Ev (fun n => f n >>= fun a => g a n) x := by
  obtain ⟨n, h1⟩ := h1
  obtain ⟨m, h2⟩ := h2
  refine ⟨n + m, fun k hk => ?_⟩
  show (f k >>= fun a => g a k) = x
  rw [h1 k (by omega)]
  exact h2 k (by omega)

omit h in
theorem Ev.bind_err {α β : Type} {f : Nat → Exec α} {g : α → Nat → Exec β} (h1 : Ev f .err) :
    Ev (fun n => f n >>= fun a => g a n) .err := by
  obtain ⟨n, h1⟩ := h1
  refine ⟨n, fun k hk => ?_⟩
  show (f k >>= fun a => g a k) = _
  rw [h1 k hk]; rfl

omit h in
/-- One level of nesting. -/
theorem Ev.succ {α : Type} {f : Nat → Exec α} {g : Nat → Exec α} {x : Exec α} (e : ∀ n, f (n + 1) = g n) (h : Ev g x) :
    Ev f x := by
  obtain ⟨n, h⟩ := h
  refine ⟨n + 1, fun m hm => ?_⟩
  obtain ⟨k, rfl⟩ : ∃ k, m = k + 1 := ⟨m - 1, by omega⟩
  rw [e]; exact h k (by omega)

omit h in
theorem Ev.pred {α : Type} {f : Nat → Exec α} {g : Nat → Exec α} {x : Exec α} (e : ∀ n, f (n + 1) = g n) (h : Ev f x) :
    Ev g x := by
  obtain ⟨n, h⟩ := h
  exact ⟨n, fun m hm => by rw [← e]; exact h _ (by omega)⟩

end Noja.Parse
