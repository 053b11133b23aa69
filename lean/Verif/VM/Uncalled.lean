import Verif.VM.Source
import Verif.VM.Objects

/-!
# Native functions that are not called and operators that are not used do not matter

If nothing undefined happens with some native functions and operators undefined, then it does not
matter what they do.  This is what allows a statement about one program to leave open what the
functions do that the program does not call.
-/

namespace Noja.VM.Uncalled

variable {W : Type} {α β : Type}

/-- `y` does what `x` does, unless `x` is undefined. -/
def Le (x y : M W α) : Prop := ∀ s, x s = .ub ∨ x s = y s

theorem Le.refl (x : M W α) : Le x x := fun _ => .inr rfl

theorem Le.trans {x y z : M W α} (h1 : Le x y) (h2 : Le y z) : Le x z := fun s => by
  rcases h1 s with h | h
  · exact .inl h
  · rw [h]; exact h2 s

theorem Le.bind {x y : M W α} {f g : α → M W β} (h : Le x y) (hf : ∀ a, Le (f a) (g a)) :
    Le (x >>= f) (y >>= g) := fun s => by
  show M.bind x f s = .ub ∨ M.bind x f s = M.bind y g s
  unfold M.bind
  rcases h s with h | h
  · rw [h]; exact .inl rfl
  · rw [h]
    cases y s with
    | ok s a => exact hf a s
    | _ => exact .inr rfl

theorem Le.ite {c : Prop} [Decidable c] {x y x' y' : M W α} (h : Le x y) (h' : Le x' y') :
    Le (if c then x else x') (if c then y else y') := by
  by_cases hc : c
  · rw [if_pos hc, if_pos hc]; exact h
  · rw [if_neg hc, if_neg hc]; exact h'

theorem Le.while {c c' : M W Bool} {b b' : M W Ctl} (hc : Le c c') (hb : Le b b') :
    ∀ n : Nat, Le (whileLoop n c b) (whileLoop n c' b')
  | 0 => Le.refl _
  | n + 1 => by
    simp only [whileLoop]
    refine Le.bind hc fun t => Le.ite (Le.bind hb fun r => ?_) (Le.refl _)
    cases r with
    | normal => exact Le.while hc hb n
    | _ => exact Le.refl _

theorem Le.do {c c' : M W Bool} {b b' : M W Ctl} (hc : Le c c') (hb : Le b b') :
    ∀ n : Nat, Le (doLoop n c b) (doLoop n c' b')
  | 0 => Le.refl _
  | n + 1 => by
    simp only [doLoop]
    refine Le.bind hb fun r => ?_
    cases r with
    | normal =>
      exact Le.bind hc fun t => Le.ite (Le.do hc hb n) (Le.refl _)
    | _ => exact Le.refl _

/-- The layer with other operators and native functions. -/
def other (L : Layer W) (b : BinOp → Ref → Ref → W → Out W Ref) (n : Nat → List Ref → W → Out W NRes) : Layer W :=
  { L with bin := b, native := n }

/-- The same context, but with other operators and native functions. -/
structure CtxLe (o : BinOp → Ref → Ref → W → Out W Ref) (n : Nat → List Ref → W → Out W NRes) (c d : Ctx W) : Prop where
  L : d.L = other c.L o n
  bin : ∀ op a b w, c.L.bin op a b w = .ub ∨ c.L.bin op a b w = o op a b w
  locals : c.locals = d.locals
  closure : c.closure = d.closure
  fuel : c.fuel = d.fuel
  call : ∀ f a k, Le (c.call f a k) (d.call f a k)

def OLe : Option (M W α) → Option (M W α) → Prop
  | none, none => True
  | some x, some y => Le x y
  | _, _ => False

theorem Le.orElse (L : Layer W) (v : Ref) {d d' : Option (M W Ref)} (h : OLe d d') :
    Le (orElse L v d) (orElse L v d') := by
  cases d <;> cases d'
  · exact Le.refl _
  · exact h.elim
  · exact h.elim
  · exact Le.bind (Le.refl _) fun b => Le.ite h (Le.refl _)

theorem Le.checkArg (L : Layer W) (v : Ref) {d d' : Option (M W Ref)} (h : OLe d d') :
    Le (checkArg L v d) (checkArg L v d') := by
  cases d <;> cases d'
  · exact Le.refl _
  · exact h.elim
  · exact h.elim
  · exact Le.bind h fun _ => Le.refl _

variable {o : BinOp → Ref → Ref → W → Out W Ref} {n : Nat → List Ref → W → Out W NRes} {c d : Ctx W}

mutual
theorem _root_.Noja.VM.Expr.same (h : CtxLe o n c d) : (e : Expr) → Le (e.eval c) (e.eval d)
  | .none => by simp only [Expr.eval, h.L]; exact Le.refl _
  | .tru => by simp only [Expr.eval, h.L]; exact Le.refl _
  | .fls => by simp only [Expr.eval, h.L]; exact Le.refl _
  | .int _ => by simp only [Expr.eval, h.L]; exact Le.refl _
  | .float _ => by simp only [Expr.eval, h.L]; exact Le.refl _
  | .str _ => by simp only [Expr.eval, h.L]; exact Le.refl _
  | .ident _ => by simp only [Expr.eval, h.L, h.locals, h.closure]; exact Le.refl _
  | .un op a => by
    simp only [Expr.eval, h.L]
    exact Le.bind (a.same h) fun _ => Le.refl _
  | .bin op a b => by
    simp only [Expr.eval, h.L]
    refine Le.bind (a.same h) fun x => Le.bind (b.same h) fun y => fun s => ?_
    show lift c.L (c.L.bin op x y) s = .ub ∨ lift c.L (c.L.bin op x y) s = lift c.L (o op x y) s
    unfold lift
    rcases h.bin op x y s.w with h | h
    · rw [h]; exact .inl rfl
    · rw [h]; exact .inr rfl
  | .and a b => by
    simp only [Expr.eval, h.L]
    exact Le.bind (a.same h) fun _ => Le.bind (Le.refl _) fun _ =>
      Le.ite (Le.bind (b.same h) fun _ => Le.refl _) (Le.refl _)
  | .or a b => by
    simp only [Expr.eval, h.L]
    exact Le.bind (a.same h) fun _ => Le.bind (Le.refl _) fun _ =>
      Le.ite (Le.refl _) (Le.bind (b.same h) fun _ => Le.refl _)
  | .assign t e => by
    simp only [Expr.eval]
    exact Le.bind (e.same h) fun v => Le.bind (t.same h v) fun _ => Le.refl _
  | .massign t ts k => by
    simp only [Expr.eval]
    refine Le.bind (k.same h _) fun vs => ?_
    cases vs with
    | nil => exact Le.refl _
    | cons v vs => exact Le.bind (ts.same h vs) fun _ => Le.bind (t.same h v) fun _ => Le.refl _
  | .list items => by
    simp only [Expr.eval, h.L]
    exact Le.bind (Le.refl _) fun l => Le.bind (items.sameFill h l 0) fun _ => Le.refl _
  | .map items => by
    simp only [Expr.eval, h.L]
    exact Le.bind (Le.refl _) fun l => Le.bind (items.same h l) fun _ => Le.refl _
  | .call k => by
    simp only [Expr.eval]
    exact Le.bind (k.same h 1) fun _ => Le.refl _
  | .select a b => by
    simp only [Expr.eval, h.L]
    exact Le.bind (a.same h) fun _ => Le.bind (b.same h) fun _ => Le.refl _
  | .func _ _ => by simp only [Expr.eval, h.L, h.locals, h.closure]; exact Le.refl _
theorem _root_.Noja.VM.Target.same (h : CtxLe o n c d) : (t : Target) → (v : Ref) → Le (t.store c v) (t.store d v)
  | .var n, v => by simp only [Target.store, h.L, h.locals]; exact Le.refl _
  | .sel a b, v => by
    simp only [Target.store, h.L]
    exact Le.bind (a.same h) fun _ => Le.bind (b.same h) fun _ => Le.refl _
theorem _root_.Noja.VM.Targets.same (h : CtxLe o n c d) : (t : Targets) → (vs : List Ref) →
    Le (t.store c vs) (t.store d vs)
  | .one t, [] => by simp only [Targets.store]; exact Le.refl _
  | .one t, [v] => by simp only [Targets.store]; exact t.same h v
  | .one t, _ :: _ :: _ => by simp only [Targets.store]; exact Le.refl _
  | .cons t ts, [] => by simp only [Targets.store]; exact Le.refl _
  | .cons t ts, v :: vs => by
    simp only [Targets.store]
    exact Le.bind (ts.same h vs) fun _ => t.same h v
theorem _root_.Noja.VM.Call.same (h : CtxLe o n c d) : (t : Call) → (k : Nat) → Le (t.eval c k) (t.eval d k)
  | .fn f args, k => by
    simp only [Call.eval]
    exact Le.bind (args.same h) fun _ => Le.bind (f.same h) fun _ => h.call _ _ _
  | .method a b args, k => by
    simp only [Call.eval, h.L]
    exact Le.bind (args.same h) fun _ => Le.bind (a.same h) fun _ => Le.bind (b.same h) fun _ =>
      Le.bind (Le.refl _) fun _ => h.call _ _ _
theorem _root_.Noja.VM.Exprs.same (h : CtxLe o n c d) : (t : Exprs) → Le (t.eval c) (t.eval d)
  | .nil => by simp only [Exprs.eval]; exact Le.refl _
  | .cons e es => by
    simp only [Exprs.eval]
    exact Le.bind (e.same h) fun _ => Le.bind (es.same h) fun _ => Le.refl _
theorem _root_.Noja.VM.Exprs.sameFill (h : CtxLe o n c d) : (t : Exprs) → (l : Ref) → (i : Nat) →
    Le (t.fill c l i) (t.fill d l i)
  | .nil, _, _ => by simp only [Exprs.fill]; exact Le.refl _
  | .cons e es, l, i => by
    simp only [Exprs.fill, h.L]
    exact Le.bind (Le.refl _) fun _ => Le.bind (e.same h) fun _ => Le.bind (Le.refl _) fun _ =>
      es.sameFill h l _
theorem _root_.Noja.VM.Pairs.same (h : CtxLe o n c d) : (t : Pairs) → (l : Ref) → Le (t.fill c l) (t.fill d l)
  | .nil, _ => by simp only [Pairs.fill]; exact Le.refl _
  | .cons a b ps, l => by
    simp only [Pairs.fill, h.L]
    exact Le.bind (a.same h) fun _ => Le.bind (b.same h) fun _ => Le.bind (Le.refl _) fun _ =>
      ps.same h l
end

theorem _root_.Noja.VM.OExpr.same (h : CtxLe o n c d) : (t : OExpr) → OLe (t.eval c) (t.eval d)
  | .no => by simp only [OExpr.eval]; trivial
  | .yes e => by simp only [OExpr.eval]; exact e.same h

theorem _root_.Noja.VM.Params.same (h : CtxLe o n c d) : (t : Params) → (vs : List Ref) →
    Le (t.bind c vs) (t.bind d vs)
  | .nil, [] => by simp only [Params.bind]; exact Le.refl _
  | .nil, _ :: _ => by simp only [Params.bind]; exact Le.refl _
  | .cons n e t ps, [] => by simp only [Params.bind]; exact Le.refl _
  | .cons n e t ps, v :: vs => by
    simp only [Params.bind, h.L, h.locals]
    exact Le.bind (Le.orElse _ _ (e.same h)) fun _ => Le.bind (Le.checkArg _ _ (t.same h)) fun _ =>
      Le.bind (Le.refl _) fun _ => ps.same h vs

mutual
theorem _root_.Noja.VM.Stmt.same (h : CtxLe o n c d) : (t : Stmt) → Le (t.eval c) (t.eval d)
  | .expr e => by
    simp only [Stmt.eval]
    exact Le.bind (e.same h) fun _ => Le.refl _
  | .ifElse e t f => by
    simp only [Stmt.eval, h.L]
    exact Le.bind (e.same h) fun _ => Le.bind (Le.refl _) fun _ => Le.ite (t.same h) (f.same h)
  | .ifOnly e t => by
    simp only [Stmt.eval, h.L]
    exact Le.bind (e.same h) fun _ => Le.bind (Le.refl _) fun _ => Le.ite (t.same h) (Le.refl _)
  | .while e s => by
    simp only [Stmt.eval, h.L, h.fuel]
    exact Le.while (Le.bind (e.same h) fun _ => Le.refl _) (s.same h) _
  | .doWhile s e => by
    simp only [Stmt.eval, h.L, h.fuel]
    exact Le.do (Le.bind (e.same h) fun _ => Le.refl _) (s.same h) _
  | .comp ss => by simp only [Stmt.eval]; exact ss.same h
  | .ret es => by
    simp only [Stmt.eval]
    exact Le.bind (es.same h) fun _ => Le.refl _
  | .func _ _ => by simp only [Stmt.eval, h.L, h.locals, h.closure]; exact Le.refl _
  | .brk => by simp only [Stmt.eval]; exact Le.refl _
theorem _root_.Noja.VM.Stmts.same (h : CtxLe o n c d) : (t : Stmts) → Le (t.eval c) (t.eval d)
  | .nil => by simp only [Stmts.eval]; exact Le.refl _
  | .cons s ss => by
    simp only [Stmts.eval]
    refine Le.bind (s.same h) fun r => ?_
    cases r with
    | normal => exact ss.same h
    | _ => exact Le.refl _
end

theorem _root_.Noja.VM.FunDef.same (h : CtxLe o n c d) (f : FunDef) (args : List Ref) :
    Le (f.run c args) (f.run d args) := by
  obtain ⟨ps, b⟩ := f
  simp only [FunDef.run]
  exact Le.bind (ps.same h _) fun _ => Le.bind (b.same h) fun _ => Le.refl _

theorem _root_.Noja.VM.Stmts.sameRun (h : CtxLe o n c d) (p : Stmts) : Le (p.run c) (p.run d) := by
  simp only [Stmts.run, h.locals]
  exact Le.bind (p.same h) fun _ => Le.refl _

theorem callN_mono (L : Layer W) (o : BinOp → Ref → Ref → W → Out W Ref) (n : Nat → List Ref → W → Out W NRes)
    (hb : ∀ op a b w, L.bin op a b w = .ub ∨ L.bin op a b w = o op a b w)
    (hn : ∀ id a w, L.native id a w = .ub ∨ L.native id a w = n id a w) :
    ∀ m f a k, Le (callN L m f a k) (callN (other L o n) m f a k)
  | 0, _, _, _ => Le.refl _
  | m + 1, f, a, k => by
    have ih := callN_mono L o n hb hn m
    have hc : ∀ scope clo, CtxLe o n ⟨L, m, callN L m, scope, clo⟩ ⟨other L o n, m, callN (other L o n) m, scope, clo⟩ :=
      fun _ _ => ⟨rfl, hb, rfl, rfl, rfl, ih⟩
    rw [callN, callN]
    refine Le.bind (Le.refl _) fun c => ?_
    cases c with
    | no => exact Le.refl _
    | noja clo =>
      refine Le.bind (Le.refl _) fun fd => ?_
      cases fd with
      | none => exact Le.refl _
      | some fd =>
        exact Le.bind (Le.refl _) fun scope => Le.bind (FunDef.same (hc _ _) fd _) fun _ => Le.refl _
    | native id argc =>
      refine Le.bind (fun s => ?_) fun r => ?_
      · show lift L (L.native id (L.adapt argc a)) s = .ub ∨ lift L (L.native id (L.adapt argc a)) s = lift L (n id (L.adapt argc a)) s
        unfold lift
        rcases hn id (L.adapt argc a) s.w with h | h
        · rw [h]; exact .inl rfl
        · rw [h]; exact .inr rfl
      · cases r with
        | done vs => exact Le.refl _
        | load p =>
          exact Le.ite (Le.bind (Le.refl _) fun scope => Le.bind (Stmts.sameRun (hc _ _) p) fun _ => Le.refl _)
            (Le.refl _)

/-- A program does the same with other operators and native functions, if those that differ are not used. -/
theorem mean_other (L : Layer W) (o : BinOp → Ref → Ref → W → Out W Ref) (n : Nat → List Ref → W → Out W NRes)
    (hb : ∀ op a b w, L.bin op a b w = .ub ∨ L.bin op a b w = o op a b w)
    (hn : ∀ id a w, L.native id a w = .ub ∨ L.native id a w = n id a w) (p : Stmts) (fuel : Nat) (s : SSt W)
    (h : p.mean L fuel s ≠ .ub) : p.mean (other L o n) fuel s = p.mean L fuel s := by
  have : Le (p.mean L fuel) (p.mean (other L o n) fuel) := by
    simp only [Stmts.mean]
    refine Le.bind (Le.refl _) fun scope => ?_
    have hc : CtxLe o n ⟨L, fuel, callN L fuel, scope, none⟩
        ⟨other L o n, fuel, callN (other L o n) fuel, scope, none⟩ :=
      ⟨rfl, hb, rfl, rfl, rfl, callN_mono L o n hb hn fuel⟩
    exact Stmts.sameRun hc p
  exact ((this s).resolve_left h).symm

end Noja.VM.Uncalled
