import Verif.VM.Source

/-! # More fuel does not change what a program does -/

namespace Noja.VM

variable {W : Type} {α β : Type}

/-- `y` does what `x` does, unless `x` runs out of fuel. -/
def Le (x y : M W α) : Prop := ∀ s, x s = .more ∨ x s = y s

theorem Le.refl (x : M W α) : Le x x := fun _ => .inr rfl

theorem Le.trans {x y z : M W α} (h1 : Le x y) (h2 : Le y z) : Le x z := fun s => by
  rcases h1 s with h | h
  · exact .inl h
  · rw [h]; exact h2 s

theorem Le.bind {x y : M W α} {f g : α → M W β} (h : Le x y) (hf : ∀ a, Le (f a) (g a)) :
    Le (x >>= f) (y >>= g) := fun s => by
  show M.bind x f s = .more ∨ M.bind x f s = M.bind y g s
  unfold M.bind
  rcases h s with h | h
  · rw [h]; exact .inl rfl
  · rw [h]
    cases y s with
    | ok s a => exact hf a s
    | _ => exact .inr rfl

theorem Le.ite {c : Prop} [Decidable c] {x y x' y' : M W α} (h : Le x y) (h' : Le x' y') :
    Le (if c then x else x') (if c then y else y') := by
  by_cases hc : c
  · rw [if_pos hc, if_pos hc]; exact h
  · rw [if_neg hc, if_neg hc]; exact h'

theorem Le.while {c c' : M W Bool} {b b' : M W Ctl} (hc : Le c c') (hb : Le b b') :
    ∀ {m n : Nat}, m ≤ n → Le (whileLoop m c b) (whileLoop n c' b')
  | 0, _, _ => fun _ => .inl rfl
  | m + 1, n + 1, h => by
    simp only [whileLoop]
    refine Le.bind hc fun t => Le.ite (Le.bind hb fun r => ?_) (Le.refl _)
    cases r with
    | normal => exact Le.while hc hb (by omega)
    | _ => exact Le.refl _

theorem Le.do {c c' : M W Bool} {b b' : M W Ctl} (hc : Le c c') (hb : Le b b') :
    ∀ {m n : Nat}, m ≤ n → Le (doLoop m c b) (doLoop n c' b')
  | 0, _, _ => fun _ => .inl rfl
  | m + 1, n + 1, h => by
    simp only [doLoop]
    refine Le.bind hb fun r => ?_
    cases r with
    | normal =>
      exact Le.bind hc fun t => Le.ite (Le.do hc hb (by omega)) (Le.refl _)
    | _ => exact Le.refl _

/-- A context with at least as much fuel. -/
structure CtxLe (c d : Ctx W) : Prop where
  L : c.L = d.L
  locals : c.locals = d.locals
  closure : c.closure = d.closure
  fuel : c.fuel ≤ d.fuel
  call : ∀ f a k, Le (c.call f a k) (d.call f a k)

def OLe : Option (M W α) → Option (M W α) → Prop
  | none, none => True
  | some x, some y => Le x y
  | _, _ => False

theorem Le.orElse (L : Layer W) (v : Ref) {d d' : Option (M W Ref)} (h : OLe d d') :
    Le (orElse L v d) (orElse L v d') := by
  cases d <;> cases d'
  · exact Le.refl _
  · exact h.elim
  · exact h.elim
  · exact Le.bind (Le.refl _) fun b => Le.ite h (Le.refl _)

theorem Le.checkArg (L : Layer W) (v : Ref) {d d' : Option (M W Ref)} (h : OLe d d') :
    Le (checkArg L v d) (checkArg L v d') := by
  cases d <;> cases d'
  · exact Le.refl _
  · exact h.elim
  · exact h.elim
  · exact Le.bind h fun _ => Le.refl _

variable {c d : Ctx W}

mutual
theorem Expr.mono (h : CtxLe c d) : (e : Expr) → Le (e.eval c) (e.eval d)
  | .none => by simp only [Expr.eval, h.L]; exact Le.refl _
  | .tru => by simp only [Expr.eval, h.L]; exact Le.refl _
  | .fls => by simp only [Expr.eval, h.L]; exact Le.refl _
  | .int _ => by simp only [Expr.eval, h.L]; exact Le.refl _
  | .float _ => by simp only [Expr.eval, h.L]; exact Le.refl _
  | .str _ => by simp only [Expr.eval, h.L]; exact Le.refl _
  | .ident _ => by simp only [Expr.eval, h.L, h.locals, h.closure]; exact Le.refl _
  | .un op a => by
    simp only [Expr.eval, h.L]
    exact Le.bind (a.mono h) fun _ => Le.refl _
  | .bin op a b => by
    simp only [Expr.eval, h.L]
    exact Le.bind (a.mono h) fun _ => Le.bind (b.mono h) fun _ => Le.refl _
  | .and a b => by
    simp only [Expr.eval, h.L]
    exact Le.bind (a.mono h) fun _ => Le.bind (Le.refl _) fun _ =>
      Le.ite (Le.bind (b.mono h) fun _ => Le.refl _) (Le.refl _)
  | .or a b => by
    simp only [Expr.eval, h.L]
    exact Le.bind (a.mono h) fun _ => Le.bind (Le.refl _) fun _ =>
      Le.ite (Le.refl _) (Le.bind (b.mono h) fun _ => Le.refl _)
  | .assign t e => by
    simp only [Expr.eval]
    exact Le.bind (e.mono h) fun v => Le.bind (t.mono h v) fun _ => Le.refl _
  | .massign t ts k => by
    simp only [Expr.eval]
    refine Le.bind (k.mono h _) fun vs => ?_
    cases vs with
    | nil => exact Le.refl _
    | cons v vs => exact Le.bind (ts.mono h vs) fun _ => Le.bind (t.mono h v) fun _ => Le.refl _
  | .list items => by
    simp only [Expr.eval, h.L]
    exact Le.bind (Le.refl _) fun l => Le.bind (items.monoFill h l 0) fun _ => Le.refl _
  | .map items => by
    simp only [Expr.eval, h.L]
    exact Le.bind (Le.refl _) fun l => Le.bind (items.mono h l) fun _ => Le.refl _
  | .call k => by
    simp only [Expr.eval]
    exact Le.bind (k.mono h 1) fun _ => Le.refl _
  | .select a b => by
    simp only [Expr.eval, h.L]
    exact Le.bind (a.mono h) fun _ => Le.bind (b.mono h) fun _ => Le.refl _
  | .func _ _ => by simp only [Expr.eval, h.L, h.locals, h.closure]; exact Le.refl _
theorem Target.mono (h : CtxLe c d) : (t : Target) → (v : Ref) → Le (t.store c v) (t.store d v)
  | .var n, v => by simp only [Target.store, h.L, h.locals]; exact Le.refl _
  | .sel a b, v => by
    simp only [Target.store, h.L]
    exact Le.bind (a.mono h) fun _ => Le.bind (b.mono h) fun _ => Le.refl _
theorem Targets.mono (h : CtxLe c d) : (t : Targets) → (vs : List Ref) →
    Le (t.store c vs) (t.store d vs)
  | .one t, [] => by simp only [Targets.store]; exact Le.refl _
  | .one t, [v] => by simp only [Targets.store]; exact t.mono h v
  | .one t, _ :: _ :: _ => by simp only [Targets.store]; exact Le.refl _
  | .cons t ts, [] => by simp only [Targets.store]; exact Le.refl _
  | .cons t ts, v :: vs => by
    simp only [Targets.store]
    exact Le.bind (ts.mono h vs) fun _ => t.mono h v
theorem Call.mono (h : CtxLe c d) : (t : Call) → (k : Nat) → Le (t.eval c k) (t.eval d k)
  | .fn f args, k => by
    simp only [Call.eval]
    exact Le.bind (args.mono h) fun _ => Le.bind (f.mono h) fun _ => h.call _ _ _
  | .method a b args, k => by
    simp only [Call.eval, h.L]
    exact Le.bind (args.mono h) fun _ => Le.bind (a.mono h) fun _ => Le.bind (b.mono h) fun _ =>
      Le.bind (Le.refl _) fun _ => h.call _ _ _
theorem Exprs.mono (h : CtxLe c d) : (t : Exprs) → Le (t.eval c) (t.eval d)
  | .nil => by simp only [Exprs.eval]; exact Le.refl _
  | .cons e es => by
    simp only [Exprs.eval]
    exact Le.bind (e.mono h) fun _ => Le.bind (es.mono h) fun _ => Le.refl _
theorem Exprs.monoFill (h : CtxLe c d) : (t : Exprs) → (l : Ref) → (i : Nat) →
    Le (t.fill c l i) (t.fill d l i)
  | .nil, _, _ => by simp only [Exprs.fill]; exact Le.refl _
  | .cons e es, l, i => by
    simp only [Exprs.fill, h.L]
    exact Le.bind (Le.refl _) fun _ => Le.bind (e.mono h) fun _ => Le.bind (Le.refl _) fun _ =>
      es.monoFill h l _
theorem Pairs.mono (h : CtxLe c d) : (t : Pairs) → (l : Ref) → Le (t.fill c l) (t.fill d l)
  | .nil, _ => by simp only [Pairs.fill]; exact Le.refl _
  | .cons a b ps, l => by
    simp only [Pairs.fill, h.L]
    exact Le.bind (a.mono h) fun _ => Le.bind (b.mono h) fun _ => Le.bind (Le.refl _) fun _ =>
      ps.mono h l
end

theorem OExpr.mono (h : CtxLe c d) : (t : OExpr) → OLe (t.eval c) (t.eval d)
  | .no => by simp only [OExpr.eval]; trivial
  | .yes e => by simp only [OExpr.eval]; exact e.mono h

theorem Params.mono (h : CtxLe c d) : (t : Params) → (vs : List Ref) →
    Le (t.bind c vs) (t.bind d vs)
  | .nil, [] => by simp only [Params.bind]; exact Le.refl _
  | .nil, _ :: _ => by simp only [Params.bind]; exact Le.refl _
  | .cons n e t ps, [] => by simp only [Params.bind]; exact Le.refl _
  | .cons n e t ps, v :: vs => by
    simp only [Params.bind, h.L, h.locals]
    exact Le.bind (Le.orElse _ _ (e.mono h)) fun _ => Le.bind (Le.checkArg _ _ (t.mono h)) fun _ =>
      Le.bind (Le.refl _) fun _ => ps.mono h vs

mutual
theorem Stmt.mono (h : CtxLe c d) : (t : Stmt) → Le (t.eval c) (t.eval d)
  | .expr e => by
    simp only [Stmt.eval]
    exact Le.bind (e.mono h) fun _ => Le.refl _
  | .ifElse e t f => by
    simp only [Stmt.eval, h.L]
    exact Le.bind (e.mono h) fun _ => Le.bind (Le.refl _) fun _ => Le.ite (t.mono h) (f.mono h)
  | .ifOnly e t => by
    simp only [Stmt.eval, h.L]
    exact Le.bind (e.mono h) fun _ => Le.bind (Le.refl _) fun _ => Le.ite (t.mono h) (Le.refl _)
  | .while e s => by
    simp only [Stmt.eval, h.L]
    exact Le.while (Le.bind (e.mono h) fun _ => Le.refl _) (s.mono h) h.fuel
  | .doWhile s e => by
    simp only [Stmt.eval, h.L]
    exact Le.do (Le.bind (e.mono h) fun _ => Le.refl _) (s.mono h) h.fuel
  | .comp ss => by simp only [Stmt.eval]; exact ss.mono h
  | .ret es => by
    simp only [Stmt.eval]
    exact Le.bind (es.mono h) fun _ => Le.refl _
  | .func _ _ => by simp only [Stmt.eval, h.L, h.locals, h.closure]; exact Le.refl _
  | .brk => by simp only [Stmt.eval]; exact Le.refl _
theorem Stmts.mono (h : CtxLe c d) : (t : Stmts) → Le (t.eval c) (t.eval d)
  | .nil => by simp only [Stmts.eval]; exact Le.refl _
  | .cons s ss => by
    simp only [Stmts.eval]
    refine Le.bind (s.mono h) fun r => ?_
    cases r with
    | normal => exact ss.mono h
    | _ => exact Le.refl _
end

theorem FunDef.mono (h : CtxLe c d) (f : FunDef) (args : List Ref) :
    Le (f.run c args) (f.run d args) := by
  obtain ⟨ps, b⟩ := f
  simp only [FunDef.run]
  exact Le.bind (ps.mono h _) fun _ => Le.bind (b.mono h) fun _ => Le.refl _

theorem Stmts.monoRun (h : CtxLe c d) (p : Stmts) : Le (p.run c) (p.run d) := by
  simp only [Stmts.run, h.locals]
  exact Le.bind (p.mono h) fun _ => Le.refl _

theorem callN_mono (L : Layer W) : ∀ n f a k, Le (callN L n f a k) (callN L (n + 1) f a k)
  | 0, _, _, _ => fun _ => .inl rfl
  | n + 1, f, a, k => by
    have ih := callN_mono L n
    have hc : ∀ scope clo, CtxLe ⟨L, n, callN L n, scope, clo⟩ ⟨L, n + 1, callN L (n + 1), scope, clo⟩ :=
      fun _ _ => ⟨rfl, rfl, rfl, Nat.le_succ _, ih⟩
    rw [callN, callN]
    refine Le.bind (Le.refl _) fun c => ?_
    cases c with
    | no => exact Le.refl _
    | noja clo =>
      refine Le.bind (Le.refl _) fun fd => ?_
      cases fd with
      | none => exact Le.refl _
      | some fd =>
        exact Le.bind (Le.refl _) fun scope => Le.bind (fd.mono (hc _ _) _) fun _ => Le.refl _
    | native id argc =>
      refine Le.bind (Le.refl _) fun r => ?_
      cases r with
      | done vs => exact Le.refl _
      | load p =>
        exact Le.ite (Le.bind (Le.refl _) fun scope => Le.bind (p.monoRun (hc _ _)) fun _ => Le.refl _)
          (Le.refl _)

theorem mean_mono (L : Layer W) (p : Stmts) {m n : Nat} (h : m ≤ n) : Le (p.mean L m) (p.mean L n) := by
  induction h with
  | refl => exact Le.refl _
  | step _ ih =>
    refine ih.trans ?_
    simp only [Stmts.mean]
    refine Le.bind (Le.refl _) fun scope => p.monoRun ?_
    constructor
    · rfl
    · rfl
    · rfl
    · exact Nat.le_succ _
    · exact callN_mono L _

/-- What a program does does not depend on the fuel, once there is enough. -/
theorem mean_unique (L : Layer W) (p : Stmts) (s : SSt W) {m n : Nat}
    (hm : p.mean L m s ≠ .more) (hn : p.mean L n s ≠ .more) : p.mean L m s = p.mean L n s := by
  rcases Nat.le_total m n with h | h
  · exact (mean_mono L p h s).resolve_left hm
  · exact ((mean_mono L p h s).resolve_left hn).symm

end Noja.VM
