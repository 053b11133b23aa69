import Verif.VM.Source

/-!
# Programs over two layers

If the operations of one layer do what those of another do, up to a relation of the states and except
where the first are undefined, then so do all programs (`mean_refine`).
-/

namespace Noja.VM.Refine

variable {W V : Type} {α β : Type}

def ORef (R : W → V → Prop) (x : Out W α) (y : Out V α) : Prop :=
  match x with
  | .ub => True
  | .ok w a => ∃ v, y = .ok v a ∧ R w v
  | .err w => ∃ v, y = .err v ∧ R w v

def RRef (R : W → V → Prop) (x : Res W α) (y : Res V α) : Prop :=
  match x with
  | .ub => True
  | .ok s a => ∃ v, y = .ok ⟨v, s.funs⟩ a ∧ R s.w v
  | .err w => ∃ v, y = .err v ∧ R w v
  | .off => y = .off
  | .more => y = .more

/-- `y` does what `x` does, unless `x` is undefined. -/
def Le (R : W → V → Prop) (x : M W α) (y : M V α) : Prop := ∀ w v f, R w v → RRef R (x ⟨w, f⟩) (y ⟨v, f⟩)

/-- The operations of `K` do what those of `L` do, unless these are undefined. -/
structure LRef (R : W → V → Prop) (L : Layer W) (K : Layer V) : Prop where
  none : K.none = L.none
  tru : K.tru = L.tru
  fls : K.fls = L.fls
  pending : ∀ w v, R w v → K.pending v = L.pending w
  int : ∀ i w v, R w v → ORef R (L.int i w) (K.int i v)
  float : ∀ i w v, R w v → ORef R (L.float i w) (K.float i v)
  str : ∀ i w v, R w v → ORef R (L.str i w) (K.str i v)
  un : ∀ o a w v, R w v → ORef R (L.un o a w) (K.un o a v)
  bin : ∀ o a b w v, R w v → ORef R (L.bin o a b w) (K.bin o a b v)
  asBool : ∀ a w v, R w v → ORef R (L.asBool a w) (K.asBool a v)
  isNone : ∀ a w v, R w v → ORef R (L.isNone a w) (K.isNone a v)
  isType : ∀ a b w v, R w v → ORef R (L.isType a b w) (K.isType a b v)
  newList : ∀ n w v, R w v → ORef R (L.newList n w) (K.newList n v)
  newMap : ∀ n w v, R w v → ORef R (L.newMap n w) (K.newMap n v)
  select : ∀ a b w v, R w v → ORef R (L.select a b w) (K.select a b v)
  insert : ∀ a b c w v, R w v → ORef R (L.insert a b c w) (K.insert a b c v)
  newScope : ∀ w v, R w v → ORef R (L.newScope w) (K.newScope v)
  setVar : ∀ a b c w v, R w v → ORef R (L.setVar a b c w) (K.setVar a b c v)
  getVar : ∀ a b c w v, R w v → ORef R (L.getVar a b c w) (K.getVar a b c v)
  newFunc : ∀ a b w v, R w v → ORef R (L.newFunc a b w) (K.newFunc a b v)
  callee : ∀ a w v, R w v → ORef R (L.callee a w) (K.callee a v)
  native : ∀ a b w v, R w v → ORef R (L.native a b w) (K.native a b v)

variable {R : W → V → Prop} {L : Layer W} {K : Layer V}

theorem Le.pure (a : α) : Le R (Pure.pure a : M W α) (Pure.pure a : M V α) := fun w v f h => ⟨v, rfl, h⟩

theorem Le.undef (y : M V α) : Le R (undef : M W α) y := fun _ _ _ _ => trivial

theorem Le.off : Le R (offM : M W α) (offM : M V α) := fun _ _ _ _ => rfl

theorem Le.more : Le R (moreM : M W α) (moreM : M V α) := fun _ _ _ _ => rfl

theorem Le.fail : Le R (fail : M W α) (fail : M V α) := fun w v f h => ⟨v, rfl, h⟩

theorem Le.lift (hL : LRef R L K) {f : W → Out W α} {g : V → Out V α} (h : ∀ w v, R w v → ORef R (f w) (g v)) :
    Le R (lift L f) (lift K g) := fun w v fu hr => by
  have := h w v hr
  unfold VM.lift
  cases hf : f w with
  | ub => trivial
  | err w' =>
    rw [hf] at this
    obtain ⟨v', h1, h2⟩ := this
    simp only [h1]
    exact ⟨v', rfl, h2⟩
  | ok w' a =>
    rw [hf] at this
    obtain ⟨v', h1, h2⟩ := this
    simp only [h1]
    rw [hL.pending _ _ h2]
    cases L.pending w' with
    | true => exact rfl
    | false => exact ⟨v', rfl, h2⟩

theorem Le.addFun (r : Ref) (f : FunDef) : Le R (addFun r f) (addFun r f) := fun _ v _ h => ⟨v, rfl, h⟩

theorem Le.findFun (r : Ref) : Le R (findFun r) (findFun r) := fun _ v _ h => ⟨v, rfl, h⟩

theorem Le.bind {x : M W α} {y : M V α} {f : α → M W β} {g : α → M V β} (h : Le R x y) (hf : ∀ a, Le R (f a) (g a)) :
    Le R (x >>= f) (y >>= g) := fun w v fu hr => by
  have := h w v fu hr
  show RRef R (M.bind x f _) (M.bind y g _)
  unfold M.bind
  cases hx : x ⟨w, fu⟩ with
  | ub => trivial
  | off => rw [hx] at this; rw [show y ⟨v, fu⟩ = .off from this]; rfl
  | more => rw [hx] at this; rw [show y ⟨v, fu⟩ = .more from this]; rfl
  | err w' =>
    rw [hx] at this
    obtain ⟨v', h1, h2⟩ := this
    rw [h1]
    exact ⟨v', rfl, h2⟩
  | ok s a =>
    rw [hx] at this
    obtain ⟨v', h1, h2⟩ := this
    rw [h1]
    exact hf a s.w v' s.funs h2

theorem Le.ite {c : Prop} [Decidable c] {x x' : M W α} {y y' : M V α} (h : Le R x y) (h' : Le R x' y') :
    Le R (if c then x else x') (if c then y else y') := by
  by_cases hc : c
  · rw [if_pos hc, if_pos hc]; exact h
  · rw [if_neg hc, if_neg hc]; exact h'

theorem Le.while {c : M W Bool} {c' : M V Bool} {b : M W Ctl} {b' : M V Ctl} (hc : Le R c c') (hb : Le R b b') :
    ∀ n : Nat, Le R (whileLoop n c b) (whileLoop n c' b')
  | 0 => Le.more
  | n + 1 => by
    simp only [whileLoop]
    refine Le.bind hc fun t => Le.ite (Le.bind hb fun r => ?_) (Le.pure _)
    cases r with
    | normal => exact Le.while hc hb n
    | _ => exact Le.pure _

theorem Le.do {c : M W Bool} {c' : M V Bool} {b : M W Ctl} {b' : M V Ctl} (hc : Le R c c') (hb : Le R b b') :
    ∀ n : Nat, Le R (doLoop n c b) (doLoop n c' b')
  | 0 => Le.more
  | n + 1 => by
    simp only [doLoop]
    refine Le.bind hb fun r => ?_
    cases r with
    | normal =>
      exact Le.bind hc fun t => Le.ite (Le.do hc hb n) (Le.pure _)
    | _ => exact Le.pure _

/-- The same context over the other layer. -/
structure CtxLe (R : W → V → Prop) (c : Ctx W) (d : Ctx V) : Prop where
  L : LRef R c.L d.L
  locals : d.locals = c.locals
  closure : d.closure = c.closure
  fuel : d.fuel = c.fuel
  call : ∀ f a k, Le R (c.call f a k) (d.call f a k)

def OLe (R : W → V → Prop) : Option (M W α) → Option (M V α) → Prop
  | none, none => True
  | some x, some y => Le R x y
  | _, _ => False

theorem Le.orElse (hL : LRef R L K) (v : Ref) {d : Option (M W Ref)} {d' : Option (M V Ref)} (h : OLe R d d') :
    Le R (orElse L v d) (orElse K v d') := by
  cases d <;> cases d'
  · exact Le.pure _
  · exact h.elim
  · exact h.elim
  · exact Le.bind (Le.lift hL (hL.isNone _)) fun b => Le.ite h (Le.pure _)

theorem Le.checkArg (hL : LRef R L K) (v : Ref) {d : Option (M W Ref)} {d' : Option (M V Ref)} (h : OLe R d d') :
    Le R (checkArg L v d) (checkArg K v d') := by
  cases d <;> cases d'
  · exact Le.pure _
  · exact h.elim
  · exact h.elim
  · exact Le.bind h fun _ => Le.bind (Le.lift hL (hL.isType _ _)) fun _ => Le.ite (Le.pure _) Le.fail

theorem results_le (hL : LRef R L K) (k : Nat) (vs : List Ref) : Le R (results L k vs) (results K k vs) := by
  unfold results
  rw [hL.none]
  exact Le.ite Le.off (Le.pure _)

variable {c : Ctx W} {d : Ctx V}

mutual
theorem _root_.Noja.VM.Expr.refines (h : CtxLe R c d) : (e : Expr) → Le R (e.eval c) (e.eval d)
  | .none => by simp only [Expr.eval, h.L.none]; exact Le.pure _
  | .tru => by simp only [Expr.eval, h.L.tru]; exact Le.pure _
  | .fls => by simp only [Expr.eval, h.L.fls]; exact Le.pure _
  | .int _ => by simp only [Expr.eval]; exact Le.lift h.L (h.L.int _)
  | .float _ => by simp only [Expr.eval]; exact Le.lift h.L (h.L.float _)
  | .str _ => by simp only [Expr.eval]; exact Le.lift h.L (h.L.str _)
  | .ident _ => by simp only [Expr.eval, h.locals, h.closure]; exact Le.lift h.L (h.L.getVar _ _ _)
  | .un op a => by
    simp only [Expr.eval]
    exact Le.bind (a.refines h) fun _ => Le.ite (Le.pure _) (Le.lift h.L (h.L.un _ _))
  | .bin op a b => by
    simp only [Expr.eval]
    exact Le.bind (a.refines h) fun _ => Le.bind (b.refines h) fun _ => Le.lift h.L (h.L.bin _ _ _)
  | .and a b => by
    simp only [Expr.eval, h.L.tru, h.L.fls]
    exact Le.bind (a.refines h) fun _ => Le.bind (Le.lift h.L (h.L.asBool _)) fun _ =>
      Le.ite (Le.bind (b.refines h) fun _ => Le.bind (Le.lift h.L (h.L.asBool _)) fun _ =>
        Le.ite (Le.pure _) (Le.pure _)) (Le.pure _)
  | .or a b => by
    simp only [Expr.eval, h.L.tru, h.L.fls]
    exact Le.bind (a.refines h) fun _ => Le.bind (Le.lift h.L (h.L.asBool _)) fun _ =>
      Le.ite (Le.pure _) (Le.bind (b.refines h) fun _ => Le.bind (Le.lift h.L (h.L.asBool _)) fun _ =>
        Le.ite (Le.pure _) (Le.pure _))
  | .assign t e => by
    simp only [Expr.eval]
    exact Le.bind (e.refines h) fun v => Le.bind (t.refines h v) fun _ => Le.pure _
  | .massign t ts k => by
    simp only [Expr.eval]
    refine Le.bind (k.refines h _) fun vs => ?_
    cases vs with
    | nil => exact Le.undef _
    | cons v vs => exact Le.bind (ts.refines h vs) fun _ => Le.bind (t.refines h v) fun _ => Le.pure _
  | .list items => by
    simp only [Expr.eval]
    exact Le.bind (Le.lift h.L (h.L.newList _)) fun l => Le.bind (items.refinesFill h l 0) fun _ => Le.pure _
  | .map items => by
    simp only [Expr.eval]
    exact Le.bind (Le.lift h.L (h.L.newMap _)) fun l => Le.bind (items.refines h l) fun _ => Le.pure _
  | .call k => by
    simp only [Expr.eval]
    refine Le.bind (k.refines h 1) fun vs => ?_
    match vs with
    | [] => exact Le.undef _
    | [_] => exact Le.pure _
    | _ :: _ :: _ => exact Le.undef _
  | .select a b => by
    simp only [Expr.eval]
    exact Le.bind (a.refines h) fun _ => Le.bind (b.refines h) fun _ => Le.lift h.L (h.L.select _ _)
  | .func _ _ => by
    simp only [Expr.eval, h.locals, h.closure]
    exact Le.bind (Le.lift h.L (h.L.newFunc _ _)) fun _ => Le.bind (Le.addFun _ _) fun _ => Le.pure _
theorem _root_.Noja.VM.Target.refines (h : CtxLe R c d) : (t : Target) → (v : Ref) → Le R (t.store c v) (t.store d v)
  | .var n, v => by simp only [Target.store, h.locals]; exact Le.lift h.L (h.L.setVar _ _ _)
  | .sel a b, v => by
    simp only [Target.store]
    exact Le.bind (a.refines h) fun _ => Le.bind (b.refines h) fun _ => Le.lift h.L (h.L.insert _ _ _)
theorem _root_.Noja.VM.Targets.refines (h : CtxLe R c d) : (t : Targets) → (vs : List Ref) →
    Le R (t.store c vs) (t.store d vs)
  | .one t, [] => by simp only [Targets.store]; exact Le.undef _
  | .one t, [v] => by simp only [Targets.store]; exact t.refines h v
  | .one t, _ :: _ :: _ => by simp only [Targets.store]; exact Le.undef _
  | .cons t ts, [] => by simp only [Targets.store]; exact Le.undef _
  | .cons t ts, v :: vs => by
    simp only [Targets.store]
    exact Le.bind (ts.refines h vs) fun _ => t.refines h v
theorem _root_.Noja.VM.Call.refines (h : CtxLe R c d) : (t : Call) → (k : Nat) → Le R (t.eval c k) (t.eval d k)
  | .fn f args, k => by
    simp only [Call.eval]
    exact Le.bind (args.refines h) fun _ => Le.bind (f.refines h) fun _ => h.call _ _ _
  | .method a b args, k => by
    simp only [Call.eval]
    exact Le.bind (args.refines h) fun _ => Le.bind (a.refines h) fun _ => Le.bind (b.refines h) fun _ =>
      Le.bind (Le.lift h.L (h.L.select _ _)) fun _ => h.call _ _ _
theorem _root_.Noja.VM.Exprs.refines (h : CtxLe R c d) : (t : Exprs) → Le R (t.eval c) (t.eval d)
  | .nil => by simp only [Exprs.eval]; exact Le.pure _
  | .cons e es => by
    simp only [Exprs.eval]
    exact Le.bind (e.refines h) fun _ => Le.bind (es.refines h) fun _ => Le.pure _
theorem _root_.Noja.VM.Exprs.refinesFill (h : CtxLe R c d) : (t : Exprs) → (l : Ref) → (i : Nat) →
    Le R (t.fill c l i) (t.fill d l i)
  | .nil, _, _ => by simp only [Exprs.fill]; exact Le.pure _
  | .cons e es, l, i => by
    simp only [Exprs.fill]
    exact Le.bind (Le.lift h.L (h.L.int _)) fun _ => Le.bind (e.refines h) fun _ =>
      Le.bind (Le.lift h.L (h.L.insert _ _ _)) fun _ => es.refinesFill h l _
theorem _root_.Noja.VM.Pairs.refines (h : CtxLe R c d) : (t : Pairs) → (l : Ref) → Le R (t.fill c l) (t.fill d l)
  | .nil, _ => by simp only [Pairs.fill]; exact Le.pure _
  | .cons a b ps, l => by
    simp only [Pairs.fill]
    exact Le.bind (a.refines h) fun _ => Le.bind (b.refines h) fun _ =>
      Le.bind (Le.lift h.L (h.L.insert _ _ _)) fun _ => ps.refines h l
end

theorem _root_.Noja.VM.OExpr.refines (h : CtxLe R c d) : (t : OExpr) → OLe R (t.eval c) (t.eval d)
  | .no => by simp only [OExpr.eval]; trivial
  | .yes e => by simp only [OExpr.eval]; exact e.refines h

theorem _root_.Noja.VM.Params.refines (h : CtxLe R c d) : (t : Params) → (vs : List Ref) →
    Le R (t.bind c vs) (t.bind d vs)
  | .nil, [] => by simp only [Params.bind]; exact Le.pure _
  | .nil, _ :: _ => by simp only [Params.bind]; exact Le.undef _
  | .cons n e t ps, [] => by simp only [Params.bind]; exact Le.undef _
  | .cons n e t ps, v :: vs => by
    simp only [Params.bind, h.locals]
    exact Le.bind (Le.orElse h.L _ (e.refines h)) fun _ => Le.bind (Le.checkArg h.L _ (t.refines h)) fun _ =>
      Le.bind (Le.lift h.L (h.L.setVar _ _ _)) fun _ => ps.refines h vs

mutual
theorem _root_.Noja.VM.Stmt.refines (h : CtxLe R c d) : (t : Stmt) → Le R (t.eval c) (t.eval d)
  | .expr e => by
    simp only [Stmt.eval]
    exact Le.bind (e.refines h) fun _ => Le.pure _
  | .ifElse e t f => by
    simp only [Stmt.eval]
    exact Le.bind (e.refines h) fun _ => Le.bind (Le.lift h.L (h.L.asBool _)) fun _ => Le.ite (t.refines h) (f.refines h)
  | .ifOnly e t => by
    simp only [Stmt.eval]
    exact Le.bind (e.refines h) fun _ => Le.bind (Le.lift h.L (h.L.asBool _)) fun _ => Le.ite (t.refines h) (Le.pure _)
  | .while e s => by
    simp only [Stmt.eval, h.fuel]
    exact Le.while (Le.bind (e.refines h) fun _ => Le.lift h.L (h.L.asBool _)) (s.refines h) _
  | .doWhile s e => by
    simp only [Stmt.eval, h.fuel]
    exact Le.do (Le.bind (e.refines h) fun _ => Le.lift h.L (h.L.asBool _)) (s.refines h) _
  | .comp ss => by simp only [Stmt.eval]; exact ss.refines h
  | .ret es => by
    simp only [Stmt.eval]
    exact Le.bind (es.refines h) fun _ => Le.pure _
  | .func _ _ => by
    simp only [Stmt.eval, h.locals, h.closure]
    exact Le.bind (Le.lift h.L (h.L.newFunc _ _)) fun _ => Le.bind (Le.addFun _ _) fun _ =>
      Le.bind (Le.lift h.L (h.L.setVar _ _ _)) fun _ => Le.pure _
  | .brk => by simp only [Stmt.eval]; exact Le.pure _
theorem _root_.Noja.VM.Stmts.refines (h : CtxLe R c d) : (t : Stmts) → Le R (t.eval c) (t.eval d)
  | .nil => by simp only [Stmts.eval]; exact Le.pure _
  | .cons s ss => by
    simp only [Stmts.eval]
    refine Le.bind (s.refines h) fun r => ?_
    cases r with
    | normal => exact ss.refines h
    | _ => exact Le.pure _
end

theorem _root_.Noja.VM.FunDef.refines (h : CtxLe R c d) (f : FunDef) (args : List Ref) :
    Le R (f.run c args) (f.run d args) := by
  obtain ⟨ps, b⟩ := f
  simp only [FunDef.run]
  refine Le.bind (ps.refines h _) fun _ => Le.bind (b.refines h) fun r => ?_
  cases r with
  | brk => exact Le.undef _
  | _ => exact Le.pure _

theorem _root_.Noja.VM.Stmts.refinesRun (h : CtxLe R c d) (p : Stmts) : Le R (p.run c) (p.run d) := by
  simp only [Stmts.run, h.locals]
  refine Le.bind (p.refines h) fun r => ?_
  cases r with
  | brk => exact Le.undef _
  | _ => exact Le.pure _

theorem fit_eq (hL : LRef R L K) (n : Nat) (a : List Ref) : K.fit n a = L.fit n a := by
  unfold Layer.fit
  rw [hL.none]

theorem adapt_eq (hL : LRef R L K) (n : Option Nat) (a : List Ref) : K.adapt n a = L.adapt n a := by
  cases n with
  | none => rfl
  | some n => exact fit_eq hL n a

theorem callN_refine (hL : LRef R L K) : ∀ m f a k, Le R (callN L m f a k) (callN K m f a k)
  | 0, _, _, _ => Le.more
  | m + 1, f, a, k => by
    have ih := callN_refine hL m
    have hc : ∀ scope clo, CtxLe R ⟨L, m, callN L m, scope, clo⟩ ⟨K, m, callN K m, scope, clo⟩ :=
      fun _ _ => ⟨hL, rfl, rfl, rfl, ih⟩
    rw [callN, callN]
    refine Le.bind (Le.lift hL (hL.callee _)) fun c => ?_
    cases c with
    | no => exact Le.fail
    | noja clo =>
      refine Le.bind (Le.findFun _) fun fd => ?_
      cases fd with
      | none => exact Le.undef _
      | some fd =>
        refine Le.bind (Le.lift hL hL.newScope) fun scope => ?_
        rw [fit_eq hL]
        exact Le.bind (FunDef.refines (hc _ _) fd _) fun _ => results_le hL _ _
    | native id argc =>
      dsimp only
      rw [adapt_eq hL]
      refine Le.bind (Le.lift hL (hL.native _ _)) fun r => ?_
      cases r with
      | done vs => exact results_le hL _ _
      | load p =>
        refine Le.ite (Le.bind (Le.lift hL hL.newScope) fun scope => ?_) Le.off
        exact Le.bind (Stmts.refinesRun (hc _ _) p) fun _ => results_le hL _ _

/-- A program over the layer `K` does what it does over `L`, unless it is undefined there. -/
theorem mean_refine (hL : LRef R L K) (p : Stmts) (fuel : Nat) {w : W} {v : V} (f : Ref → Option FunDef) (hr : R w v) :
    RRef R (p.mean L fuel ⟨w, f⟩) (p.mean K fuel ⟨v, f⟩) := by
  have : Le R (p.mean L fuel) (p.mean K fuel) := by
    simp only [Stmts.mean]
    refine Le.bind (Le.lift hL hL.newScope) fun scope => ?_
    have hc : CtxLe R ⟨L, fuel, callN L fuel, scope, none⟩ ⟨K, fuel, callN K fuel, scope, none⟩ :=
      ⟨hL, rfl, rfl, rfl, callN_refine hL fuel⟩
    exact Stmts.refinesRun hc p
  exact this w v f hr

end Noja.VM.Refine
