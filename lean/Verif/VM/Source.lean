import Verif.VM.Layer

/-!
# What a program means

The meaning of a syntax tree, independently of the bytecode and of the interpreter: no instruction
indices, no evaluation stack, no frames, no limits.  A function value remembers its definition.

Fuel bounds the number of iterations of a loop and the depth of calls; everything else is
structural.

`off` marks runs about which no claim is made here, because the interpreter leaves the language:
an operation that returns normally although it reported an error, a call with more than eight
results all of which are wanted, and the import of a program that does not compile.
-/

namespace Noja.VM

structure SSt (W : Type) where
  w : W
  /-- the definitions of function objects -/
  funs : Ref → Option FunDef

inductive Res (W α : Type) where
  | ok (s : SSt W) (a : α)
  | err (w : W)
  | ub
  | off
  /-- out of fuel -/
  | more

/-- Computations on the state. -/
def M (W α : Type) : Type := SSt W → Res W α

variable {W : Type}

def M.bind {α β : Type} (x : M W α) (f : α → M W β) : M W β := fun s =>
  match x s with
  | .ok s a => f a s
  | .err w => .err w
  | .ub => .ub
  | .off => .off
  | .more => .more

instance : Monad (M W) where
  pure a := fun s => .ok s a
  bind := M.bind

def fail {α : Type} : M W α := fun s => .err s.w
def undef {α : Type} : M W α := fun _ => .ub
def offM {α : Type} : M W α := fun _ => .off
def moreM {α : Type} : M W α := fun _ => .more

/-- An operation of the object layer. -/
def lift {α : Type} (L : Layer W) (f : W → Out W α) : M W α := fun s =>
  match f s.w with
  | .ok w a => if L.pending w then .off else .ok ⟨w, s.funs⟩ a
  | .err w => .err w
  | .ub => .ub

/-- The definition of a function object. -/
def findFun (r : Ref) : M W (Option FunDef) := fun s => .ok s (s.funs r)

def addFun (r : Ref) (f : FunDef) : M W Unit := fun s =>
  .ok ⟨s.w, fun x => if x = r then some f else s.funs x⟩ ()

/-- How a statement ends. -/
inductive Ctl where
  | normal
  | brk
  | ret (vs : List Ref)

/-- Where an expression is evaluated. -/
structure Ctx (W : Type) where
  L : Layer W
  /-- loop fuel -/
  fuel : Nat
  /-- callee, arguments, number of results wanted -/
  call : Ref → List Ref → Nat → M W (List Ref)
  locals : Ref
  closure : Option Ref

/-- `while`: the condition, then the body. -/
def whileLoop : Nat → M W Bool → M W Ctl → M W Ctl
  | 0, _, _ => moreM
  | n + 1, c, b => do
    let t ← c
    if t then do
      let r ← b
      match r with
      | .normal => whileLoop n c b
      | .brk => pure .normal
      | .ret vs => pure (.ret vs)
    else pure .normal

/-- `do ... while`: the body, then the condition. -/
def doLoop : Nat → M W Bool → M W Ctl → M W Ctl
  | 0, _, _ => moreM
  | n + 1, c, b => do
    let r ← b
    match r with
    | .normal => do
      let t ← c
      if t then doLoop n c b else pure .normal
    | .brk => pure .normal
    | .ret vs => pure (.ret vs)

/-- The value of a value that may be missing. -/
def orElse (L : Layer W) (v : Ref) (d : Option (M W Ref)) : M W Ref :=
  match d with
  | none => pure v
  | some d => do
    let b ← lift L (L.isNone v)
    if b then d else pure v

/-- Fails unless the value has the type, if there is one. -/
def checkArg (L : Layer W) (v : Ref) (t : Option (M W Ref)) : M W Unit :=
  match t with
  | none => pure ()
  | some t => do
    let tv ← t
    let b ← lift L (L.isType tv v)
    if b then pure () else fail

mutual
def Expr.eval (c : Ctx W) : Expr → M W Ref
  | .none => pure c.L.none
  | .tru => pure c.L.tru
  | .fls => pure c.L.fls
  | .int v => lift c.L (c.L.int v)
  | .float x => lift c.L (c.L.float x)
  | .str s => lift c.L (c.L.str s)
  | .ident n => lift c.L (c.L.getVar c.locals c.closure n)
  | .un op a => do
    let x ← a.eval c
    if op = .pos then pure x else lift c.L (c.L.un op x)
  | .bin op a b => do
    let x ← a.eval c
    let y ← b.eval c
    lift c.L (c.L.bin op x y)
  | .and a b => do
    let x ← a.eval c
    let p ← lift c.L (c.L.asBool x)
    if p then do
      let y ← b.eval c
      let q ← lift c.L (c.L.asBool y)
      if q then pure c.L.tru else pure c.L.fls
    else pure c.L.fls
  | .or a b => do
    let x ← a.eval c
    let p ← lift c.L (c.L.asBool x)
    if p then pure c.L.tru
    else do
      let y ← b.eval c
      let q ← lift c.L (c.L.asBool y)
      if q then pure c.L.tru else pure c.L.fls
  | .assign t e => do
    let v ← e.eval c
    t.store c v
    pure v
  | .massign t ts k => do
    let vs ← k.eval c (ts.count + 1)
    match vs with
    | v :: vs => do
      ts.store c vs
      t.store c v
      pure v
    | [] => undef
  | .list items => do
    let l ← lift c.L (c.L.newList items.count)
    items.fill c l 0
    pure l
  | .map items => do
    let m ← lift c.L (c.L.newMap items.count)
    items.fill c m
    pure m
  | .call k => do
    let vs ← k.eval c 1
    match vs with
    | [v] => pure v
    | _ => undef
  | .select s i => do
    let x ← s.eval c
    let y ← i.eval c
    lift c.L (c.L.select x y)
  | .func _ f => do
    let r ← lift c.L (c.L.newFunc c.closure c.locals)
    addFun r f
    pure r
/-- Stores a value. -/
def Target.store (c : Ctx W) : Target → Ref → M W Unit
  | .var n, v => lift c.L (c.L.setVar c.locals n v)
  | .sel s i, v => do
    let x ← s.eval c
    let y ← i.eval c
    lift c.L (c.L.insert x y v)
/-- Stores values, the last one first. -/
def Targets.store (c : Ctx W) : Targets → List Ref → M W Unit
  | .one t, [v] => t.store c v
  | .cons t ts, v :: vs => do
    ts.store c vs
    t.store c v
  | _, _ => undef
/-- The given number of results of a call. -/
def Call.eval (c : Ctx W) : Call → Nat → M W (List Ref)
  | .fn f args, k => do
    let vs ← args.eval c
    let g ← f.eval c
    c.call g vs.reverse k
  | .method s i args, k => do
    let vs ← args.eval c
    let x ← s.eval c
    let y ← i.eval c
    let g ← lift c.L (c.L.select x y)
    c.call g (x :: vs.reverse) k
def Exprs.eval (c : Ctx W) : Exprs → M W (List Ref)
  | .nil => pure []
  | .cons e es => do
    let v ← e.eval c
    let vs ← es.eval c
    pure (v :: vs)
/-- Puts items into a list. -/
def Exprs.fill (c : Ctx W) (l : Ref) : Exprs → (i : Nat) → M W Unit
  | .nil, _ => pure ()
  | .cons e es, i => do
    let k ← lift c.L (c.L.int i)
    let v ← e.eval c
    lift c.L (c.L.insert l k v)
    es.fill c l (i + 1)
/-- Puts entries into a map. -/
def Pairs.fill (c : Ctx W) (m : Ref) : Pairs → M W Unit
  | .nil => pure ()
  | .cons k v ps => do
    let x ← k.eval c
    let y ← v.eval c
    lift c.L (c.L.insert m x y)
    ps.fill c m
/-- Binds parameters to arguments. -/
def Params.bind (c : Ctx W) : Params → List Ref → M W Unit
  | .nil, [] => pure ()
  | .cons n d t ps, v :: vs => do
    let v ← orElse c.L v (d.eval c)
    checkArg c.L v (t.eval c)
    lift c.L (c.L.setVar c.locals n v)
    ps.bind c vs
  | _, _ => undef
def OExpr.eval (c : Ctx W) : OExpr → Option (M W Ref)
  | .no => none
  | .yes e => some (e.eval c)
def Stmt.eval (c : Ctx W) : Stmt → M W Ctl
  | .expr e => do
    let _ ← e.eval c
    pure .normal
  | .ifElse e t f => do
    let v ← e.eval c
    let b ← lift c.L (c.L.asBool v)
    if b then t.eval c else f.eval c
  | .ifOnly e t => do
    let v ← e.eval c
    let b ← lift c.L (c.L.asBool v)
    if b then t.eval c else pure .normal
  | .while e s => whileLoop c.fuel (do let v ← e.eval c; lift c.L (c.L.asBool v)) (s.eval c)
  | .doWhile s e => doLoop c.fuel (do let v ← e.eval c; lift c.L (c.L.asBool v)) (s.eval c)
  | .comp ss => ss.eval c
  | .ret es => do
    let vs ← es.eval c
    pure (.ret vs)
  | .func n f => do
    let r ← lift c.L (c.L.newFunc c.closure c.locals)
    addFun r f
    lift c.L (c.L.setVar c.locals n r)
    pure .normal
  | .brk => pure .brk
def Stmts.eval (c : Ctx W) : Stmts → M W Ctl
  | .nil => pure .normal
  | .cons s ss => do
    let r ← s.eval c
    match r with
    | .normal => ss.eval c
    | r => pure r
end

/-- The first `k` results, missing ones being none. -/
def results (L : Layer W) (k : Nat) (vs : List Ref) : M W (List Ref) :=
  if 8 < min vs.length k then offM
  else pure (vs.take k ++ List.replicate (k - vs.length) L.none)

/-- The body of a function on arguments, given in the order of the parameters. -/
def FunDef.run (c : Ctx W) : FunDef → List Ref → M W (List Ref)
  | .mk ps b, args => do
    ps.bind c args.reverse
    let r ← b.eval c
    match r with
    | .normal => pure []
    | .ret vs => pure vs
    | .brk => undef

/-- A program: its result is what it returns, or its variables. -/
def Stmts.run (c : Ctx W) (p : Stmts) : M W (List Ref) := do
  let r ← p.eval c
  match r with
  | .normal => pure [c.locals]
  | .ret vs => pure vs
  | .brk => undef

/-- Calls nested at most `n` deep. -/
def callN (L : Layer W) : Nat → Ref → List Ref → Nat → M W (List Ref)
  | 0, _, _, _ => moreM
  | n + 1, f, args, k => do
    let c ← lift L (L.callee f)
    match c with
    | .no => fail
    | .noja clo => do
      let fd ← findFun f
      match fd with
      | none => undef
      | some fd => do
        let scope ← lift L L.newScope
        let vs ← fd.run ⟨L, n, callN L n, scope, some clo⟩ (L.fit fd.params.count args)
        results L k vs
    | .native id argc => do
      let r ← lift L (L.native id (L.adapt argc args))
      match r with
      | .done vs => results L k vs
      | .load p =>
        if p.wf false then do
          let scope ← lift L L.newScope
          let vs ← p.run ⟨L, n, callN L n, scope, none⟩
          results L k vs
        else offM

/-- The meaning of a program. -/
def Stmts.mean (L : Layer W) (fuel : Nat) (p : Stmts) : M W (List Ref) := do
  let scope ← lift L L.newScope
  p.run ⟨L, fuel, callN L fuel, scope, none⟩

end Noja.VM
