/-!
# Syntax trees

The trees that `codegen.c` walks (`ASTi.h`), once the checks that `codegen.c` makes on their shape
have passed; the trees as the parser builds them, and these checks, are in `Verif.VM.Raw`.

As in the C code, the arguments of a call and the parameters of a function are listed from the
last to the first (parse.c:1551 and parse.c:2061 prepend to the list).
-/

namespace Noja.VM

abbrev Name := List UInt8

/-- Operators with one operand (`EXPR_NULLABLETYPE`, `EXPR_NOT`, `EXPR_NEG`, `EXPR_POS`). -/
inductive UnOp where
  | nlb | not | neg | pos
deriving DecidableEq, Repr

/-- Operators with two operands that are evaluated both. -/
inductive BinOp where
  | sum | add | sub | mul | div | mod | eql | nql | lss | leq | grt | geq
deriving DecidableEq, Repr

mutual
inductive Expr where
  | none
  | tru
  | fls
  | int (v : Int)
  | float (bits : BitVec 64)
  | str (s : List UInt8)
  | ident (n : Name)
  | un (op : UnOp) (a : Expr)
  | bin (op : BinOp) (a b : Expr)
  | and (a b : Expr)
  | or (a b : Expr)
  /-- `t = e` -/
  | assign (t : Target) (e : Expr)
  /-- `t1, ..., tn = f(...)` with `n ≥ 2` -/
  | massign (t : Target) (ts : Targets) (c : Call)
  | list (items : Exprs)
  | map (items : Pairs)
  | call (c : Call)
  | select (set idx : Expr)
  | func (name : Name) (f : FunDef)
/-- What can be assigned to. -/
inductive Target where
  | var (n : Name)
  | sel (set idx : Expr)
/-- One or more targets, from the first to the last. -/
inductive Targets where
  | one (t : Target)
  | cons (t : Target) (ts : Targets)
/-- `f(args)` and `set->idx(args)`. -/
inductive Call where
  | fn (f : Expr) (args : Exprs)
  | method (set idx : Expr) (args : Exprs)
inductive Exprs where
  | nil
  | cons (e : Expr) (es : Exprs)
inductive Pairs where
  | nil
  | cons (key item : Expr) (ps : Pairs)
inductive FunDef where
  | mk (params : Params) (body : Stmt)
/-- Parameters: name, default value, type annotation. -/
inductive Params where
  | nil
  | cons (n : Name) (dflt typ : OExpr) (ps : Params)
inductive OExpr where
  | no
  | yes (e : Expr)
inductive Stmt where
  | expr (e : Expr)
  | ifElse (c : Expr) (t f : Stmt)
  | ifOnly (c : Expr) (t : Stmt)
  | while (c : Expr) (b : Stmt)
  | doWhile (b : Stmt) (c : Expr)
  | comp (ss : Stmts)
  | ret (es : Exprs)
  | func (n : Name) (f : FunDef)
  | brk
inductive Stmts where
  | nil
  | cons (s : Stmt) (ss : Stmts)
end

/-- `count` in `emitInstrForAssignmentNode`. -/
def Targets.count : Targets → Nat
  | .one _ => 1
  | .cons _ ts => ts.count + 1

def Exprs.count : Exprs → Nat
  | .nil => 0
  | .cons _ es => es.count + 1

def Pairs.count : Pairs → Nat
  | .nil => 0
  | .cons _ _ ps => ps.count + 1

def Params.count : Params → Nat
  | .nil => 0
  | .cons _ _ _ ps => ps.count + 1

def FunDef.params : FunDef → Params | .mk ps _ => ps
def FunDef.body : FunDef → Stmt | .mk _ b => b

/-! ## Where `break` may stand -/

mutual
/-- Every `break` is inside a loop of the same function. -/
def Expr.wf : Expr → Bool
  | .none | .tru | .fls | .int _ | .float _ | .str _ | .ident _ => true
  | .un _ a => a.wf
  | .bin _ a b => a.wf && b.wf
  | .and a b => a.wf && b.wf
  | .or a b => a.wf && b.wf
  | .assign t e => t.wf && e.wf
  | .massign t ts c => t.wf && ts.wf && c.wf
  | .list items => items.wf
  | .map items => items.wf
  | .call c => c.wf
  | .select s i => s.wf && i.wf
  | .func _ f => f.wf
def Target.wf : Target → Bool
  | .var _ => true
  | .sel s i => s.wf && i.wf
def Targets.wf : Targets → Bool
  | .one t => t.wf
  | .cons t ts => t.wf && ts.wf
def Call.wf : Call → Bool
  | .fn f args => f.wf && args.wf
  | .method s i args => s.wf && i.wf && args.wf
def Exprs.wf : Exprs → Bool
  | .nil => true
  | .cons e es => e.wf && es.wf
def Pairs.wf : Pairs → Bool
  | .nil => true
  | .cons k v ps => k.wf && v.wf && ps.wf
def FunDef.wf : FunDef → Bool
  | .mk ps b => ps.wf && b.wf false
def Params.wf : Params → Bool
  | .nil => true
  | .cons _ d t ps => d.wf && t.wf && ps.wf
def OExpr.wf : OExpr → Bool
  | .no => true
  | .yes e => e.wf
def Stmt.wf : Stmt → Bool → Bool
  | .expr e, _ => e.wf
  | .ifElse c t f, l => c.wf && t.wf l && f.wf l
  | .ifOnly c t, l => c.wf && t.wf l
  | .while c b, _ => c.wf && b.wf true
  | .doWhile b c, _ => b.wf true && c.wf
  | .comp ss, l => ss.wf l
  | .ret es, _ => es.wf
  | .func _ f, _ => f.wf
  | .brk, l => l
def Stmts.wf : Stmts → Bool → Bool
  | .nil, _ => true
  | .cons s ss, l => s.wf l && ss.wf l
end

end Noja.VM
