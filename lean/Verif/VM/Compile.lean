import Verif.VM.Ast

/-!
# Instructions and the code of a syntax tree

`compile` says which instructions `codegen.c` produces, with every label replaced by the index it
stands for; `Verif.VM.Codegen` models how `codegen.c` gets there.
-/

namespace Noja.VM

/-- `Opcode` (executable.h) with its operands. -/
inductive Instr where
  | nope
  | un (op : UnOp)
  | bin (op : BinOp)
  | ass (n : Name)
  | pop (n : Nat)
  | checkType (i : Nat) (n : Name)
  | call (argc want : Nat)
  | select
  | select2
  | insert
  | insert2
  | pushInt (v : Int)
  | pushFlt (bits : BitVec 64)
  | pushStr (s : List UInt8)
  | pushVar (n : Name)
  | pushNne
  | pushTru
  | pushFls
  | pushFun (addr argc : Nat) (name : Name)
  | pushLst (n : Nat)
  | pushMap (n : Nat)
  | pushNneTyp
  | pushTyp
  | exit
  | ret (n : Nat)
  | jump (a : Nat)
  | jumpIf (a : Nat)
  | jumpIfNot (a : Nat)
deriving DecidableEq, Repr

/-! ## Number of instructions -/

mutual
def Expr.len : Expr → Nat
  | .none | .tru | .fls | .int _ | .float _ | .str _ | .ident _ => 1
  | .un _ a => a.len + 1
  | .bin _ a b => a.len + b.len + 1
  | .and a b => a.len + b.len + 5
  | .or a b => a.len + b.len + 5
  | .assign t e => e.len + t.len
  | .massign t ts c => c.len + ts.len + 1 + t.len
  | .list items => 1 + items.lenItems
  | .map items => 1 + items.len
  | .call c => c.len
  | .select s i => s.len + i.len + 1
  | .func _ f => 2 + f.len
def Target.len : Target → Nat
  | .var _ => 1
  | .sel s i => s.len + i.len + 1
def Targets.len : Targets → Nat
  | .one t => t.len
  | .cons t ts => ts.len + 1 + t.len
def Call.len : Call → Nat
  | .fn f args => args.len + f.len + 1
  | .method s i args => args.len + s.len + i.len + 2
def Exprs.len : Exprs → Nat
  | .nil => 0
  | .cons e es => e.len + es.len
/-- items of a list literal -/
def Exprs.lenItems : Exprs → Nat
  | .nil => 0
  | .cons e es => 1 + e.len + 1 + es.lenItems
def Pairs.len : Pairs → Nat
  | .nil => 0
  | .cons k v ps => k.len + v.len + 1 + ps.len
def FunDef.len : FunDef → Nat
  | .mk ps b => ps.len + b.len + 1
def Params.len : Params → Nat
  | .nil => 0
  | .cons _ d t ps => d.lenDflt + t.lenTyp + 2 + ps.len
def OExpr.lenDflt : OExpr → Nat
  | .no => 0
  | .yes e => 5 + e.len
def OExpr.lenTyp : OExpr → Nat
  | .no => 0
  | .yes e => e.len + 1
def Stmt.len : Stmt → Nat
  | .expr e => e.len + 1
  | .ifElse c t f => c.len + 1 + t.len + 1 + f.len
  | .ifOnly c t => c.len + 1 + t.len
  | .while c b => c.len + 1 + b.len + 1
  | .doWhile b c => b.len + c.len + 1
  | .comp ss => ss.len
  | .ret es => es.len + 1
  | .func _ f => 4 + f.len
  | .brk => 1
def Stmts.len : Stmts → Nat
  | .nil => 0
  | .cons s ss => s.len + ss.len
end

/-! ## Code

`p` is the index of the first instruction, `b` where `break` goes. -/

mutual
/-- codegen.c:388-595 `emitInstrForExprNode`. -/
def Expr.code : Expr → Nat → List Instr
  | .none, _ => [.pushNne]
  | .tru, _ => [.pushTru]
  | .fls, _ => [.pushFls]
  | .int v, _ => [.pushInt v]
  | .float x, _ => [.pushFlt x]
  | .str s, _ => [.pushStr s]
  | .ident n, _ => [.pushVar n]
  | .un op a, p => a.code p ++ [.un op]
  | .bin op a b, p => a.code p ++ b.code (p + a.len) ++ [.bin op]
  | .and a b, p =>
    let no := p + a.len + 1 + b.len + 3
    a.code p ++ [.jumpIfNot no] ++ b.code (p + a.len + 1) ++ [.jumpIfNot no] ++
      [.pushTru, .jump (no + 1), .pushFls]
  | .or a b, p =>
    let yes := p + a.len + 1 + b.len + 3
    a.code p ++ [.jumpIf yes] ++ b.code (p + a.len + 1) ++ [.jumpIf yes] ++
      [.pushFls, .jump (yes + 1), .pushTru]
  | .assign t e, p => e.code p ++ t.code (p + e.len)
  | .massign t ts c, p =>
    c.code (ts.count + 1) p ++ ts.code (p + c.len) ++ [.pop 1] ++ t.code (p + c.len + ts.len + 1)
  | .list items, p => .pushLst items.count :: items.codeItems 0 (p + 1)
  | .map items, p => .pushMap items.count :: items.code (p + 1)
  | .call c, p => c.code 1 p
  | .select s i, p => s.code p ++ i.code (p + s.len) ++ [.select]
  | .func n f, p =>
    [.pushFun (p + 2) f.params.count n, .jump (p + 2 + f.len)] ++ f.code (p + 2)
/-- codegen.c:356-380, one target. -/
def Target.code : Target → Nat → List Instr
  | .var n, _ => [.ass n]
  | .sel s i, p => s.code p ++ i.code (p + s.len) ++ [.insert2]
/-- codegen.c:356-385: the last target comes first. -/
def Targets.code : Targets → Nat → List Instr
  | .one t, p => t.code p
  | .cons t ts, p => ts.code p ++ [.pop 1] ++ t.code (p + ts.len + 1)
/-- codegen.c:197-229 `emitInstrForFuncCallNode`. -/
def Call.code : Call → Nat → Nat → List Instr
  | .fn f args, k, p => args.code p ++ f.code (p + args.len) ++ [.call args.count k]
  | .method s i args, k, p =>
    args.code p ++ s.code (p + args.len) ++ i.code (p + args.len + s.len) ++
      [.select2, .call (args.count + 1) k]
def Exprs.code : Exprs → Nat → List Instr
  | .nil, _ => []
  | .cons e es, p => e.code p ++ es.code (p + e.len)
/-- codegen.c:521-548. -/
def Exprs.codeItems : Exprs → (i : Nat) → Nat → List Instr
  | .nil, _, _ => []
  | .cons e es, i, p =>
    .pushInt i :: e.code (p + 1) ++ [.insert] ++ es.codeItems (i + 1) (p + 1 + e.len + 1)
/-- codegen.c:550-571. -/
def Pairs.code : Pairs → Nat → List Instr
  | .nil, _ => []
  | .cons k v ps, p =>
    k.code p ++ v.code (p + k.len) ++ [.insert] ++ ps.code (p + k.len + v.len + 1)
/-- codegen.c:275-295, the code of the function itself. -/
def FunDef.code : FunDef → Nat → List Instr
  | .mk ps b, p => ps.code p ++ b.code none (p + ps.len) ++ [.ret 0]
/-- codegen.c:277-285; the index of the first of the remaining parameters is their number minus
one. -/
def Params.code : Params → Nat → List Instr
  | .nil, _ => []
  | .cons n d t ps, p =>
    d.codeDflt p ++ t.codeTyp ps.count n (p + d.lenDflt) ++ [.ass n, .pop 1] ++
      ps.code (p + d.lenDflt + t.lenTyp + 2)
/-- codegen.c:236-247. -/
def OExpr.codeDflt : OExpr → Nat → List Instr
  | .no, _ => []
  | .yes e, p =>
    [.pushTyp, .pushNneTyp, .bin .eql, .jumpIfNot (p + 5 + e.len), .pop 1] ++ e.code (p + 5)
/-- codegen.c:249-252. -/
def OExpr.codeTyp : OExpr → (i : Nat) → Name → Nat → List Instr
  | .no, _, _, _ => []
  | .yes e, i, n, p => e.code p ++ [.checkType i n]
/-- codegen.c:597-742 `emitInstrForNode`; an expression is followed by the `POP 1` that the
enclosing node emits. -/
def Stmt.code : Stmt → (b : Option Nat) → Nat → List Instr
  | .expr e, _, p => e.code p ++ [.pop 1]
  | .ifElse c t f, b, p =>
    let no := p + c.len + 1 + t.len + 1
    c.code p ++ [.jumpIfNot no] ++ t.code b (p + c.len + 1) ++ [.jump (no + f.len)] ++ f.code b no
  | .ifOnly c t, b, p =>
    c.code p ++ [.jumpIfNot (p + c.len + 1 + t.len)] ++ t.code b (p + c.len + 1)
  | .while c s, _, p =>
    let stop := p + c.len + 1 + s.len + 1
    c.code p ++ [.jumpIfNot stop] ++ s.code (some stop) (p + c.len + 1) ++ [.jump p]
  | .doWhile s c, _, p =>
    s.code (some (p + s.len + c.len + 1)) p ++ c.code (p + s.len) ++ [.jumpIf p]
  | .comp ss, b, p => ss.code b p
  | .ret es, _, p => es.code p ++ [.ret es.count]
  | .func n f, _, p =>
    [.pushFun (p + 2) f.params.count n, .jump (p + 2 + f.len)] ++ f.code (p + 2) ++ [.ass n, .pop 1]
  | .brk, b, _ => [.jump (b.getD 0)]
def Stmts.code : Stmts → (b : Option Nat) → Nat → List Instr
  | .nil, _, _ => []
  | .cons s ss, b, p => s.code b p ++ ss.code b (p + s.len)
end

/-- codegen.c:764-792 `codegen`; the root of a tree is a compound statement. -/
def compile (p : Stmts) : List Instr := p.code none 0 ++ [.exit]

end Noja.VM
