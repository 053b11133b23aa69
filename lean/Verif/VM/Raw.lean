import Verif.VM.Compile
import Verif.Exe.Builder
import Verif.Exec

/-!
# Syntax trees as the parser builds them, and `codegen.c`

`RExpr`, `RStmt`, ... are the nodes of `ASTi.h` with their positions.  A call whose callee is an
`EXPR_ARW` node is `RCall.method`, any other call is `RCall.fn`; a tree of which the callee in `fn`
is an `arw` does not stand for a tree of the C program.

Simplification: memory exhaustion is not modelled.
-/

namespace Noja.VM

open Noja.Exe (Opcode Opd Ev)

/-- `offset` and `length` of a node. -/
structure Pos where
  off : Int
  len : Int
deriving DecidableEq, Repr

mutual
/-- ASTi.h `ExprNode` -/
inductive RExpr where
  | none (p : Pos)
  | tru (p : Pos)
  | fls (p : Pos)
  | int (v : Int) (p : Pos)
  | float (bits : BitVec 64) (p : Pos)
  | str (s : List UInt8) (p : Pos)
  | ident (n : Name) (p : Pos)
  | un (op : UnOp) (a : RExpr) (p : Pos)
  | bin (op : BinOp) (a b : RExpr) (p : Pos)
  | and (a b : RExpr) (p : Pos)
  | or (a b : RExpr) (p : Pos)
  | ass (l r : RExpr) (p : Pos)
  | pair (a b : RExpr) (p : Pos)
  | arw (set idx : RExpr) (p : Pos)
  | list (items : RExprs) (p : Pos)
  | map (items : RPairs) (p : Pos)
  | call (c : RCall) (p : Pos)
  | select (set idx : RExpr) (p : Pos)
  | func (f : RFun) (p : Pos)
/-- ASTi.h `CallExprNode`; `q` is the position of the callee. -/
inductive RCall where
  | fn (f : RExpr) (args : RExprs)
  | method (set idx : RExpr) (q : Pos) (args : RExprs)
inductive RExprs where
  | nil
  | cons (e : RExpr) (es : RExprs)
inductive RPairs where
  | nil
  | cons (key item : RExpr) (ps : RPairs)
/-- ASTi.h `FuncExprNode` -/
inductive RFun where
  | mk (params : RParams) (body : RStmt)
/-- ASTi.h `ArgumentNode`s, linked by `next` -/
inductive RParams where
  | nil
  | cons (n : Name) (dflt typ : ROpt) (p : Pos) (ps : RParams)
inductive ROpt where
  | no
  | yes (e : RExpr)
inductive RStmt where
  | expr (e : RExpr)
  | ifElse (c : RExpr) (t f : RStmt) (p : Pos)
  | ifOnly (c : RExpr) (t : RStmt) (p : Pos)
  | while (c : RExpr) (b : RStmt) (p : Pos)
  | doWhile (b : RStmt) (c : RExpr) (p : Pos)
  | comp (ss : RStmts) (p : Pos)
  | ret (e : RExpr) (p : Pos)
  | func (n : Name) (f : RFun) (fp p : Pos)
  | brk (p : Pos)
inductive RStmts where
  | nil
  | cons (s : RStmt) (ss : RStmts)
end

def RExpr.pos : RExpr → Pos
  | .none p | .tru p | .fls p | .int _ p | .float _ p | .str _ p | .ident _ p | .un _ _ p
  | .bin _ _ _ p | .and _ _ p | .or _ _ p | .ass _ _ p | .pair _ _ p | .arw _ _ p | .list _ p
  | .map _ p | .call _ p | .select _ _ p | .func _ p => p

def RStmt.pos : RStmt → Pos
  | .expr e => e.pos
  | .ifElse _ _ _ p | .ifOnly _ _ p | .while _ _ p | .doWhile _ _ p | .comp _ p | .ret _ p
  | .func _ _ _ p | .brk p => p

/-- `argc`/`itemc` of the nodes. -/
def RExprs.count : RExprs → Nat
  | .nil => 0
  | .cons _ es => es.count + 1

def RPairs.count : RPairs → Nat
  | .nil => 0
  | .cons _ _ ps => ps.count + 1

def RParams.count : RParams → Nat
  | .nil => 0
  | .cons _ _ _ _ ps => ps.count + 1

def RFun.argc : RFun → Nat | .mk ps _ => ps.count
def RFun.body : RFun → RStmt | .mk _ b => b

/-- Number of items of the tuple a tree is (codegen.c:311-329 `flattenTupleTree`). -/
def RExpr.tupleCount : RExpr → Nat
  | .pair a b _ => a.tupleCount + b.tupleCount
  | _ => 1

/-! ## `codegen.c`

`ES` is what `CodegenContext` holds: the builder, represented by what has been done to it and the
number of its instructions, and the number of labels created. -/

structure ES where
  evs : List Ev
  cnt : Nat
  lbl : Nat

abbrev EM (α : Type) := ES → Exec (α × ES)

namespace EM
def pure (a : α) : EM α := fun s => .ok (a, s)
def bind (m : EM α) (f : α → EM β) : EM β := fun s =>
  match m s with
  | .ok (a, s) => f a s
  | .err => .err
  | .ub => .ub
  | .diverge => .diverge
instance : Monad EM where
  pure := pure
  bind := bind
end EM

/-- codegenctx.c:141-147 `CodegenContext_EmitInstr`. -/
def emitI (op : Opcode) (opv : List Opd) (off len : Int) : EM Unit := fun s =>
  .ok ((), { s with evs := s.evs ++ [.append op opv off len true], cnt := s.cnt + 1 })

/-- codegenctx.c:15-24 `Label_New`. -/
def newLabel : EM Nat := fun s => .ok (s.lbl, { s with lbl := s.lbl + 1 })

/-- codegenctx.c:32-36 `Label_SetHere`. -/
def setHere (l : Nat) : EM Unit := fun s =>
  .ok ((), { s with evs := s.evs ++ [.resolve l s.cnt] })

/-- codegenctx.c:114-117 `CodegenContext_InstrCount`. -/
def instrCountE : EM Nat := fun s => .ok (s.cnt, s)

/-- codegenctx.c:57-68 `CodegenContext_ReportErrorAndJump_`: `*ctx->error_offset = ...`, but
`ctx->error_offset` is never set (codegenctx.c:76-108). -/
def reportError : EM Unit := fun _ => .ub

/-- codegen.c:169-195 `exprkind_to_opcode`. -/
def UnOp.opcode : UnOp → Opcode
  | .nlb => .NLB
  | .not => .NOT
  | .neg => .NEG
  | .pos => .POS

/-- codegen.c:169-195 `exprkind_to_opcode`. -/
def BinOp.opcode : BinOp → Opcode
  | .sum => .STP
  | .add => .ADD
  | .sub => .SUB
  | .mul => .MUL
  | .div => .DIV
  | .mod => .MOD
  | .eql => .EQL
  | .nql => .NQL
  | .lss => .LSS
  | .leq => .LEQ
  | .grt => .GRT
  | .geq => .GEQ

/-- The name of a function expression (codegen.c:578): `"???"`. -/
def anonName : Name := [63, 63, 63]

/-- codegen.c:64-67 `emitInstr_POP1`. -/
def emitPop1 (off len : Int) : EM Unit := emitI .POP [.int 1] off len

/-- What follows a node that is used as a statement: its value is dropped if it is an expression. -/
def RStmt.popAfter : RStmt → (off : Int) → EM Unit
  | .expr _, off => emitPop1 off 0
  | _, _ => pure ()

mutual
/-- codegen.c:388-595 `emitInstrForExprNode`.  `tup` says that the node is an item of the tuple of
a `return`: there a pair is emitted item by item (codegen.c:718-732). -/
def RExpr.emit : RExpr → (tup : Bool) → (brk : Option Nat) → EM Unit
  | .none p, _, _ => emitI .PUSHNNE [] p.off p.len
  | .tru p, _, _ => emitI .PUSHTRU [] p.off p.len
  | .fls p, _, _ => emitI .PUSHFLS [] p.off p.len
  | .int v p, _, _ => emitI .PUSHINT [.int v] p.off p.len
  | .float x p, _, _ => emitI .PUSHFLT [.float x] p.off p.len
  | .str s p, _, _ => emitI .PUSHSTR [.str s] p.off p.len
  | .ident n p, _, _ => emitI .PUSHVAR [.str n] p.off p.len
  | .un op a p, _, k => do
    a.emit false k
    emitI op.opcode [] p.off p.len
  | .bin op a b p, _, k => do
    a.emit false k
    b.emit false k
    emitI op.opcode [] p.off p.len
  | .and a b p, _, k => do
    let labelEnd ← newLabel
    let labelFalse ← newLabel
    a.emit false k
    emitI .JUMPIFNOTANDPOP [.promise labelFalse] p.off p.len
    b.emit false k
    emitI .JUMPIFNOTANDPOP [.promise labelFalse] p.off p.len
    emitI .PUSHTRU [] p.off p.len
    emitI .JUMP [.promise labelEnd] p.off p.len
    setHere labelFalse
    emitI .PUSHFLS [] p.off p.len
    setHere labelEnd
  | .or a b p, _, k => do
    let labelEnd ← newLabel
    let labelTrue ← newLabel
    a.emit false k
    emitI .JUMPIFANDPOP [.promise labelTrue] p.off p.len
    b.emit false k
    emitI .JUMPIFANDPOP [.promise labelTrue] p.off p.len
    emitI .PUSHFLS [] p.off p.len
    emitI .JUMP [.promise labelEnd] p.off p.len
    setHere labelTrue
    emitI .PUSHTRU [] p.off p.len
    setHere labelEnd
  | .ass l r p, _, k => do
    if l.tupleCount > 32 then reportError
    if l.tupleCount = 1 then r.emit false k
    else r.emitCall k l.tupleCount
    l.emitTargets p k
  | .pair a b _, tup, k =>
    if tup then do
      a.emit true k
      b.emit true k
    else reportError
  | .arw _ _ _, _, _ => reportError
  | .list items p, _, k => do
    emitI .PUSHLST [.int items.count] p.off p.len
    items.emitItems 0 k
  | .map items p, _, k => do
    emitI .PUSHMAP [.int items.count] p.off p.len
    items.emit k
  | .call c p, _, k => c.emit p k 1
  | .select s i p, _, k => do
    s.emit false k
    i.emit false k
    emitI .SELECT [] p.off p.len
  | .func f p, _, _ => f.emit anonName p
/-- codegen.c:346-354, the right side of an assignment to several targets. -/
def RExpr.emitCall : RExpr → (brk : Option Nat) → (returns : Nat) → EM Unit
  | .call c p, k, n => c.emit p k n
  | _, _, _ => reportError
/-- codegen.c:356-385, the loop over the items of the flattened tuple, from the last to the first,
with a `POP 1` between two items. -/
def RExpr.emitTargets : RExpr → (asgn : Pos) → (brk : Option Nat) → EM Unit
  | .pair a b _, q, k => do
    b.emitTargets q k
    emitPop1 q.off 0
    a.emitTargets q k
  | .ident n p, _, _ => emitI .ASS [.str n] p.off p.len
  | .select s i p, _, k => do
    s.emit false k
    i.emit false k
    emitI .INSERT2 [] p.off p.len
  | _, _, _ => reportError
/-- codegen.c:197-229 `emitInstrForFuncCallNode`. -/
def RCall.emit : RCall → (p : Pos) → (brk : Option Nat) → (returns : Nat) → EM Unit
  | .fn f args, p, k, n => do
    args.emit k
    f.emit false k
    emitI .CALL [.int args.count, .int n] p.off p.len
  | .method s i q args, p, k, n => do
    args.emit k
    s.emit false k
    i.emit false k
    emitI .SELECT2 [] q.off q.len
    emitI .CALL [.int (args.count + 1 : Nat), .int n] p.off p.len
def RExprs.emit : RExprs → (brk : Option Nat) → EM Unit
  | .nil, _ => pure ()
  | .cons e es, k => do
    e.emit false k
    es.emit k
/-- codegen.c:521-548. -/
def RExprs.emitItems : RExprs → (i : Nat) → (brk : Option Nat) → EM Unit
  | .nil, _, _ => pure ()
  | .cons e es, i, k => do
    emitI .PUSHINT [.int i] e.pos.off e.pos.len
    e.emit false k
    emitI .INSERT [] e.pos.off e.pos.len
    es.emitItems (i + 1) k
/-- codegen.c:550-571. -/
def RPairs.emit : RPairs → (brk : Option Nat) → EM Unit
  | .nil, _ => pure ()
  | .cons key item ps, k => do
    key.emit false k
    item.emit false k
    emitI .INSERT [] item.pos.off item.pos.len
    ps.emit k
/-- codegen.c:258-302 `emitInstrForFuncExprNode`. -/
def RFun.emit : RFun → (name : Name) → Pos → EM Unit
  | .mk ps b, name, p => do
    let labelFunc ← newLabel
    let labelJump ← newLabel
    emitI .PUSHFUN [.promise labelFunc, .int ps.count, .str name] p.off p.len
    emitI .JUMP [.promise labelJump] p.off p.len
    setHere labelFunc
    ps.emit
    b.emit Option.none
    b.popAfter (b.pos.off + b.pos.len)
    emitI .RETURN [.int 0] b.pos.off 0
    setHere labelJump
/-- codegen.c:234-256 `emitInstrForArgumentNode`, for every argument; the index of the first of the
remaining ones is their number minus one. -/
def RParams.emit : RParams → EM Unit
  | .nil => pure ()
  | .cons n d t p ps => do
    d.emitDflt
    t.emitTyp ps.count n
    emitI .ASS [.str n] p.off p.len
    emitPop1 p.off p.len
    ps.emit
def ROpt.emitDflt : ROpt → EM Unit
  | .no => pure ()
  | .yes e => do
    let l ← newLabel
    emitI .PUSHTYP [] e.pos.off e.pos.len
    emitI .PUSHNNETYP [] e.pos.off e.pos.len
    emitI .EQL [] e.pos.off e.pos.len
    emitI .JUMPIFNOTANDPOP [.promise l] e.pos.off e.pos.len
    emitPop1 e.pos.off e.pos.len
    e.emit false Option.none
    setHere l
def ROpt.emitTyp : ROpt → (argidx : Nat) → Name → EM Unit
  | .no, _, _ => pure ()
  | .yes e, i, n => do
    e.emit false Option.none
    emitI .CHECKTYPE [.int i, .str n] e.pos.off e.pos.len
/-- codegen.c:597-742 `emitInstrForNode`. -/
def RStmt.emit : RStmt → (brk : Option Nat) → EM Unit
  | .expr e, k => e.emit false k
  | .ifElse c t f p, k => do
    c.emit false k
    let labelElse ← newLabel
    let labelDone ← newLabel
    emitI .JUMPIFNOTANDPOP [.promise labelElse] c.pos.off c.pos.len
    t.emit k
    t.popAfter t.pos.off
    emitI .JUMP [.promise labelDone] p.off p.len
    setHere labelElse
    f.emit k
    f.popAfter f.pos.off
    setHere labelDone
  | .ifOnly c t _, k => do
    c.emit false k
    let labelDone ← newLabel
    emitI .JUMPIFNOTANDPOP [.promise labelDone] c.pos.off c.pos.len
    t.emit k
    t.popAfter t.pos.off
    setHere labelDone
  | .while c b p, k => do
    let labelStart ← newLabel
    let labelEnd ← newLabel
    setHere labelStart
    c.emit false k
    emitI .JUMPIFNOTANDPOP [.promise labelEnd] c.pos.off c.pos.len
    b.emit (some labelEnd)
    b.popAfter b.pos.off
    emitI .JUMP [.promise labelStart] p.off p.len
    setHere labelEnd
  | .doWhile b c _, k => do
    let labelEnd ← newLabel
    let start ← instrCountE
    b.emit (some labelEnd)
    b.popAfter b.pos.off
    c.emit false k
    emitI .JUMPIFANDPOP [.idx start] c.pos.off c.pos.len
    setHere labelEnd
  | .comp ss _, k => ss.emit k
  | .ret e p, k => do
    if e.tupleCount > 32 then reportError
    e.emit true k
    emitI .RETURN [.int e.tupleCount] p.off p.len
  | .func n f fp p, _ => do
    f.emit n fp
    emitI .ASS [.str n] p.off p.len
    emitPop1 p.off p.len
  | .brk p, k =>
    match k with
    | Option.none => reportError
    | some l => emitI .JUMP [.promise l] p.off p.len
/-- codegen.c:702-716. -/
def RStmts.emit : RStmts → (brk : Option Nat) → EM Unit
  | .nil, _ => pure ()
  | .cons s ss, k => do
    s.emit k
    s.popAfter s.pos.off
    ss.emit k
end

/-- codegen.c:764-792 `codegen`: everything done to the builder, which is then finalised.  The root
of a tree is a compound statement; `size` is that of the source. -/
def codegen (root : RStmts) (size : Int) : Exec (List Ev) := do
  let (_, s) ← (do root.emit Option.none; emitI .EXIT [] size 0 : EM Unit) ⟨[], 0, 0⟩
  .ok s.evs

/-! ## The trees that are accepted

`elab` gives the tree without positions, if the tree meets the conditions of `codegen.c`. -/

def Targets.append : Targets → Targets → Targets
  | .one t, us => .cons t us
  | .cons t ts, us => .cons t (ts.append us)

def Exprs.append : Exprs → Exprs → Exprs
  | .nil, fs => fs
  | .cons e es, fs => .cons e (es.append fs)

/-- An item alone. -/
def Exprs.one : Exprs → Option Expr
  | .cons e .nil => some e
  | _ => Option.none

mutual
/-- The items of a tuple; an expression that is not a tuple is one item. -/
def RExpr.elabT : RExpr → Option Exprs
  | .none _ => some (.cons .none .nil)
  | .tru _ => some (.cons .tru .nil)
  | .fls _ => some (.cons .fls .nil)
  | .int v _ => some (.cons (.int v) .nil)
  | .float x _ => some (.cons (.float x) .nil)
  | .str s _ => some (.cons (.str s) .nil)
  | .ident n _ => some (.cons (.ident n) .nil)
  | .un op a _ => do
    let a ← (← a.elabT).one
    some (.cons (.un op a) .nil)
  | .bin op a b _ => do
    let a ← (← a.elabT).one
    let b ← (← b.elabT).one
    some (.cons (.bin op a b) .nil)
  | .and a b _ => do
    let a ← (← a.elabT).one
    let b ← (← b.elabT).one
    some (.cons (.and a b) .nil)
  | .or a b _ => do
    let a ← (← a.elabT).one
    let b ← (← b.elabT).one
    some (.cons (.or a b) .nil)
  | .ass l r _ => do
    let ts ← l.elabTargets
    if ts.count > 32 then Option.none
    else
      match ts with
      | .one t => do
        let r ← (← r.elabT).one
        some (.cons (.assign t r) .nil)
      | .cons t ts => do
        let c ← r.elabCall
        some (.cons (.massign t ts c) .nil)
  | .pair a b _ => do
    let as ← a.elabT
    let bs ← b.elabT
    some (as.append bs)
  | .arw _ _ _ => Option.none
  | .list items _ => do
    let items ← items.elab
    some (.cons (.list items) .nil)
  | .map items _ => do
    let items ← items.elab
    some (.cons (.map items) .nil)
  | .call c _ => do
    let c ← c.elab
    some (.cons (.call c) .nil)
  | .select s i _ => do
    let s ← (← s.elabT).one
    let i ← (← i.elabT).one
    some (.cons (.select s i) .nil)
  | .func f _ => do
    let f ← f.elab
    some (.cons (.func anonName f) .nil)
def RExpr.elabCall : RExpr → Option Call
  | .call c _ => c.elab
  | _ => Option.none
def RExpr.elabTargets : RExpr → Option Targets
  | .pair a b _ => do
    let as ← a.elabTargets
    let bs ← b.elabTargets
    some (as.append bs)
  | .ident n _ => some (.one (.var n))
  | .select s i _ => do
    let s ← (← s.elabT).one
    let i ← (← i.elabT).one
    some (.one (.sel s i))
  | _ => Option.none
def RCall.elab : RCall → Option Call
  | .fn f args => do
    let args ← args.elab
    let f ← (← f.elabT).one
    some (.fn f args)
  | .method s i _ args => do
    let args ← args.elab
    let s ← (← s.elabT).one
    let i ← (← i.elabT).one
    some (.method s i args)
def RExprs.elab : RExprs → Option Exprs
  | .nil => some .nil
  | .cons e es => do
    let e ← (← e.elabT).one
    let es ← es.elab
    some (.cons e es)
def RPairs.elab : RPairs → Option Pairs
  | .nil => some .nil
  | .cons k v ps => do
    let k ← (← k.elabT).one
    let v ← (← v.elabT).one
    let ps ← ps.elab
    some (.cons k v ps)
def RFun.elab : RFun → Option FunDef
  | .mk ps b => do
    let ps ← ps.elab
    let b ← b.elab false
    some (.mk ps b)
def RParams.elab : RParams → Option Params
  | .nil => some .nil
  | .cons n d t _ ps => do
    let d ← d.elab
    let t ← t.elab
    let ps ← ps.elab
    some (.cons n d t ps)
def ROpt.elab : ROpt → Option OExpr
  | .no => some .no
  | .yes e => do
    let e ← (← e.elabT).one
    some (.yes e)
/-- `loop` says whether the statement is inside of a loop of the same function. -/
def RStmt.elab : RStmt → (loop : Bool) → Option Stmt
  | .expr e, _ => do
    let e ← (← e.elabT).one
    some (.expr e)
  | .ifElse c t f _, l => do
    let c ← (← c.elabT).one
    let t ← t.elab l
    let f ← f.elab l
    some (.ifElse c t f)
  | .ifOnly c t _, l => do
    let c ← (← c.elabT).one
    let t ← t.elab l
    some (.ifOnly c t)
  | .while c b _, _ => do
    let c ← (← c.elabT).one
    let b ← b.elab true
    some (.while c b)
  | .doWhile b c _, _ => do
    let b ← b.elab true
    let c ← (← c.elabT).one
    some (.doWhile b c)
  | .comp ss _, l => do
    let ss ← ss.elab l
    some (.comp ss)
  | .ret e _, _ => do
    let es ← e.elabT
    if es.count > 32 then Option.none else some (.ret es)
  | .func n f _ _, _ => do
    let f ← f.elab
    some (.func n f)
  | .brk _, l => if l then some .brk else Option.none
def RStmts.elab : RStmts → (loop : Bool) → Option Stmts
  | .nil, _ => some .nil
  | .cons s ss, l => do
    let s ← s.elab l
    let ss ← ss.elab l
    some (.cons s ss)
end

end Noja.VM
