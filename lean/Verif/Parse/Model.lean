import Verif.Parse.Token
import Verif.VM.Raw

/-!
# The parser (`src/lib/compiler/parse.c:440-2357`)

The cursor `ctx->token` is represented by the tokens from it on.  The functions of the C file call one
another; `Rec` holds those that are called recursively, `recs n` being the ones that may nest and loop
`n` times.  Simplifications: memory does not run out; error messages and offsets are left out; the depth
of the C stack is not limited.  `flt` is `strtod` on digits, a dot and digits (none for `ERANGE`).
-/

namespace Noja.Parse

open Noja.VM (RExpr RExprs RPairs RCall RFun RParams ROpt RStmt RStmts Pos Name UnOp BinOp)

abbrev P (α : Type) := List Token → Exec (α × List Token)

/-- parse.c:481-486 `current_token`. -/
def cur : List Token → Exec Token
  | [] => .ub
  | t :: _ => .ok t

/-- parse.c:540-547 `next`: it ends with `current`, which reads the token moved to. -/
def next : List Token → Exec (List Token)
  | [] => .ub
  | _ :: ts => do
    let _ ← cur ts
    .ok ts

def Token.pos (t : Token) : Pos := ⟨t.off, t.len⟩

/-- From the start of one to the end of another. -/
def span (a b : Pos) : Pos := ⟨a.off, b.off + b.len - a.off⟩

def isBinop : Kind → Bool
  | .ch c => c == 43 || c == 45 || c == 42 || c == 47 || c == 60 || c == 62 || c == 61 || c == 44 || c == 124 || c == 37
  | .leq | .geq | .eql | .nql | .kwAnd | .kwOr => true
  | _ => false

/-- parse.c:1697-1741 `precedenceof`. -/
def prec : Kind → Int
  | .ch 61 => 0
  | .ch 124 => 1
  | .kwOr => 2
  | .kwAnd => 3
  | .ch 60 => 4
  | .ch 62 => 4
  | .leq => 4
  | .geq => 4
  | .eql => 4
  | .nql => 4
  | .ch 43 => 5
  | .ch 45 => 5
  | .ch 42 => 6
  | .ch 47 => 6
  | .ch 37 => 6
  | .ch 44 => 7
  | _ => -100000000

/-- parse.c:1690-1695 `isrightassoc`. -/
def isRight (k : Kind) : Bool := k == .ch 61

/-- parse.c:1781-1812: the node of a binary operator. -/
def mkBin (k : Kind) (l r : RExpr) : Exec RExpr :=
  let p := span l.pos r.pos
  match k with
  | .ch 43 => .ok (.bin .add l r p)
  | .ch 45 => .ok (.bin .sub l r p)
  | .ch 42 => .ok (.bin .mul l r p)
  | .ch 47 => .ok (.bin .div l r p)
  | .ch 37 => .ok (.bin .mod l r p)
  | .ch 60 => .ok (.bin .lss l r p)
  | .ch 62 => .ok (.bin .grt l r p)
  | .leq => .ok (.bin .leq l r p)
  | .geq => .ok (.bin .geq l r p)
  | .eql => .ok (.bin .eql l r p)
  | .nql => .ok (.bin .nql l r p)
  | .kwAnd => .ok (.and l r p)
  | .kwOr => .ok (.or l r p)
  | .ch 61 => .ok (.ass l r p)
  | .ch 124 => .ok (.bin .sum l r p)
  | .ch 44 => .ok (.pair l r p)
  | _ => .ub

/-- parse.c:1658-1662. -/
def unOp : Kind → Option UnOp
  | .ch 43 => some .pos
  | .ch 45 => some .neg
  | .ch 63 => some .nlb
  | .kwNot => some .not
  | _ => none

/-- `CallExprNode` (see `RCall`). -/
def mkCall (f : RExpr) (args : RExprs) (p : Pos) : RExpr :=
  match f with
  | .arw s i q => .call (.method s i q args) p
  | f => .call (.fn f args) p

/-- parse.c:719-765 `makeStringExprNode`: the node has the position of the current token; the code
generator takes the text as a C string. -/
def mkStr (s : List UInt8) (ts : List Token) : Exec RExpr := do
  let t ← cur ts
  .ok (.str (s.takeWhile (· ≠ 0)) t.pos)

/-- parse.c:836-850. -/
def unescape : UInt8 → Option UInt8
  | 34 => some 34
  | 110 => some 10
  | 116 => some 9
  | 114 => some 13
  | 92 => some 92
  | 39 => some 39
  | _ => none

/-- parse.c:797-853: the loop over the text between the quotes. -/
def stringLoop : Nat → List UInt8 → List UInt8 → Exec (List UInt8)
  | 0, _, _ => .diverge
  | n + 1, t, temp =>
    let seg := t.takeWhile (· != 92)
    if temp.length + seg.length ≥ 4096 then .err
    else
      match t.dropWhile (· != 92) with
      | [] => .ok (temp ++ seg)
      | _ :: r =>
        if (temp ++ seg).length + 1 ≥ 4096 then .err
        else
          match r with
          | [] => .ok (temp ++ seg ++ [92])
          | e :: r =>
            match unescape e with
            | none => .err
            | some c => if r.isEmpty then .ok (temp ++ seg ++ [c]) else stringLoop n r (temp ++ seg ++ [c])

/-- parse.c:767-861 `parse_string_primary_expression`. -/
def parseString (t : Token) (ts : List Token) : Exec (RExpr × List Token) := do
  let s ← stringLoop (t.text.length + 1) t.text.tail.dropLast []
  let ts ← next ts
  let e ← mkStr s ts
  .ok (e, ts)

/-- The number a row of digits stands for. -/
def decimal (ds : List UInt8) : Nat := ds.foldl (fun n d => n * 10 + (d.toNat - 48)) 0

/-- `strtoll` on digits (none for `ERANGE`). -/
def strtoll (ds : List UInt8) : Option Int :=
  if decimal ds ≤ 9223372036854775807 then some (decimal ds) else none

/-- parse.c:1224-1266. -/
def parseInt (t : Token) (ts : List Token) : Exec (RExpr × List Token) :=
  if t.len ≥ 64 then .err
  else
    match strtoll t.text with
    | none => .err
    | some v => do
      let ts ← next ts
      .ok (.int v t.pos, ts)

/-- parse.c:1268-1310. -/
def parseFloat (flt : List UInt8 → Option (BitVec 64)) (t : Token) (ts : List Token) : Exec (RExpr × List Token) :=
  if t.len ≥ 64 then .err
  else
    match flt t.text with
    | none => .err
    | some v => do
      let ts ← next ts
      .ok (.float v t.pos, ts)

/-- What parse.c:2089-2200 `parse_function_definition` puts into the `FuncDeclNode`. -/
structure Decl where
  name : Name
  namePos : Pos
  f : RFun
  pos : Pos

/-- The functions called recursively. -/
structure Rec where
  expr : (tuples assign : Bool) → P RExpr
  expr2 : (tuples assign : Bool) → (left : RExpr) → (min : Int) → P RExpr
  inner : (tuples assign : Bool) → (op : Kind) → (right : RExpr) → P RExpr
  pre : P RExpr
  post : (node : RExpr) → P RExpr
  items : P RExprs
  args : (argv : RExprs) → P RExprs
  pairs : P RPairs
  params : (argv : RParams) → P RParams
  stmt : P RStmt
  stmts : (fin : Kind) → P RStmts

/-- parse.c:1743-1820 `parse_expression_2`, one turn of the loop. -/
def expr2Body (R : Rec) (tuples assign : Bool) (left : RExpr) (min : Int) (ts : List Token) : Exec (RExpr × List Token) := do
  let op ← cur ts
  if isBinop op.kind && decide (prec op.kind ≥ min) then
    if (op.kind == .ch 44 && !tuples) || (op.kind == .ch 61 && !assign) then .ok (left, ts)
    else do
      let ts ← next ts
      let (right, ts) ← R.pre ts
      let (right, ts) ← R.inner tuples assign op.kind right ts
      let e ← mkBin op.kind left right
      R.expr2 tuples assign e min ts
  else .ok (left, ts)

/-- parse.c:1759-1771: one turn of the inner loop. -/
def innerBody (R : Rec) (tuples assign : Bool) (op : Kind) (right : RExpr) (ts : List Token) : Exec (RExpr × List Token) := do
  let t ← cur ts
  if isBinop t.kind && (decide (prec t.kind > prec op) || (prec t.kind == prec op && isRight t.kind)) then do
    let (right, ts) ← R.expr2 tuples assign right (prec op + (if prec op < prec t.kind then 1 else 0)) ts
    let t ← cur ts
    if t.kind == .ch 44 && !tuples then .ok (right, ts) else R.inner tuples assign op right ts
  else .ok (right, ts)

/-- parse.c:1822-1833 `parse_expression`. -/
def exprBody (R : Rec) (tuples assign : Bool) (ts : List Token) : Exec (RExpr × List Token) := do
  let (left, ts) ← R.pre ts
  let t ← cur ts
  if t.kind = .done then .ok (left, ts) else R.expr2 tuples assign left (-1000000000) ts

/-- parse.c:863-955 `parse_list_primary_expression` (at a '['). -/
def parseList (R : Rec) (ts : List Token) : Exec (RExprs × Pos × List Token) := do
  let open' ← cur ts
  let ts ← next ts
  let t ← cur ts
  let (items, ts) ← (if t.kind = .ch 93 then .ok (.nil, ts) else R.items ts : Exec (RExprs × List Token))
  let close ← cur ts
  let ts ← next ts
  .ok (items, span open'.pos close.pos, ts)

/-- parse.c:891-924: one turn of the loop; it ends at the ']'. -/
def itemsBody (R : Rec) (ts : List Token) : Exec (RExprs × List Token) := do
  let (e, ts) ← R.expr false true ts
  let t ← cur ts
  if t.kind = .ch 93 then .ok (.cons e .nil, ts)
  else if t.kind ≠ .ch 44 then .err
  else do
    let ts ← next ts
    let (es, ts) ← R.items ts
    .ok (.cons e es, ts)

/-- parse.c:2089-2200 `parse_function_definition` (at a `fun`); 1968-2087 `parse_function_arguments`. -/
def parseFunc (R : Rec) (ts : List Token) : Exec (Decl × List Token) := do
  let f ← cur ts
  let ts ← next ts
  let n ← cur ts
  if n.kind ≠ .ident then .err
  else do
    let ts ← next ts
    let t ← cur ts
    if t.kind ≠ .ch 40 then .err
    else do
      let ts ← next ts
      let t ← cur ts
      let (ps, ts) ← (if t.kind = .ch 41 then .ok (.nil, ts) else R.params .nil ts : Exec (RParams × List Token))
      let ts ← next ts
      let t ← cur ts
      if t.kind = .done then .err
      else do
        let (b, ts) ← R.stmt ts
        .ok (⟨n.text, n.pos, .mk ps b, span f.pos b.pos⟩, ts)

/-- An optional part that starts with a token of kind `k`. -/
def optional (k : Kind) (e : P RExpr) (ts : List Token) : Exec (ROpt × List Token) := do
  let t ← cur ts
  if t.kind = k then do
    let ts ← next ts
    let (e, ts) ← e ts
    .ok (.yes e, ts)
  else .ok (.no, ts)

/-- parse.c:1990-2080: one turn of the loop; it ends at the ')'. -/
def paramsBody (R : Rec) (argv : RParams) (ts : List Token) : Exec (RParams × List Token) := do
  let n ← cur ts
  if n.kind ≠ .ident then .err
  else do
    let ts ← next ts
    let (typ, ts) ← optional (.ch 58) (R.expr false false) ts
    let (dflt, ts) ← optional (.ch 61) (R.expr false true) ts
    let t ← cur ts
    let argv := RParams.cons n.text dflt typ t.pos argv
    if t.kind = .ch 41 then .ok (argv, ts)
    else if t.kind ≠ .ch 44 then .err
    else do
      let ts ← next ts
      R.params argv ts

/-- parse.c:1022-1035: is the key a single identifier?  `next` and `prev`. -/
def singleIdent (ts : List Token) : Exec Bool := do
  let t ← cur ts
  let ts' ← next ts
  let t' ← cur ts'
  .ok (t.kind == .ident && (t'.kind == .done || t'.kind == .ch 58))

/-- parse.c:1019-1050: a key. -/
def parseKey (R : Rec) (ts : List Token) : Exec (RExpr × List Token) := do
  let single ← singleIdent ts
  if single then do
    let t ← cur ts
    let k ← mkStr t.text ts
    let ts ← next ts
    .ok (k, ts)
  else R.expr false true ts

/-- parse.c:1019-1077: a key and its item. -/
def keyItem (R : Rec) (ts : List Token) : Exec (RExpr × RExpr × List Token) := do
  let (key, ts) ← parseKey R ts
  let t ← cur ts
  if t.kind ≠ .ch 58 then .err
  else do
    let ts ← next ts
    let (item, ts) ← R.expr false true ts
    .ok (key, item, ts)

/-- parse.c:1001-1113: one turn of the loop; it ends at the '}'. -/
def pairsBody (R : Rec) (ts : List Token) : Exec (RPairs × List Token) := do
  let t ← cur ts
  if t.kind = .kwFun then do
    let (d, ts) ← parseFunc R ts
    let t ← cur ts
    if t.kind = .ch 125 then .ok (.cons (.str d.name d.namePos) (.func d.f d.pos) .nil, ts)
    else do
      let (ps, ts) ← R.pairs ts
      .ok (.cons (.str d.name d.namePos) (.func d.f d.pos) ps, ts)
  else do
    let (key, item, ts) ← keyItem R ts
    let t ← cur ts
    if t.kind = .ch 125 then .ok (.cons key item .nil, ts)
    else if t.kind ≠ .ch 44 then .err
    else do
      let ts ← next ts
      let (ps, ts) ← R.pairs ts
      .ok (.cons key item ps, ts)

/-- parse.c:957-1133 `parse_map_primary_expression` (at a '{'). -/
def parseMap (R : Rec) (ts : List Token) : Exec (RExpr × List Token) := do
  let open' ← cur ts
  let ts ← next ts
  let t ← cur ts
  if t.kind = .done then .err
  else do
    let (items, ts) ← (if t.kind = .ch 125 then .ok (.nil, ts) else R.pairs ts : Exec (RPairs × List Token))
    let close ← cur ts
    let ts ← next ts
    .ok (.map items (span open'.pos close.pos), ts)

/-- parse.c:1184-1432 `parse_primary_expresion`. -/
def parsePrimary (flt : List UInt8 → Option (BitVec 64)) (R : Rec) (ts : List Token) : Exec (RExpr × List Token) := do
  let t ← cur ts
  match t.kind with
  | .ch 91 => do
    let (items, p, ts) ← parseList R ts
    .ok (.list items p, ts)
  | .ch 123 => parseMap R ts
  | .ch 40 => do
    let ts ← next ts
    let (e, ts) ← R.expr true true ts
    let t ← cur ts
    if t.kind ≠ .ch 41 then .err
    else do
      let ts ← next ts
      .ok (e, ts)
  | .int => parseInt t ts
  | .float => parseFloat flt t ts
  | .string => parseString t ts
  | .kwNone => do
    let ts ← next ts
    let t ← cur ts
    .ok (.none t.pos, ts)
  | .kwTrue => do
    let ts ← next ts
    let t ← cur ts
    .ok (.tru t.pos, ts)
  | .kwFalse => do
    let ts ← next ts
    let t ← cur ts
    .ok (.fls t.pos, ts)
  | .ident => do
    let ts ← next ts
    .ok (.ident t.text t.pos, ts)
  | _ => .err

/-- parse.c:1547-1583: one turn of the loop over the arguments; it ends at the ')'. -/
def argsBody (R : Rec) (argv : RExprs) (ts : List Token) : Exec (RExprs × List Token) := do
  let (e, ts) ← R.expr false true ts
  let t ← cur ts
  if t.kind = .ch 41 then .ok (.cons e argv, ts)
  else if t.kind ≠ .ch 44 then .err
  else do
    let ts ← next ts
    R.args (.cons e argv) ts

/-- parse.c:1470-1509: `.` or `->` and a name. -/
def parseDot (arrow : Bool) (node : RExpr) (ts : List Token) : Exec (RExpr × List Token) := do
  let ts ← next ts
  let t ← cur ts
  if t.kind ≠ .ident then .err
  else do
    let idx ← mkStr t.text ts
    let ts ← next ts
    let p := span node.pos idx.pos
    .ok (if arrow then .arw node idx p else .select node idx p, ts)

/-- parse.c:1511-1532: an index. -/
def parseIndex (R : Rec) (node : RExpr) (ts : List Token) : Exec (RExpr × List Token) := do
  let (items, p, ts) ← parseList R ts
  match items with
  | .nil => .err
  | .cons e .nil => .ok (.select node e (span node.pos p), ts)
  | items => .ok (.select node (.list items p) (span node.pos p), ts)

/-- parse.c:1534-1603: a call. -/
def parseCall (R : Rec) (node : RExpr) (ts : List Token) : Exec (RExpr × List Token) := do
  let open' ← cur ts
  let ts ← next ts
  let t ← cur ts
  let (argv, ts) ← (if t.kind = .ch 41 then .ok (.nil, ts) else R.args .nil ts : Exec (RExprs × List Token))
  let close ← cur ts
  let ts ← next ts
  .ok (mkCall node argv (span open'.pos close.pos), ts)

/-- parse.c:1463-1611: one turn of the loop of `parse_postfix_expression`. -/
def postBody (R : Rec) (node : RExpr) (ts : List Token) : Exec (RExpr × List Token) := do
  let t ← cur ts
  match t.kind with
  | .ch 46 => do
    let (e, ts) ← parseDot false node ts
    R.post e ts
  | .arw => do
    let (e, ts) ← parseDot true node ts
    R.post e ts
  | .ch 91 => do
    let (e, ts) ← parseIndex R node ts
    R.post e ts
  | .ch 40 => do
    let (e, ts) ← parseCall R node ts
    R.post e ts
  | _ => .ok (node, ts)

/-- parse.c:1614-1674 `parse_prefix_expression`. -/
def preBody (flt : List UInt8 → Option (BitVec 64)) (R : Rec) (ts : List Token) : Exec (RExpr × List Token) := do
  let t ← cur ts
  match unOp t.kind with
  | some op => do
    let ts ← next ts
    let (e, ts) ← R.pre ts
    .ok (.un op e (span t.pos e.pos), ts)
  | none => do
    let (e, ts) ← parsePrimary flt R ts
    R.post e ts

/-- A condition and the token after it. -/
def condition (R : Rec) (k : Kind) (ts : List Token) : Exec (RExpr × List Token) := do
  let (c, ts) ← R.expr true true ts
  let t ← cur ts
  if t.kind ≠ k then .err
  else do
    let ts ← next ts
    .ok (c, ts)

/-- parse.c:1835-1917 `parse_ifelse_statement`. -/
def parseIf (R : Rec) (ts : List Token) : Exec (RStmt × List Token) := do
  let i ← cur ts
  let ts ← next ts
  let (c, ts) ← condition R (.ch 58) ts
  let (s, ts) ← R.stmt ts
  let t ← cur ts
  if t.kind = .kwElse then do
    let ts ← next ts
    let (e, ts) ← R.stmt ts
    let t ← cur ts
    .ok (.ifElse c s e (span i.pos t.pos), ts)
  else .ok (.ifOnly c s (span i.pos t.pos), ts)

/-- parse.c:2202-2271 `parse_while_statement`. -/
def parseWhile (R : Rec) (ts : List Token) : Exec (RStmt × List Token) := do
  let i ← cur ts
  let ts ← next ts
  let (c, ts) ← condition R (.ch 58) ts
  let (s, ts) ← R.stmt ts
  let t ← cur ts
  .ok (.while c s (span i.pos t.pos), ts)

/-- parse.c:2273-2357 `parse_dowhile_statement`. -/
def parseDo (R : Rec) (ts : List Token) : Exec (RStmt × List Token) := do
  let i ← cur ts
  let ts ← next ts
  let (s, ts) ← R.stmt ts
  let t ← cur ts
  if t.kind ≠ .kwWhile then .err
  else do
    let ts ← next ts
    let (c, ts) ← condition R (.ch 59) ts
    let t ← cur ts
    .ok (.doWhile s c (span i.pos t.pos), ts)

/-- The end of the last of the statements. -/
def lastEnd : RStmts → Int → Int
  | .nil, e => e
  | .cons s ss, _ => lastEnd ss (s.pos.off + s.pos.len)

/-- parse.c:1957-1961: the position of a compound statement. -/
def compPos : RStmts → Pos
  | .nil => ⟨0, 0⟩
  | .cons s ss => ⟨s.pos.off, lastEnd (.cons s ss) 0 - s.pos.off⟩

/-- parse.c:1928-1948: one turn of the loop of `parse_compound_statement`; it ends at `fin`. -/
def stmtsBody (R : Rec) (fin : Kind) (ts : List Token) : Exec (RStmts × List Token) := do
  let t ← cur ts
  if t.kind = fin then .ok (.nil, ts)
  else if t.kind = .done then .err
  else do
    let (s, ts) ← R.stmt ts
    let (ss, ts) ← R.stmts fin ts
    .ok (.cons s ss, ts)

/-- parse.c:692-717 `parse_expression_statement`. -/
def parseExprStmt (R : Rec) (ts : List Token) : Exec (RStmt × List Token) := do
  let (e, ts) ← condition R (.ch 59) ts
  .ok (.expr e, ts)

/-- parse.c:618-632. -/
def parseBlock (R : Rec) (ts : List Token) : Exec (RStmt × List Token) := do
  let ts ← next ts
  let (ss, ts) ← R.stmts (.ch 125) ts
  let ts ← next ts
  .ok (.comp ss (compPos ss), ts)

/-- parse.c:634-664. -/
def parseBreak (ts : List Token) : Exec (RStmt × List Token) := do
  let b ← cur ts
  let ts ← next ts
  let t ← cur ts
  if t.kind ≠ .ch 59 then .err
  else do
    let ts ← next ts
    .ok (.brk b.pos, ts)

/-- parse.c:666-702. -/
def parseReturn (R : Rec) (ts : List Token) : Exec (RStmt × List Token) := do
  let r ← cur ts
  let ts ← next ts
  let (e, ts) ← condition R (.ch 59) ts
  .ok (.ret e (span r.pos e.pos), ts)

/-- The tokens with which a statement that is an expression may start (parse.c:578-590). -/
def exprStart : Kind → Bool
  | .ch c => c == 40 || c == 91 || c == 43 || c == 45 || c == 63
  | .int | .float | .string | .ident | .kwNot | .kwNone | .kwTrue | .kwFalse => true
  | _ => false

/-- parse.c:567-690 `parse_statement`. -/
def stmtBody (R : Rec) (ts : List Token) : Exec (RStmt × List Token) := do
  let t ← cur ts
  if exprStart t.kind then parseExprStmt R ts
  else
    match t.kind with
    | .kwIf => parseIf R ts
    | .ch 123 => parseBlock R ts
    | .kwBreak => parseBreak ts
    | .kwReturn => parseReturn R ts
    | .kwFun => do
      let (d, ts) ← parseFunc R ts
      .ok (.func d.name d.f d.pos d.pos, ts)
    | .kwWhile => parseWhile R ts
    | .kwDo => parseDo R ts
    | _ => .err

/-- The functions, nested and repeated at most this often. -/
def recs (flt : List UInt8 → Option (BitVec 64)) : Nat → Rec
  | 0 =>
    { expr := fun _ _ _ => .diverge, expr2 := fun _ _ _ _ _ => .diverge, inner := fun _ _ _ _ _ => .diverge
      pre := fun _ => .diverge, post := fun _ _ => .diverge, items := fun _ => .diverge, args := fun _ _ => .diverge
      pairs := fun _ => .diverge, params := fun _ _ => .diverge, stmt := fun _ => .diverge, stmts := fun _ _ => .diverge }
  | n + 1 =>
    let R := recs flt n
    { expr := exprBody R, expr2 := expr2Body R, inner := innerBody R, pre := preBody flt R, post := postBody R
      items := itemsBody R, args := argsBody R, pairs := pairsBody R, params := paramsBody R, stmt := stmtBody R
      stmts := stmtsBody R }

/-- How often the functions may be nested and repeated; see `Total.lean`. -/
def depth (ts : List Token) : Nat := 8 * ts.length + 8

/-- parse.c:440-478 `parse`. -/
def parse (flt : List UInt8 → Option (BitVec 64)) (past : UInt8) (src : List UInt8) : Exec RStmts := do
  let ts ← tokenize past src
  let (ss, _) ← (recs flt (depth ts)).stmts .done ts
  .ok ss

end Noja.Parse
