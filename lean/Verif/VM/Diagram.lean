import Verif.VM.Raw
import Verif.CInt

/-!
# `--diagram-ast` (C89)

compiler/graphviz.c.  The nodes of the diagram are numbered (`node_%d`); what is written is a list of
declarations of labels (`head`) and a list of arrows (`body`).

Simplifications: the text of the lines is in `Verif.VM.DiagramText`, here are only the escapes of strings (`escape`); numbers
are printed with `%d`, of which the low 32 bits are taken (formally undefined, as the argument is a `long
long`); memory exhaustion is left out.
-/

set_option linter.unusedVariables false
set_option linter.unusedSimpArgs false

namespace Noja.VM.Diagram

open Noja (Exec toI32)

/-! ## Model -/

inductive Label where
  | word (w : String)
  | name (n : Name)
  | num (v : Int)
  | float (bits : BitVec 64)
  | text (s : List UInt8)
  deriving DecidableEq, Repr

/-- graphviz.c:60-63 `GraphViz`, and the counter of the names. -/
structure GV where
  count : Nat
  head : List (Nat × Label)
  body : List (Nat × Nat)
  deriving DecidableEq, Repr

/-- graphviz.c:139-148 `GraphViz_AppendHead` of a label. -/
def decl (n : Nat) (l : Label) (g : GV) : GV := { g with head := g.head ++ [(n, l)] }

/-- graphviz.c:150-159 `GraphViz_AppendBody` of an arrow. -/
def edge (p n : Nat) (g : GV) : GV := { g with body := g.body ++ [(p, n)] }

/-- graphviz.c:242-248 `childToGraphViz`; `k` is `nodeToGraphViz` of the child. -/
def child (p : Nat) (k : Nat → GV → Exec GV) (g : GV) : Exec GV := do
  let n := g.count + 1
  let g ← k n { g with count := n }
  .ok (edge p n g)

/-- graphviz.c:210-240 `exprkind_to_label`. -/
def unLabel : UnOp → String
  | .nlb => "Nullable Type"
  | .not => "!"
  | .neg => "-"
  | .pos => "+"

def binLabel : BinOp → String
  | .sum => "Sum Type"
  | .add => "+"
  | .sub => "-"
  | .mul => "&times;"
  | .div => "/"
  | .mod => "%"
  | .eql => "=="
  | .nql => "!="
  | .lss => "<"
  | .leq => "<="
  | .grt => ">"
  | .geq => ">="

/-- graphviz.c:318-339: the characters of a label.  `strlen` is used for the length. -/
def escape : List UInt8 → List UInt8
  | [] => []
  | c :: s =>
    if c = 0 then []
    else if c = 34 then [92, 34] ++ escape s
    else if c = 92 then [92, 92] ++ escape s
    else if c = 9 then [92, 116] ++ escape s
    else if c = 10 then [92, 110] ++ escape s
    else c :: escape s

/-- An item of a tuple (`tup`) is a child of node `n`; otherwise the node is `n` itself. -/
def place (tup : Bool) (n : Nat) (k : Nat → GV → Exec GV) (g : GV) : Exec GV :=
  if tup then child n k g else k n g

mutual
/-- graphviz.c:274-429 `exprToGraphViz`.  With `tup`, the items of the tuple as children of node `n`
(graphviz.c:186-203, 503-506). -/
def expr : RExpr → (tup : Bool) → Nat → GV → Exec GV
  | .pair a b _, tup, n, g =>
    if tup then do
      let g ← expr a true n g
      expr b true n g
    else .ok g
  | .un op a _, tup, n, g => place tup n (fun n g => child n (expr a false) (decl n (.word (unLabel op)) g)) g
  | .bin op a b _, tup, n, g => place tup n (fun n g => do
      let g ← child n (expr a false) (decl n (.word (binLabel op)) g)
      child n (expr b false) g) g
  | .and a b _, tup, n, g => place tup n (fun n g => do
      let g ← child n (expr a false) (decl n (.word "and") g)
      child n (expr b false) g) g
  | .or a b _, tup, n, g => place tup n (fun n g => do
      let g ← child n (expr a false) (decl n (.word "or") g)
      child n (expr b false) g) g
  | .ass a b _, tup, n, g => place tup n (fun n g => do
      let g ← child n (expr a false) (decl n (.word "=") g)
      child n (expr b false) g) g
  | .arw a b _, tup, n, g => place tup n (fun n g => do
      let g ← child n (expr a false) (decl n (.word "->") g)
      child n (expr b false) g) g
  | .int v _, tup, n, g => place tup n (fun n g => .ok (decl n (.num (toI32 v)) g)) g
  | .float x _, tup, n, g => place tup n (fun n g => .ok (decl n (.float x) g)) g
  | .str s _, tup, n, g => place tup n (fun n g => .ok (decl n (.text (escape s)) g)) g
  | .ident x _, tup, n, g => place tup n (fun n g => .ok (decl n (.name x) g)) g
  | .list items _, tup, n, g => place tup n (fun n g => exprs items n (decl n (.word "List") g)) g
  | .map items _, tup, n, g => place tup n (fun n g => pairs items n (decl n (.word "Map") g)) g
  | .call c _, tup, n, g => place tup n (fun n g => call c n (decl n (.word "Call") g)) g
  | .func f _, tup, n, g => place tup n (fun n g => func f (.word "???") n g) g
  | .select s i _, tup, n, g => place tup n (fun n g => do
      let g ← child n (expr s false) (decl n (.word "Select") g)
      child n (expr i false) g) g
  | .none _, tup, n, g => place tup n (fun n g => .ok (decl n (.word "none") g)) g
  | .tru _, tup, n, g => place tup n (fun n g => .ok (decl n (.word "true") g)) g
  | .fls _, tup, n, g => place tup n (fun n g => .ok (decl n (.word "false") g)) g
/-- graphviz.c:389-396 -/
def call : RCall → Nat → GV → Exec GV
  | .fn f args, n, g => do
    let g ← child n (expr f false) g
    exprs args n g
  | .method s i _ args, n, g => do
    let g ← child n (fun n g => do
      let g ← child n (expr s false) (decl n (.word "->") g)
      child n (expr i false) g) g
    exprs args n g
/-- graphviz.c:354-355, 391-396 -/
def exprs : RExprs → Nat → GV → Exec GV
  | .nil, _, g => .ok g
  | .cons e es, n, g => do
    let g ← child n (expr e false) g
    exprs es n g
/-- graphviz.c:368-380 -/
def pairs : RPairs → Nat → GV → Exec GV
  | .nil, _, g => .ok g
  | .cons k i ps, n, g => do
    let n2 := g.count + 1
    let g := edge n n2 (decl n2 (.word "Entry") { g with count := n2 })
    let g ← child n2 (expr k false) g
    let g ← child n2 (expr i false) g
    pairs ps n g
/-- graphviz.c:250-272 `funcExprToGraphViz` -/
def func : RFun → Label → Nat → GV → Exec GV
  | .mk ps b, l, n, g => do
    let g := decl n l g
    let n2 := g.count + 1
    let g := edge n n2 (decl n2 (.word "args") { g with count := n2 })
    let g ← params ps n2 g
    child n (stmt b) g
/-- graphviz.c:259-269 -/
def params : RParams → Nat → GV → Exec GV
  | .nil, _, g => .ok g
  | .cons x v t _ ps, n2, g => do
    let n3 := g.count + 1
    let g := edge n2 n3 (decl n3 (.name x) { g with count := n3 })
    let g ← opt v n3 g
    let g ← opt t n3 g
    params ps n2 g
/-- graphviz.c:266-267 -/
def opt : ROpt → Nat → GV → Exec GV
  | .no, _, g => .ok g
  | .yes e, n, g => child n (expr e false) g
/-- graphviz.c:431-522 `nodeToGraphViz` -/
def stmt : RStmt → Nat → GV → Exec GV
  | .expr e, n, g => expr e false n g
  | .brk _, n, g => .ok (decl n (.word "break") g)
  | .ifElse c t f _, n, g => do
    let g ← child n (expr c false) (decl n (.word "if-else") g)
    let g ← child n (stmt t) g
    child n (stmt f) g
  | .ifOnly c t _, n, g => do
    let g ← child n (expr c false) (decl n (.word "if") g)
    child n (stmt t) g
  | .while c b _, n, g => do
    let g ← child n (expr c false) (decl n (.word "while") g)
    child n (stmt b) g
  | .doWhile b c _, n, g => do
    let g ← child n (expr c false) (decl n (.word "do-while") g)
    child n (stmt b) g
  | .comp ss _, n, g => stmts ss n (decl n (.word "compound") g)
  | .ret e _, n, g =>
    if e.tupleCount > 32 then .ub
    else expr e true n (decl n (.word "return") g)
  | .func x f _ _, n, g => func f (.name x) n (decl n (.word "func") g)
/-- graphviz.c:485-490 -/
def stmts : RStmts → Nat → GV → Exec GV
  | .nil, _, g => .ok g
  | .cons s ss, n, g => do
    let g ← child n (stmt s) g
    stmts ss n g
end

/-- graphviz.c:524-544 `graphviz`; the root of a program is a compound statement. -/
def diagram (ss : RStmts) : Exec GV :=
  stmts ss 1 (decl 1 (.word "compound") ⟨1, [], []⟩)

/-! ## Property -/

mutual
/-- What is to be drawn. -/
inductive Tree where
  | node (label : Label) (kids : Trees)
inductive Trees where
  | nil
  | cons (t : Tree) (ts : Trees)
end

/-- The label that a node has in the end: a later declaration replaces an earlier one. -/
def shown (head : List (Nat × Label)) (n : Nat) : Option Label := ((head.filter (fun d => d.1 == n)).getLast?).map Prod.snd

/-- The arrows from a node, in order. -/
def kidsOf (body : List (Nat × Nat)) (n : Nat) : List Nat := (body.filter (fun a => a.1 == n)).map Prod.snd

mutual
/-- What is drawn below node `n` is the tree. -/
inductive Draws (head : List (Nat × Label)) (body : List (Nat × Nat)) : Nat → Tree → Prop
  | node (n : Nat) (l : Label) (ks : Trees) (ns : List Nat) :
    shown head n = some l → kidsOf body n = ns → DrawsAll head body ns ks → Draws head body n (.node l ks)
inductive DrawsAll (head : List (Nat × Label)) (body : List (Nat × Nat)) : List Nat → Trees → Prop
  | nil : DrawsAll head body [] .nil
  | cons (n : Nat) (ns : List Nat) (t : Tree) (ts : Trees) : Draws head body n t → DrawsAll head body ns ts → DrawsAll head body (n :: ns) (.cons t ts)
end

def Trees.append : Trees → Trees → Trees
  | .nil, ts => ts
  | .cons t us, ts => .cons t (us.append ts)

abbrev leaf (l : Label) : Tree := .node l .nil
abbrev one (t : Tree) : Trees := .cons t .nil
abbrev two (t u : Tree) : Trees := .cons t (.cons u .nil)

/-- Reading a label as the DOT language does: a quote ends it, a backslash changes the next character. -/
def unescape : List UInt8 → Option (List UInt8)
  | [] => some []
  | 92 :: c :: s => (unescape s).map ((if c = 116 then 9 else if c = 110 then 10 else c) :: ·)
  | [92] => none
  | 34 :: _ => none
  | c :: s => (unescape s).map (c :: ·)

mutual
/-- The tree of a program.  The label of a string is one that reads as the string. -/
inductive ETree : RExpr → Tree → Prop
  | none (p : Pos) : ETree (.none p) (leaf (.word "none"))
  | tru (p : Pos) : ETree (.tru p) (leaf (.word "true"))
  | fls (p : Pos) : ETree (.fls p) (leaf (.word "false"))
  | int (v : Int) (p : Pos) : ETree (.int v p) (leaf (.num v))
  | float (x : BitVec 64) (p : Pos) : ETree (.float x p) (leaf (.float x))
  | str (s l : List UInt8) (p : Pos) : unescape l = some s → ETree (.str s p) (leaf (.text l))
  | ident (x : Name) (p : Pos) : ETree (.ident x p) (leaf (.name x))
  | un {op : UnOp} {a : RExpr} {p : Pos} {t : Tree} : ETree a t → ETree (.un op a p) (.node (.word (unLabel op)) (one t))
  | bin {op : BinOp} {a b : RExpr} {p : Pos} {t u : Tree} : ETree a t → ETree b u → ETree (.bin op a b p) (.node (.word (binLabel op)) (two t u))
  | and {a b : RExpr} {p : Pos} {t u : Tree} : ETree a t → ETree b u → ETree (.and a b p) (.node (.word "and") (two t u))
  | or {a b : RExpr} {p : Pos} {t u : Tree} : ETree a t → ETree b u → ETree (.or a b p) (.node (.word "or") (two t u))
  | ass {a b : RExpr} {p : Pos} {t u : Tree} : ETree a t → ETree b u → ETree (.ass a b p) (.node (.word "=") (two t u))
  | arw {a b : RExpr} {p : Pos} {t u : Tree} : ETree a t → ETree b u → ETree (.arw a b p) (.node (.word "->") (two t u))
  | pair {a b : RExpr} {p : Pos} {l : Label} {ts : Trees} : ITrees (.pair a b p) ts → ETree (.pair a b p) (.node l ts)
  | list {es : RExprs} {p : Pos} {ts : Trees} : ETrees es ts → ETree (.list es p) (.node (.word "List") ts)
  | map {ps : RPairs} {p : Pos} {ts : Trees} : PTrees ps ts → ETree (.map ps p) (.node (.word "Map") ts)
  | call {c : RCall} {p : Pos} {ts : Trees} : CTrees c ts → ETree (.call c p) (.node (.word "Call") ts)
  | select {a b : RExpr} {p : Pos} {t u : Tree} : ETree a t → ETree b u → ETree (.select a b p) (.node (.word "Select") (two t u))
  | func {f : RFun} {p : Pos} {ts : Trees} : FTrees f ts → ETree (.func f p) (.node (.word "???") ts)
/-- The items of a tuple. -/
inductive ITrees : RExpr → Trees → Prop
  | pair {a b : RExpr} {p : Pos} {ts us : Trees} : ITrees a ts → ITrees b us → ITrees (.pair a b p) (ts.append us)
  | item {e : RExpr} {t : Tree} : (∀ a b p, e ≠ .pair a b p) → ETree e t → ITrees e (one t)
inductive CTrees : RCall → Trees → Prop
  | fn {f : RExpr} {args : RExprs} {t : Tree} {ts : Trees} : ETree f t → ETrees args ts → CTrees (.fn f args) (.cons t ts)
  | method {s i : RExpr} {q : Pos} {args : RExprs} {t u : Tree} {ts : Trees} : ETree s t → ETree i u → ETrees args ts →
    CTrees (.method s i q args) (.cons (.node (.word "->") (two t u)) ts)
inductive ETrees : RExprs → Trees → Prop
  | nil : ETrees .nil .nil
  | cons {e : RExpr} {es : RExprs} {t : Tree} {ts : Trees} : ETree e t → ETrees es ts → ETrees (.cons e es) (.cons t ts)
inductive PTrees : RPairs → Trees → Prop
  | nil : PTrees .nil .nil
  | cons {k i : RExpr} {ps : RPairs} {t u : Tree} {ts : Trees} : ETree k t → ETree i u → PTrees ps ts →
    PTrees (.cons k i ps) (.cons (.node (.word "Entry") (two t u)) ts)
inductive FTrees : RFun → Trees → Prop
  | mk {ps : RParams} {b : RStmt} {ts : Trees} {t : Tree} : ATrees ps ts → STree b t → FTrees (.mk ps b) (two (.node (.word "args") ts) t)
inductive ATrees : RParams → Trees → Prop
  | nil : ATrees .nil .nil
  | cons {x : Name} {v t : ROpt} {p : Pos} {ps : RParams} {vs us ts : Trees} : OTrees v vs → OTrees t us → ATrees ps ts →
    ATrees (.cons x v t p ps) (.cons (.node (.name x) (vs.append us)) ts)
inductive OTrees : ROpt → Trees → Prop
  | no : OTrees .no .nil
  | yes {e : RExpr} {t : Tree} : ETree e t → OTrees (.yes e) (one t)
inductive STree : RStmt → Tree → Prop
  | expr {e : RExpr} {t : Tree} : ETree e t → STree (.expr e) t
  | brk (p : Pos) : STree (.brk p) (leaf (.word "break"))
  | ifElse {c : RExpr} {a b : RStmt} {p : Pos} {t u v : Tree} : ETree c t → STree a u → STree b v →
    STree (.ifElse c a b p) (.node (.word "if-else") (.cons t (two u v)))
  | ifOnly {c : RExpr} {a : RStmt} {p : Pos} {t u : Tree} : ETree c t → STree a u → STree (.ifOnly c a p) (.node (.word "if") (two t u))
  | while {c : RExpr} {a : RStmt} {p : Pos} {t u : Tree} : ETree c t → STree a u → STree (.while c a p) (.node (.word "while") (two t u))
  | doWhile {c : RExpr} {a : RStmt} {p : Pos} {t u : Tree} : ETree c t → STree a u → STree (.doWhile a c p) (.node (.word "do-while") (two t u))
  | comp {ss : RStmts} {p : Pos} {ts : Trees} : STrees ss ts → STree (.comp ss p) (.node (.word "compound") ts)
  | ret {e : RExpr} {p : Pos} {ts : Trees} : ITrees e ts → STree (.ret e p) (.node (.word "return") ts)
  | func {x : Name} {f : RFun} {fp p : Pos} {ts : Trees} : FTrees f ts → STree (.func x f fp p) (.node (.name x) ts)
inductive STrees : RStmts → Trees → Prop
  | nil : STrees .nil .nil
  | cons {s : RStmt} {ss : RStmts} {t : Tree} {ts : Trees} : STree s t → STrees ss ts → STrees (.cons s ss) (.cons t ts)
end

/-- The drawing is a tree of which `root` is the root: every node is the end of one arrow except the root, which is the
end of none, and all nodes have labels. -/
structure IsTree (root : Nat) (g : GV) : Prop where
  once : (root :: g.body.map Prod.snd).Nodup
  nodes : ∀ d ∈ g.head, d.1 ∈ root :: g.body.map Prod.snd
  ends : ∀ n ∈ root :: g.body.map Prod.snd, shown g.head n ≠ none
  starts : ∀ a ∈ g.body, a.1 < a.2 ∧ shown g.head a.1 ≠ none

/-- **C89**: the diagram of a program is a drawing of its syntax tree. -/
def C89Statement : Prop :=
  ∀ (ss : RStmts), ∃ g ts, diagram ss = .ok g ∧ STrees ss ts ∧ Draws g.head g.body 1 (.node (.word "compound") ts) ∧ IsTree 1 g

/-! ## Proof -/

theorem shown_mid {H0 H1 : List (Nat × Label)} {n : Nat} {l : Label} (h : ∀ d ∈ H1, d.1 ≠ n) : shown (H0 ++ (n, l) :: H1) n = some l := by
  have e : H1.filter (fun d => d.1 == n) = [] := by
    rw [List.filter_eq_nil_iff]
    intro d hd
    simpa using h d hd
  unfold shown
  rw [List.filter_append, List.filter_cons_of_pos (by simp), e]
  simp

theorem shown_some {H : List (Nat × Label)} {n : Nat} (h : ∃ d ∈ H, d.1 = n) : shown H n ≠ none := by
  obtain ⟨d, hd, e⟩ := h
  have hm : d ∈ H.filter (fun d => d.1 == n) := List.mem_filter.mpr ⟨hd, by simpa using e⟩
  unfold shown
  intro h0
  rw [Option.map_eq_none_iff, List.getLast?_eq_none_iff] at h0
  rw [h0] at hm
  exact absurd hm List.not_mem_nil

theorem kidsOf_append (A B : List (Nat × Nat)) (n : Nat) : kidsOf (A ++ B) n = kidsOf A n ++ kidsOf B n := by
  simp [kidsOf]

theorem kidsOf_none {B : List (Nat × Nat)} {n : Nat} (h : ∀ a ∈ B, a.1 ≠ n) : kidsOf B n = [] := by
  unfold kidsOf
  rw [List.filter_eq_nil_iff.mpr (by intro a ha; simpa using h a ha)]
  rfl

theorem kidsOf_one (p n : Nat) : kidsOf [(p, n)] p = [n] := by
  simp [kidsOf]

theorem Trees.append_nil : ∀ ts : Trees, ts.append .nil = ts
  | .nil => rfl
  | .cons t ts => by rw [Trees.append, Trees.append_nil ts]

theorem DrawsAll.append {head : List (Nat × Label)} {body : List (Nat × Nat)} : ∀ {ns ms : List Nat} {ts us : Trees},
    DrawsAll head body ns ts → DrawsAll head body ms us → DrawsAll head body (ns ++ ms) (ts.append us)
  | [], _, .nil, _, _, h => h
  | _ :: _, _, .cons _ _, _, .cons n ns t ts h1 h2, h => .cons n _ t _ h1 (DrawsAll.append h2 h)

/-- What has been added while the counter went from `c` to `c'`, for node `n`; with `own`, declarations of `n`
itself are among them. -/
structure Part (own : Bool) (n c c' : Nat) (H : List (Nat × Label)) (B : List (Nat × Nat)) : Prop where
  le : c ≤ c'
  names : ∀ d ∈ H, (own = true ∧ d.1 = n) ∨ (c < d.1 ∧ d.1 ≤ c')
  decl : ∀ m, c < m → m ≤ c' → ∃ d ∈ H, d.1 = m
  arrows : ∀ a ∈ B, (a.1 = n ∨ c < a.1) ∧ a.1 < a.2 ∧ c < a.2 ∧ a.2 ≤ c'
  ends : ∀ m, c < m → m ≤ c' → m ∈ B.map Prod.snd
  once : (B.map Prod.snd).Nodup

/-- None of the numbers is above `c` and at most `c'`. -/
def Off (c c' : Nat) {α : Type} (l : List (Nat × α)) : Prop := ∀ x ∈ l, x.1 ≤ c ∨ c' < x.1

def Emits (f : Nat → GV → Exec GV) (t : Tree) : Prop :=
  ∀ n g, n ≤ g.count → ∃ c' H B, f n g = .ok ⟨c', g.head ++ H, g.body ++ B⟩ ∧ Part true n g.count c' H B ∧ (∃ d ∈ H, d.1 = n) ∧
    ∀ H0 H1 B0 B1, Off g.count c' H0 → Off g.count c' H1 → (∀ d ∈ H1, d.1 ≠ n) → Off g.count c' B0 → Off g.count c' B1 →
      (∀ a ∈ B0, a.1 ≠ n) → (∀ a ∈ B1, a.1 ≠ n) → Draws (H0 ++ (H ++ H1)) (B0 ++ (B ++ B1)) n t

def EmitsK (f : Nat → GV → Exec GV) (ts : Trees) : Prop :=
  ∀ n g, n ≤ g.count → ∃ c' H B, f n g = .ok ⟨c', g.head ++ H, g.body ++ B⟩ ∧ Part false n g.count c' H B ∧
    ∀ H0 H1 B0 B1, Off g.count c' H0 → Off g.count c' H1 → Off g.count c' B0 → Off g.count c' B1 →
      DrawsAll (H0 ++ (H ++ H1)) (B0 ++ (B ++ B1)) (kidsOf B n) ts

theorem Off.append {α : Type} {c c' : Nat} {l l' : List (Nat × α)} (h : Off c c' l) (h' : Off c c' l') : Off c c' (l ++ l') := by
  intro x hx
  rcases List.mem_append.mp hx with hx | hx
  · exact h x hx
  · exact h' x hx

theorem Off.sub {α : Type} {c c' d d' : Nat} {l : List (Nat × α)} (h : Off c c' l) (h1 : c ≤ d) (h2 : d' ≤ c') : Off d d' l := by
  intro x hx
  rcases h x hx with h | h <;> omega

theorem emitsK_nil : EmitsK (fun _ g => .ok g) .nil := by
  intro n g hn
  refine ⟨g.count, [], [], by simp, ⟨Nat.le_refl _, by simp, by intro m h1 h2; omega, by simp, by intro m h1 h2; omega, by simp⟩, ?_⟩
  intro _ _ _ _ _ _ _ _
  exact .nil

theorem Part.append {n c c1 c2 : Nat} {H H' : List (Nat × Label)} {B B' : List (Nat × Nat)} (hn : n ≤ c)
    (h : Part false n c c1 H B) (h' : Part false n c1 c2 H' B') : Part false n c c2 (H ++ H') (B ++ B') := by
  have l1 := h.le
  have l2 := h'.le
  refine ⟨by omega, ?_, ?_, ?_, ?_, ?_⟩
  · intro d hd
    rcases List.mem_append.mp hd with hd | hd
    · rcases h.names d hd with ⟨h, _⟩ | h
      · cases h
      · right; omega
    · rcases h'.names d hd with ⟨h, _⟩ | h
      · cases h
      · right; omega
  · intro m h1 h2
    by_cases hm : m ≤ c1
    · obtain ⟨d, hd, e⟩ := h.decl m h1 hm
      exact ⟨d, List.mem_append_left _ hd, e⟩
    · obtain ⟨d, hd, e⟩ := h'.decl m (by omega) h2
      exact ⟨d, List.mem_append_right _ hd, e⟩
  · intro a ha
    rcases List.mem_append.mp ha with ha | ha
    · have := h.arrows a ha; omega
    · have := h'.arrows a ha; omega
  · intro m h1 h2
    rw [List.map_append]
    by_cases hm : m ≤ c1
    · exact List.mem_append_left _ (h.ends m h1 hm)
    · exact List.mem_append_right _ (h'.ends m (by omega) h2)
  · rw [List.map_append, List.nodup_append]
    refine ⟨h.once, h'.once, ?_⟩
    intro x hx y hy
    obtain ⟨a, ha, rfl⟩ := List.mem_map.mp hx
    obtain ⟨b, hb, rfl⟩ := List.mem_map.mp hy
    have := h.arrows a ha
    have := h'.arrows b hb
    omega

theorem emitsK_append {f f' : Nat → GV → Exec GV} {ts us : Trees} (h : EmitsK f ts) (h' : EmitsK f' us) :
    EmitsK (fun n g => f n g >>= fun g => f' n g) (ts.append us) := by
  intro n g hn
  obtain ⟨c1, H, B, e, hp, hd⟩ := h n g hn
  have l1 := hp.le
  obtain ⟨c2, H', B', e', hp', hd'⟩ := h' n ⟨c1, g.head ++ H, g.body ++ B⟩ (by show n ≤ c1; omega)
  have l2 : c1 ≤ c2 := hp'.le
  refine ⟨c2, H ++ H', B ++ B', ?_, hp.append hn hp', ?_⟩
  · dsimp only
    rw [e, Exec.bind_ok, e']
    simp
  · intro H0 H1 B0 B1 o1 o2 o3 o4
    have oH : Off c1 c2 H := by
      intro d hd
      rcases hp.names d hd with ⟨h, _⟩ | h
      · cases h
      · left; omega
    have oH' : Off g.count c1 H' := by
      intro d hd
      rcases hp'.names d hd with ⟨h, _⟩ | h
      · cases h
      · right; exact h.1
    have oB : Off c1 c2 B := by
      intro a ha
      have := hp.arrows a ha
      left; omega
    have oB' : Off g.count c1 B' := by
      intro a ha
      have := hp'.arrows a ha
      have h2 : c1 < a.2 := this.2.2.1
      rcases this.1 with h | h
      · left; omega
      · right; exact h
    rw [kidsOf_append]
    refine DrawsAll.append ?_ ?_
    · have := hd H0 (H' ++ H1) B0 (B' ++ B1) (o1.sub (Nat.le_refl _) l2) (oH'.append (o2.sub (Nat.le_refl _) l2)) (o3.sub (Nat.le_refl _) l2)
        (oB'.append (o4.sub (Nat.le_refl _) l2))
      simpa using this
    · have := hd' (H0 ++ H) H1 (B0 ++ B) B1 ((o1.sub l1 (Nat.le_refl _)).append oH) (o2.sub l1 (Nat.le_refl _))
        ((o3.sub l1 (Nat.le_refl _)).append oB) (o4.sub l1 (Nat.le_refl _))
      simpa using this

theorem emitsK_child {f : Nat → GV → Exec GV} {t : Tree} (h : Emits f t) : EmitsK (fun n g => child n f g) (one t) := by
  intro n g hn
  obtain ⟨c', H, B, e, hp, hd, hdr⟩ := h (g.count + 1) { g with count := g.count + 1 } (Nat.le_refl _)
  have l : g.count + 1 ≤ c' := hp.le
  have hk : kidsOf (B ++ [(n, g.count + 1)]) n = [g.count + 1] := by
    rw [kidsOf_append, kidsOf_one, kidsOf_none]
    · rfl
    · intro a ha
      have h1 := (hp.arrows a ha).1
      rcases h1 with h1 | h1
      · omega
      · have h2 : g.count + 1 < a.1 := h1
        omega
  refine ⟨c', H, B ++ [(n, g.count + 1)], ?_, ?_, ?_⟩
  · unfold child
    simp only
    rw [e, Exec.bind_ok]
    simp [edge]
  · refine ⟨by omega, ?_, ?_, ?_, ?_, ?_⟩
    · intro d hd
      right
      rcases hp.names d hd with ⟨_, h⟩ | h
      · omega
      · have h2 : g.count + 1 < d.1 := h.1
        omega
    · intro m h1 h2
      by_cases hm : m = g.count + 1
      · subst hm; exact hd
      · exact hp.decl m (show g.count + 1 < m by omega) h2
    · intro a ha
      rcases List.mem_append.mp ha with ha | ha
      · obtain ⟨h1, h2, h3, h4⟩ := hp.arrows a ha
        have h3' : g.count + 1 < a.2 := h3
        refine ⟨.inr ?_, h2, by omega, h4⟩
        rcases h1 with h1 | h1
        · omega
        · have : g.count + 1 < a.1 := h1
          omega
      · cases List.mem_singleton.mp ha
        exact ⟨.inl rfl, by show n < g.count + 1; omega, by show g.count < g.count + 1; omega, l⟩
    · intro m h1 h2
      rw [List.map_append]
      by_cases hm : m = g.count + 1
      · subst hm; exact List.mem_append_right _ (by simp)
      · exact List.mem_append_left _ (hp.ends m (show g.count + 1 < m by omega) h2)
    · rw [List.map_append, List.nodup_append]
      refine ⟨hp.once, by simp, ?_⟩
      intro x hx y hy
      obtain ⟨a, ha, rfl⟩ := List.mem_map.mp hx
      have h3 : g.count + 1 < a.2 := (hp.arrows a ha).2.2.1
      simp at hy
      omega
  · intro H0 H1 B0 B1 o1 o2 o3 o4
    rw [hk]
    refine .cons _ _ _ _ ?_ .nil
    have hne : ∀ {α : Type} {l : List (Nat × α)}, Off g.count c' l → ∀ x ∈ l, x.1 ≠ g.count + 1 := by
      intro α l' o x hx
      have := o x hx
      omega
    have oe : Off g.count c' [(n, g.count + 1)] := by
      intro x hx
      cases List.mem_singleton.mp hx
      left; exact hn
    have := hdr H0 H1 B0 ((n, g.count + 1) :: B1) (o1.sub (Nat.le_succ _) (Nat.le_refl _)) (o2.sub (Nat.le_succ _) (Nat.le_refl _)) (hne o2)
      (o3.sub (Nat.le_succ _) (Nat.le_refl _)) ((oe.append o4).sub (Nat.le_succ _) (Nat.le_refl _)) (hne o3) (hne (oe.append o4))
    simpa using this

/-- A node whose arrow is written before its children. -/
theorem emitsK_early {f : Nat → GV → Exec GV} {ts : Trees} (l : Label) (h : EmitsK f ts) :
    EmitsK (fun n g => f (g.count + 1) (edge n (g.count + 1) (decl (g.count + 1) l { g with count := g.count + 1 }))) (one (.node l ts)) := by
  intro n g hn
  obtain ⟨c', H, B, e, hp, hdr⟩ := h (g.count + 1) (edge n (g.count + 1) (decl (g.count + 1) l { g with count := g.count + 1 })) (Nat.le_refl _)
  have hc : (edge n (g.count + 1) (decl (g.count + 1) l { g with count := g.count + 1 })).count = g.count + 1 := rfl
  rw [hc] at hp hdr
  have lc : g.count + 1 ≤ c' := hp.le
  have hk : kidsOf ((n, g.count + 1) :: B) n = [g.count + 1] := by
    rw [show (n, g.count + 1) :: B = [(n, g.count + 1)] ++ B from rfl, kidsOf_append, kidsOf_one, kidsOf_none]
    · rfl
    · intro a ha
      have h1 := (hp.arrows a ha).1
      omega
  refine ⟨c', (g.count + 1, l) :: H, (n, g.count + 1) :: B, ?_, ?_, ?_⟩
  · dsimp only
    rw [e]
    simp [edge, decl]
  · refine ⟨by omega, ?_, ?_, ?_, ?_, ?_⟩
    · intro d hd
      right
      rcases List.mem_cons.mp hd with rfl | hd
      · exact ⟨by show g.count < g.count + 1; omega, lc⟩
      · rcases hp.names d hd with ⟨h, _⟩ | h
        · cases h
        · omega
    · intro m h1 h2
      by_cases hm : m = g.count + 1
      · exact ⟨_, List.mem_cons_self, hm.symm⟩
      · obtain ⟨d, hd, e⟩ := hp.decl m (by omega) h2
        exact ⟨d, List.mem_cons_of_mem _ hd, e⟩
    · intro a ha
      rcases List.mem_cons.mp ha with rfl | ha
      · exact ⟨.inl rfl, by show n < g.count + 1; omega, by show g.count < g.count + 1; omega, lc⟩
      · have := hp.arrows a ha
        omega
    · intro m h1 h2
      rw [List.map_cons]
      by_cases hm : m = g.count + 1
      · subst hm; exact List.mem_cons_self
      · exact List.mem_cons_of_mem _ (hp.ends m (by omega) h2)
    · rw [List.map_cons, List.nodup_cons]
      refine ⟨?_, hp.once⟩
      intro hx
      obtain ⟨a, ha, h⟩ := List.mem_map.mp hx
      have h3 := (hp.arrows a ha).2.2.1
      have h' : a.2 = g.count + 1 := h
      omega
  · intro H0 H1 B0 B1 o1 o2 o3 o4
    rw [hk]
    have oe : Off g.count c' [(n, g.count + 1)] := by
      intro x hx
      cases List.mem_singleton.mp hx
      left; exact hn
    have hne : ∀ {α : Type} {l : List (Nat × α)}, Off g.count c' l → ∀ x ∈ l, x.1 ≠ g.count + 1 := by
      intro α l' o x hx
      have := o x hx
      omega
    have of : Off (g.count + 1) c' [(g.count + 1, l)] := by
      intro x hx
      cases List.mem_singleton.mp hx
      left; exact Nat.le_refl _
    refine .cons _ _ _ _ (.node _ _ _ (kidsOf B (g.count + 1)) ?_ ?_ ?_) .nil
    · refine shown_mid ?_
      intro d hd
      rcases List.mem_append.mp hd with hd | hd
      · rcases hp.names d hd with ⟨h, _⟩ | h
        · cases h
        · omega
      · exact hne o2 d hd
    · rw [kidsOf_append, kidsOf_none (hne o3), List.cons_append, show (n, g.count + 1) :: (B ++ B1) = [(n, g.count + 1)] ++ (B ++ B1) from rfl,
        kidsOf_append, kidsOf_none (hne oe), kidsOf_append, kidsOf_none (hne o4)]
      simp
    · have := hdr (H0 ++ [(g.count + 1, l)]) H1 (B0 ++ [(n, g.count + 1)]) B1 ((o1.sub (Nat.le_succ _) (Nat.le_refl _)).append of)
        (o2.sub (Nat.le_succ _) (Nat.le_refl _)) ((o3.append oe).sub (Nat.le_succ _) (Nat.le_refl _)) (o4.sub (Nat.le_succ _) (Nat.le_refl _))
      simpa using this

theorem emits_node {f : Nat → GV → Exec GV} {ts : Trees} (l : Label) (h : EmitsK f ts) : Emits (fun n g => f n (decl n l g)) (.node l ts) := by
  intro n g hn
  obtain ⟨c', H, B, e, hp, hdr⟩ := h n (decl n l g) hn
  have hc : (decl n l g).count = g.count := rfl
  rw [hc] at hp hdr
  refine ⟨c', (n, l) :: H, B, ?_, ?_, ⟨_, List.mem_cons_self, rfl⟩, ?_⟩
  · dsimp only
    rw [e]
    simp [decl]
  · refine ⟨hp.le, ?_, ?_, hp.arrows, hp.ends, hp.once⟩
    · intro d hd
      rcases List.mem_cons.mp hd with rfl | hd
      · exact .inl ⟨rfl, rfl⟩
      · rcases hp.names d hd with ⟨h, _⟩ | h
        · cases h
        · exact .inr h
    · intro m h1 h2
      obtain ⟨d, hd, e⟩ := hp.decl m h1 h2
      exact ⟨d, List.mem_cons_of_mem _ hd, e⟩
  · intro H0 H1 B0 B1 o1 o2 n2 o3 o4 n3 n4
    have of : Off g.count c' [(n, l)] := by
      intro x hx
      cases List.mem_singleton.mp hx
      left; exact hn
    refine .node _ _ _ (kidsOf B n) ?_ ?_ ?_
    · refine shown_mid ?_
      intro d hd
      rcases List.mem_append.mp hd with hd | hd
      · rcases hp.names d hd with ⟨h, _⟩ | h
        · cases h
        · omega
      · exact n2 d hd
    · rw [kidsOf_append, kidsOf_none n3, kidsOf_append, kidsOf_none n4]
      simp
    · have := hdr (H0 ++ [(n, l)]) H1 B0 B1 (o1.append of) o2 o3 o4
      simpa using this

/-- A label in front of another one. -/
theorem emits_over {f : Nat → GV → Exec GV} {t : Tree} (l : Label) (h : Emits f t) : Emits (fun n g => f n (decl n l g)) t := by
  intro n g hn
  obtain ⟨c', H, B, e, hp, hd, hdr⟩ := h n (decl n l g) hn
  have hc : (decl n l g).count = g.count := rfl
  rw [hc] at hp hdr
  refine ⟨c', (n, l) :: H, B, ?_, ?_, ⟨_, List.mem_cons_self, rfl⟩, ?_⟩
  · dsimp only
    rw [e]
    simp [decl]
  · refine ⟨hp.le, ?_, ?_, hp.arrows, hp.ends, hp.once⟩
    · intro d hd
      rcases List.mem_cons.mp hd with rfl | hd
      · exact .inl ⟨rfl, rfl⟩
      · exact hp.names d hd
    · intro m h1 h2
      obtain ⟨d, hd, e⟩ := hp.decl m h1 h2
      exact ⟨d, List.mem_cons_of_mem _ hd, e⟩
  · intro H0 H1 B0 B1 o1 o2 n2 o3 o4 n3 n4
    have of : Off g.count c' [(n, l)] := by
      intro x hx
      cases List.mem_singleton.mp hx
      left; exact hn
    have := hdr (H0 ++ [(n, l)]) H1 B0 B1 (o1.append of) o2 n2 o3 o4 n3 n4
    simpa using this

theorem escape_ok : ∀ s : List UInt8, (0 : UInt8) ∉ s → unescape (escape s) = some s
  | [], _ => rfl
  | c :: s, h => by
    have h0 : c ≠ 0 := fun e => h (by rw [e]; exact List.mem_cons_self)
    have ih := escape_ok s (fun hm => h (List.mem_cons_of_mem _ hm))
    unfold escape
    rw [if_neg h0]
    by_cases h1 : c = 34
    · rw [if_pos h1, h1]
      show (unescape (escape s)).map _ = _
      rw [ih]; rfl
    rw [if_neg h1]
    by_cases h2 : c = 92
    · rw [if_pos h2, h2]
      show (unescape (escape s)).map _ = _
      rw [ih]; rfl
    rw [if_neg h2]
    by_cases h3 : c = 9
    · rw [if_pos h3, h3]
      show (unescape (escape s)).map _ = _
      rw [ih]; rfl
    rw [if_neg h3]
    by_cases h4 : c = 10
    · rw [if_pos h4, h4]
      show (unescape (escape s)).map _ = _
      rw [ih]; rfl
    rw [if_neg h4, unescape]
    · rw [ih]; rfl
    · intro _ _ e; exact absurd e h2
    · intro e; exact absurd e h2
    · intro e; exact absurd e h1


mutual
/-- The programs for which the diagram is right: no tuples but in `return`, and there no more than 32 items, no
number that needs more than 32 bits and no string with a NUL.  With `tup`, an item of `return`. -/
def FineE : RExpr → (tup : Bool) → Prop
  | .pair a b _, tup => tup = true ∧ FineE a true ∧ FineE b true
  | .int v _, _ => IsI32 v
  | .str s _, _ => (0 : UInt8) ∉ s
  | .un _ a _, _ => FineE a false
  | .bin _ a b _, _ | .and a b _, _ | .or a b _, _ | .ass a b _, _ | .arw a b _, _ | .select a b _, _ => FineE a false ∧ FineE b false
  | .list es _, _ => FineEs es
  | .map ps _, _ => FinePs ps
  | .call c _, _ => FineC c
  | .func f _, _ => FineF f
  | .float _ _, _ | .ident _ _, _ | .none _, _ | .tru _, _ | .fls _, _ => True
def FineC : RCall → Prop
  | .fn f args => FineE f false ∧ FineEs args
  | .method s i _ args => FineE s false ∧ FineE i false ∧ FineEs args
def FineEs : RExprs → Prop
  | .nil => True
  | .cons e es => FineE e false ∧ FineEs es
def FinePs : RPairs → Prop
  | .nil => True
  | .cons k i ps => FineE k false ∧ FineE i false ∧ FinePs ps
def FineF : RFun → Prop
  | .mk ps b => FineA ps ∧ FineS b
def FineA : RParams → Prop
  | .nil => True
  | .cons _ v t _ ps => FineO v ∧ FineO t ∧ FineA ps
def FineO : ROpt → Prop
  | .no => True
  | .yes e => FineE e false
def FineS : RStmt → Prop
  | .expr e => FineE e false
  | .brk _ => True
  | .ifElse c t f _ => FineE c false ∧ FineS t ∧ FineS f
  | .ifOnly c t _ | .while c t _ | .doWhile t c _ => FineE c false ∧ FineS t
  | .comp ss _ => FineSs ss
  | .ret e _ => FineE e true ∧ e.tupleCount ≤ 32
  | .func _ f _ _ => FineF f
def FineSs : RStmts → Prop
  | .nil => True
  | .cons s ss => FineS s ∧ FineSs ss
end

theorem expr_item (e : RExpr) (he : ∀ a b p, e ≠ .pair a b p) : expr e true = fun n g => child n (expr e false) g := by
  funext n g
  cases e with
  | pair a b p => exact absurd rfl (he a b p)
  | _ => simp only [expr, place]; rfl

theorem emits_eq {f f' : Nat → GV → Exec GV} {t : Tree} (h : Emits f t) (e : ∀ n g, f' n g = f n g) : Emits f' t := by
  have : f' = f := by funext n g; exact e n g
  rw [this]; exact h

theorem emitsK_eq {f f' : Nat → GV → Exec GV} {t : Trees} (h : EmitsK f t) (e : ∀ n g, f' n g = f n g) : EmitsK f' t := by
  have : f' = f := by funext n g; exact e n g
  rw [this]; exact h

theorem emits_leaf (l : Label) : Emits (fun n g => .ok (decl n l g)) (leaf l) := emits_node l emitsK_nil

theorem emits_one {f : Nat → GV → Exec GV} {t : Tree} (l : Label) (h : Emits f t) : Emits (fun n g => child n f (decl n l g)) (.node l (one t)) :=
  emits_node l (emitsK_child h)

theorem emits_two {f f' : Nat → GV → Exec GV} {t u : Tree} (l : Label) (h : Emits f t) (h' : Emits f' u) :
    Emits (fun n g => child n f (decl n l g) >>= fun g => child n f' g) (.node l (two t u)) :=
  emits_node l (emitsK_append (emitsK_child h) (emitsK_child h'))

/-- What is known of an expression. -/
def GoodE (e : RExpr) : Prop := ∃ t, ETree e t ∧ Emits (expr e false) t

theorem good_item {e : RExpr} (he : ∀ a b p, e ≠ .pair a b p) (h : GoodE e) : ∃ ts, ITrees e ts ∧ EmitsK (expr e true) ts := by
  obtain ⟨t, h1, h2⟩ := h
  exact ⟨one t, .item he h1, by rw [expr_item e he]; exact emitsK_child h2⟩

mutual
theorem good_E : ∀ e : RExpr, FineE e false → GoodE e
  | .pair a b p, h => by simp [FineE] at h
  | .int v p, h => ⟨_, .int v p, emits_eq (emits_leaf (.num v)) (fun n g => by
      simp only [FineE] at h
      simp [expr, place, toI32_of_isI32 h])⟩
  | .str s p, h => ⟨_, .str s (escape s) p (escape_ok s (by simpa only [FineE] using h)), emits_eq (emits_leaf _) (fun n g => by simp [expr, place])⟩
  | .float x p, _ => ⟨_, .float x p, emits_eq (emits_leaf _) (fun n g => by simp [expr, place])⟩
  | .ident x p, _ => ⟨_, .ident x p, emits_eq (emits_leaf _) (fun n g => by simp [expr, place])⟩
  | .none p, _ => ⟨_, .none p, emits_eq (emits_leaf _) (fun n g => by simp [expr, place])⟩
  | .tru p, _ => ⟨_, .tru p, emits_eq (emits_leaf _) (fun n g => by simp [expr, place])⟩
  | .fls p, _ => ⟨_, .fls p, emits_eq (emits_leaf _) (fun n g => by simp [expr, place])⟩
  | .un op a p, h => by
    obtain ⟨t, h1, h2⟩ := good_E a (by simpa only [FineE] using h)
    exact ⟨_, .un h1, emits_eq (emits_one _ h2) (fun n g => by simp [expr, place])⟩
  | .bin op a b p, h => by
    simp only [FineE] at h
    obtain ⟨t, h1, h2⟩ := good_E a h.1
    obtain ⟨u, h3, h4⟩ := good_E b h.2
    exact ⟨_, .bin h1 h3, emits_eq (emits_two _ h2 h4) (fun n g => by simp [expr, place])⟩
  | .and a b p, h => by
    simp only [FineE] at h
    obtain ⟨t, h1, h2⟩ := good_E a h.1
    obtain ⟨u, h3, h4⟩ := good_E b h.2
    exact ⟨_, .and h1 h3, emits_eq (emits_two _ h2 h4) (fun n g => by simp [expr, place])⟩
  | .or a b p, h => by
    simp only [FineE] at h
    obtain ⟨t, h1, h2⟩ := good_E a h.1
    obtain ⟨u, h3, h4⟩ := good_E b h.2
    exact ⟨_, .or h1 h3, emits_eq (emits_two _ h2 h4) (fun n g => by simp [expr, place])⟩
  | .ass a b p, h => by
    simp only [FineE] at h
    obtain ⟨t, h1, h2⟩ := good_E a h.1
    obtain ⟨u, h3, h4⟩ := good_E b h.2
    exact ⟨_, .ass h1 h3, emits_eq (emits_two _ h2 h4) (fun n g => by simp [expr, place])⟩
  | .arw a b p, h => by
    simp only [FineE] at h
    obtain ⟨t, h1, h2⟩ := good_E a h.1
    obtain ⟨u, h3, h4⟩ := good_E b h.2
    exact ⟨_, .arw h1 h3, emits_eq (emits_two _ h2 h4) (fun n g => by simp [expr, place])⟩
  | .select a b p, h => by
    simp only [FineE] at h
    obtain ⟨t, h1, h2⟩ := good_E a h.1
    obtain ⟨u, h3, h4⟩ := good_E b h.2
    exact ⟨_, .select h1 h3, emits_eq (emits_two _ h2 h4) (fun n g => by simp [expr, place])⟩
  | .list es p, h => by
    obtain ⟨ts, h1, h2⟩ := good_Es es (by simpa only [FineE] using h)
    exact ⟨_, .list h1, emits_eq (emits_node _ h2) (fun n g => by simp [expr, place])⟩
  | .map ps p, h => by
    obtain ⟨ts, h1, h2⟩ := good_Ps ps (by simpa only [FineE] using h)
    exact ⟨_, .map h1, emits_eq (emits_node _ h2) (fun n g => by simp [expr, place])⟩
  | .call c p, h => by
    obtain ⟨ts, h1, h2⟩ := good_C c (by simpa only [FineE] using h)
    exact ⟨_, .call h1, emits_eq (emits_node _ h2) (fun n g => by simp [expr, place])⟩
  | .func f p, h => by
    obtain ⟨ts, h1, h2⟩ := good_F f (by simpa only [FineE] using h)
    exact ⟨_, .func h1, emits_eq (h2 (.word "???")) (fun n g => by simp [expr, place])⟩
theorem good_I : ∀ e : RExpr, FineE e true → ∃ ts, ITrees e ts ∧ EmitsK (expr e true) ts
  | .pair a b p, h => by
    simp only [FineE] at h
    obtain ⟨ts, h1, h2⟩ := good_I a h.2.1
    obtain ⟨us, h3, h4⟩ := good_I b h.2.2
    exact ⟨_, .pair h1 h3, emitsK_eq (emitsK_append h2 h4) (fun n g => by simp [expr])⟩
  | .int v p, h => good_item (by intro a b p; simp) (by
      refine ⟨_, .int v p, emits_eq (emits_leaf (.num v)) (fun n g => ?_)⟩
      simp only [FineE] at h
      simp [expr, place, toI32_of_isI32 h])
  | .str s p, h => good_item (by intro a b p; simp)
      ⟨_, .str s (escape s) p (escape_ok s (by simpa only [FineE] using h)), emits_eq (emits_leaf _) (fun n g => by simp [expr, place])⟩
  | .float x p, _ => good_item (by intro a b p; simp) ⟨_, .float x p, emits_eq (emits_leaf _) (fun n g => by simp [expr, place])⟩
  | .ident x p, _ => good_item (by intro a b p; simp) ⟨_, .ident x p, emits_eq (emits_leaf _) (fun n g => by simp [expr, place])⟩
  | .none p, _ => good_item (by intro a b p; simp) ⟨_, .none p, emits_eq (emits_leaf _) (fun n g => by simp [expr, place])⟩
  | .tru p, _ => good_item (by intro a b p; simp) ⟨_, .tru p, emits_eq (emits_leaf _) (fun n g => by simp [expr, place])⟩
  | .fls p, _ => good_item (by intro a b p; simp) ⟨_, .fls p, emits_eq (emits_leaf _) (fun n g => by simp [expr, place])⟩
  | .un op a p, h => good_item (by intro a b p; simp) (by
    obtain ⟨t, h1, h2⟩ := good_E a (by simpa only [FineE] using h)
    exact ⟨_, .un h1, emits_eq (emits_one _ h2) (fun n g => by simp [expr, place])⟩)
  | .bin op a b p, h => good_item (by intro a b p; simp) (by
    simp only [FineE] at h
    obtain ⟨t, h1, h2⟩ := good_E a h.1
    obtain ⟨u, h3, h4⟩ := good_E b h.2
    exact ⟨_, .bin h1 h3, emits_eq (emits_two _ h2 h4) (fun n g => by simp [expr, place])⟩)
  | .and a b p, h => good_item (by intro a b p; simp) (by
    simp only [FineE] at h
    obtain ⟨t, h1, h2⟩ := good_E a h.1
    obtain ⟨u, h3, h4⟩ := good_E b h.2
    exact ⟨_, .and h1 h3, emits_eq (emits_two _ h2 h4) (fun n g => by simp [expr, place])⟩)
  | .or a b p, h => good_item (by intro a b p; simp) (by
    simp only [FineE] at h
    obtain ⟨t, h1, h2⟩ := good_E a h.1
    obtain ⟨u, h3, h4⟩ := good_E b h.2
    exact ⟨_, .or h1 h3, emits_eq (emits_two _ h2 h4) (fun n g => by simp [expr, place])⟩)
  | .ass a b p, h => good_item (by intro a b p; simp) (by
    simp only [FineE] at h
    obtain ⟨t, h1, h2⟩ := good_E a h.1
    obtain ⟨u, h3, h4⟩ := good_E b h.2
    exact ⟨_, .ass h1 h3, emits_eq (emits_two _ h2 h4) (fun n g => by simp [expr, place])⟩)
  | .arw a b p, h => good_item (by intro a b p; simp) (by
    simp only [FineE] at h
    obtain ⟨t, h1, h2⟩ := good_E a h.1
    obtain ⟨u, h3, h4⟩ := good_E b h.2
    exact ⟨_, .arw h1 h3, emits_eq (emits_two _ h2 h4) (fun n g => by simp [expr, place])⟩)
  | .select a b p, h => good_item (by intro a b p; simp) (by
    simp only [FineE] at h
    obtain ⟨t, h1, h2⟩ := good_E a h.1
    obtain ⟨u, h3, h4⟩ := good_E b h.2
    exact ⟨_, .select h1 h3, emits_eq (emits_two _ h2 h4) (fun n g => by simp [expr, place])⟩)
  | .list es p, h => good_item (by intro a b p; simp) (by
    obtain ⟨ts, h1, h2⟩ := good_Es es (by simpa only [FineE] using h)
    exact ⟨_, .list h1, emits_eq (emits_node _ h2) (fun n g => by simp [expr, place])⟩)
  | .map ps p, h => good_item (by intro a b p; simp) (by
    obtain ⟨ts, h1, h2⟩ := good_Ps ps (by simpa only [FineE] using h)
    exact ⟨_, .map h1, emits_eq (emits_node _ h2) (fun n g => by simp [expr, place])⟩)
  | .call c p, h => good_item (by intro a b p; simp) (by
    obtain ⟨ts, h1, h2⟩ := good_C c (by simpa only [FineE] using h)
    exact ⟨_, .call h1, emits_eq (emits_node _ h2) (fun n g => by simp [expr, place])⟩)
  | .func f p, h => good_item (by intro a b p; simp) (by
    obtain ⟨ts, h1, h2⟩ := good_F f (by simpa only [FineE] using h)
    exact ⟨_, .func h1, emits_eq (h2 (.word "???")) (fun n g => by simp [expr, place])⟩)
theorem good_C : ∀ c : RCall, FineC c → ∃ ts, CTrees c ts ∧ EmitsK (call c) ts
  | .fn f args, h => by
    simp only [FineC] at h
    obtain ⟨t, h1, h2⟩ := good_E f h.1
    obtain ⟨ts, h3, h4⟩ := good_Es args h.2
    exact ⟨_, .fn h1 h3, emitsK_eq (emitsK_append (emitsK_child h2) h4) (fun n g => by simp only [call])⟩
  | .method s i q args, h => by
    simp only [FineC] at h
    obtain ⟨t, h1, h2⟩ := good_E s h.1
    obtain ⟨u, h3, h4⟩ := good_E i h.2.1
    obtain ⟨ts, h5, h6⟩ := good_Es args h.2.2
    exact ⟨_, .method h1 h3 h5, emitsK_eq (emitsK_append (emitsK_child (emits_two _ h2 h4)) h6) (fun n g => by simp only [call])⟩
theorem good_Es : ∀ es : RExprs, FineEs es → ∃ ts, ETrees es ts ∧ EmitsK (exprs es) ts
  | .nil, _ => ⟨_, .nil, emitsK_eq emitsK_nil (fun n g => by simp only [exprs])⟩
  | .cons e es, h => by
    simp only [FineEs] at h
    obtain ⟨t, h1, h2⟩ := good_E e h.1
    obtain ⟨ts, h3, h4⟩ := good_Es es h.2
    exact ⟨_, .cons h1 h3, emitsK_eq (emitsK_append (emitsK_child h2) h4) (fun n g => by simp only [exprs])⟩
theorem good_Ps : ∀ ps : RPairs, FinePs ps → ∃ ts, PTrees ps ts ∧ EmitsK (pairs ps) ts
  | .nil, _ => ⟨_, .nil, emitsK_eq emitsK_nil (fun n g => by simp only [pairs])⟩
  | .cons k i ps, h => by
    simp only [FinePs] at h
    obtain ⟨t, h1, h2⟩ := good_E k h.1
    obtain ⟨u, h3, h4⟩ := good_E i h.2.1
    obtain ⟨ts, h5, h6⟩ := good_Ps ps h.2.2
    refine ⟨_, .cons h1 h3 h5, emitsK_eq (emitsK_append (emitsK_early (.word "Entry") (emitsK_append (emitsK_child h2) (emitsK_child h4))) h6) (fun n g => ?_)⟩
    simp only [pairs]
    cases child (g.count + 1) (expr k false) (edge n (g.count + 1) (decl (g.count + 1) (.word "Entry") { g with count := g.count + 1 })) <;> rfl
theorem good_F : ∀ f : RFun, FineF f → ∃ ts, FTrees f ts ∧ ∀ l, Emits (func f l) (.node l ts)
  | .mk ps b, h => by
    simp only [FineF] at h
    obtain ⟨ts, h1, h2⟩ := good_A ps h.1
    obtain ⟨t, h3, h4⟩ := good_S b h.2
    refine ⟨_, .mk h1 h3, fun l => emits_eq (emits_node l (emitsK_append (emitsK_early (.word "args") h2) (emitsK_child h4))) (fun n g => ?_)⟩
    simp only [func]
theorem good_A : ∀ ps : RParams, FineA ps → ∃ ts, ATrees ps ts ∧ EmitsK (params ps) ts
  | .nil, _ => ⟨_, .nil, emitsK_eq emitsK_nil (fun n g => by simp only [params])⟩
  | .cons x v t p ps, h => by
    simp only [FineA] at h
    obtain ⟨vs, h1, h2⟩ := good_O v h.1
    obtain ⟨us, h3, h4⟩ := good_O t h.2.1
    obtain ⟨ts, h5, h6⟩ := good_A ps h.2.2
    refine ⟨_, .cons h1 h3 h5, emitsK_eq (emitsK_append (emitsK_early (.name x) (emitsK_append h2 h4)) h6) (fun n g => ?_)⟩
    simp only [params]
    cases opt v (g.count + 1) (edge n (g.count + 1) (decl (g.count + 1) (.name x) { g with count := g.count + 1 })) <;> rfl
theorem good_O : ∀ o : ROpt, FineO o → ∃ ts, OTrees o ts ∧ EmitsK (opt o) ts
  | .no, _ => ⟨_, .no, emitsK_eq emitsK_nil (fun n g => by simp only [opt])⟩
  | .yes e, h => by
    obtain ⟨t, h1, h2⟩ := good_E e (by simpa only [FineO] using h)
    exact ⟨_, .yes h1, emitsK_eq (emitsK_child h2) (fun n g => by simp only [opt])⟩
theorem good_S : ∀ s : RStmt, FineS s → ∃ t, STree s t ∧ Emits (stmt s) t
  | .expr e, h => by
    obtain ⟨t, h1, h2⟩ := good_E e (by simpa only [FineS] using h)
    exact ⟨_, .expr h1, emits_eq h2 (fun n g => by simp only [stmt])⟩
  | .brk p, _ => ⟨_, .brk p, emits_eq (emits_leaf _) (fun n g => by simp only [stmt])⟩
  | .ifElse c a b p, h => by
    simp only [FineS] at h
    obtain ⟨t, h1, h2⟩ := good_E c h.1
    obtain ⟨u, h3, h4⟩ := good_S a h.2.1
    obtain ⟨v, h5, h6⟩ := good_S b h.2.2
    exact ⟨_, .ifElse h1 h3 h5, emits_eq (emits_node _ (emitsK_append (emitsK_child h2) (emitsK_append (emitsK_child h4) (emitsK_child h6))))
      (fun n g => by simp only [stmt])⟩
  | .ifOnly c a p, h => by
    simp only [FineS] at h
    obtain ⟨t, h1, h2⟩ := good_E c h.1
    obtain ⟨u, h3, h4⟩ := good_S a h.2
    exact ⟨_, .ifOnly h1 h3, emits_eq (emits_two _ h2 h4) (fun n g => by simp only [stmt])⟩
  | .while c a p, h => by
    simp only [FineS] at h
    obtain ⟨t, h1, h2⟩ := good_E c h.1
    obtain ⟨u, h3, h4⟩ := good_S a h.2
    exact ⟨_, .while h1 h3, emits_eq (emits_two _ h2 h4) (fun n g => by simp only [stmt])⟩
  | .doWhile a c p, h => by
    simp only [FineS] at h
    obtain ⟨t, h1, h2⟩ := good_E c h.1
    obtain ⟨u, h3, h4⟩ := good_S a h.2
    exact ⟨_, .doWhile h1 h3, emits_eq (emits_two _ h2 h4) (fun n g => by simp only [stmt])⟩
  | .comp ss p, h => by
    obtain ⟨ts, h1, h2⟩ := good_Ss ss (by simpa only [FineS] using h)
    exact ⟨_, .comp h1, emits_eq (emits_node _ h2) (fun n g => by simp only [stmt])⟩
  | .ret e p, h => by
    simp only [FineS] at h
    obtain ⟨ts, h1, h2⟩ := good_I e h.1
    refine ⟨_, .ret h1, emits_eq (emits_node _ h2) (fun n g => ?_)⟩
    simp only [stmt]
    rw [if_neg (by omega)]
  | .func x f fp p, h => by
    obtain ⟨ts, h1, h2⟩ := good_F f (by simpa only [FineS] using h)
    exact ⟨_, .func h1, emits_eq (emits_over (.word "func") (h2 (.name x))) (fun n g => by simp only [stmt])⟩
theorem good_Ss : ∀ ss : RStmts, FineSs ss → ∃ ts, STrees ss ts ∧ EmitsK (stmts ss) ts
  | .nil, _ => ⟨_, .nil, emitsK_eq emitsK_nil (fun n g => by simp only [stmts])⟩
  | .cons s ss, h => by
    simp only [FineSs] at h
    obtain ⟨t, h1, h2⟩ := good_S s h.1
    obtain ⟨ts, h3, h4⟩ := good_Ss ss h.2
    exact ⟨_, .cons h1 h3, emitsK_eq (emitsK_append (emitsK_child h2) h4) (fun n g => by simp only [stmts])⟩
end

/-- C89 for the programs with no tuple but in `return` (of at most 32 items), no number of more than 32 bits and no
string with a NUL.  Missing: the others. -/
theorem C89_partial (ss : RStmts) (h : FineSs ss) :
    ∃ g ts, diagram ss = .ok g ∧ STrees ss ts ∧ Draws g.head g.body 1 (.node (.word "compound") ts) ∧ IsTree 1 g := by
  obtain ⟨ts, h1, h2⟩ := good_Ss ss h
  obtain ⟨c', H, B, e, hp, hd, hdr⟩ := emits_node (.word "compound") h2 1 ⟨1, [], []⟩ (Nat.le_refl _)
  refine ⟨_, ts, e, h1, ?_, ?_⟩
  · have o : ∀ {α : Type}, Off 1 c' ([] : List (Nat × α)) := by intro α x hx; cases hx
    have := hdr [] [] [] [] o o (by intro d hd; cases hd) o o (by intro a ha; cases ha) (by intro a ha; cases ha)
    simpa using this
  · have l : 1 ≤ c' := hp.le
    have hdecl : ∀ m, 1 ≤ m → m ≤ c' → ∃ d ∈ H, d.1 = m := by
      intro m h1 h2
      by_cases hm : m = 1
      · subst hm; exact hd
      · exact hp.decl m (show 1 < m by omega) h2
    refine ⟨?_, ?_, ?_, ?_⟩
    · show (1 :: B.map Prod.snd).Nodup
      rw [List.nodup_cons]
      refine ⟨?_, hp.once⟩
      intro hx
      obtain ⟨a, ha, h⟩ := List.mem_map.mp hx
      have h3 : 1 < a.2 := (hp.arrows a ha).2.2.1
      have h' : a.2 = 1 := h
      omega
    · intro d hd
      show d.1 ∈ 1 :: B.map Prod.snd
      rcases hp.names d hd with ⟨_, h⟩ | h
      · rw [h]; exact List.mem_cons_self
      · exact List.mem_cons_of_mem _ (hp.ends _ h.1 h.2)
    · intro n hn
      refine shown_some (H := H) ?_
      rcases List.mem_cons.mp (show n ∈ 1 :: B.map Prod.snd from hn) with rfl | hn
      · exact hd
      · obtain ⟨a, ha, rfl⟩ := List.mem_map.mp hn
        have h3 : 1 < a.2 ∧ a.2 ≤ c' := (hp.arrows a ha).2.2
        exact hdecl _ (by omega) h3.2
    · intro a ha
      have h3 := hp.arrows a ha
      have h4 : a.1 = 1 ∨ 1 < a.1 := h3.1
      refine ⟨h3.2.1, shown_some (H := H) (hdecl _ (by omega) (by omega))⟩

/-- The program `a, b = f();`: the node of the tuple has no label. -/
theorem C89_violated : ¬ C89Statement := by
  intro h
  let p : Pos := ⟨0, 1⟩
  obtain ⟨g, ts, e, _, _, ht⟩ := h (.cons (.expr (.ass (.pair (.ident [97] p) (.ident [98] p) p) (.call (.fn (.ident [102] p) .nil) p) p)) .nil)
  have e' : diagram (.cons (.expr (.ass (.pair (.ident [97] p) (.ident [98] p) p) (.call (.fn (.ident [102] p) .nil) p) p)) .nil) =
      .ok ⟨5, [(1, .word "compound"), (2, .word "="), (4, .word "Call"), (5, .name [102])], [(2, 3), (4, 5), (2, 4), (1, 2)]⟩ := by
    decide +kernel
  rw [e'] at e
  cases e
  exact ht.ends 3 (by decide) (by decide)

/-- A `return` of more than 32 items is written over the stack. -/
theorem C89_overflow (e : RExpr) (p : Pos) (h : 32 < e.tupleCount) : diagram (.cons (.ret e p) .nil) = .ub := by
  simp only [diagram, stmts, child, stmt]
  rw [if_pos h]
  rfl

/-- A program with functions, maps and a tuple. -/
example : FineSs (.cons (.func [102] (.mk (.cons [120] (.yes (.int 3 ⟨0, 1⟩)) .no ⟨0, 1⟩ .nil)
    (.ret (.pair (.ident [120] ⟨0, 1⟩) (.map (.cons (.str [34, 10] ⟨0, 1⟩) (.tru ⟨0, 1⟩) .nil) ⟨0, 1⟩) ⟨0, 1⟩) ⟨0, 1⟩)) ⟨0, 1⟩ ⟨0, 1⟩) .nil) := by
  simp [FineSs, FineS, FineF, FineA, FineO, FineE, FinePs, RExpr.tupleCount, IsI32]

end Noja.VM.Diagram
