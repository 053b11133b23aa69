import Verif.VM.Sim
import Verif.VM.Invariant
import Verif.VM.CodegenTop
import Verif.VM.Demo

/-!
# C34, C43, C44: calls, `and`, `or` and `break` in the compiled program

Stated about the machine: which states follow each other, instruction by instruction.
-/

set_option linter.unusedVariables false
set_option linter.unusedSimpArgs false

namespace Noja.VM

variable {W : Type} {L : Layer W} {cap : Nat}

/-- A state whose innermost frame is `f`, about to execute the instruction `i`, with the values `st` on the
stack. -/
abbrev stAt (w : W) (fn : Ref → Option Func) (ex : List (List Instr)) (f : NFrame) (fs : List Frame)
    (i : Nat) (u : Nat) (st : List Ref) : St W :=
  ⟨w, fn, ex, st, .normal { f with idx := i, used := u } :: fs⟩

theorem step_at {w : W} {fn : Ref → Option Func} {ex : List (List Instr)} {f : NFrame} {fs : List Frame}
    {i u : Nat} {st : List Ref} {ins : Instr} (h : fetch ex f.exe i = some ins) :
    step L cap (stAt w fn ex f fs i u st) = execI L cap ins (stAt w fn ex f fs (i + 1) u st) := by
  unfold step
  dsimp only [stAt]
  rw [h]

theorem runN_one (s : St W) : runN L cap 1 s = step L cap s := by
  rw [runN_succ]
  cases step L cap s <;> rfl

theorem runN_two {s t : St W} (h : step L cap s = .run t) : runN L cap 2 s = step L cap t := by
  rw [runN_succ, h]
  exact runN_one t

theorem push_at {w : W} {fn : Ref → Option Func} {ex : List (List Instr)} {f : NFrame} {fs : List Frame}
    {i u : Nat} {st : List Ref} {v : Ref} (hu : u < maxFrameStack) (hs : st.length < cap) :
    (stAt w fn ex f fs i u st).push cap v = .run (stAt w fn ex f fs i (u + 1) (v :: st)) := by
  unfold St.push
  dsimp only [stAt]
  rw [if_neg (by omega), if_neg (by omega)]

/-! ## C43 -/

/-- Execution of a conditional jump. -/
theorem jumpIfNot_at {w : W} {fn : Ref → Option Func} {ex : List (List Instr)} {f : NFrame} {fs : List Frame}
    {i u a : Nat} {st : List Ref} {v : Ref} (h : fetch ex f.exe i = some (.jumpIfNot a)) :
    step L cap (stAt w fn ex f fs i (u + 1) (v :: st)) =
      match L.asBool v w with
      | .ok w' b => .run (stAt w' fn ex f fs (if b then i + 1 else a) u st)
      | .err w' => .err (stAt w' fn ex f fs (i + 1) u st)
      | .ub => .ub := by
  rw [step_at h]
  simp only [execI, St.pop, stAt]
  rw [if_neg (by omega)]
  simp only [List.take_succ_cons, List.take_zero, List.drop_succ_cons, List.drop_zero, Nat.add_sub_cancel, St.prim]
  cases L.asBool v w with
  | ok w' b => cases b <;> rfl
  | err w' => rfl
  | ub => rfl

theorem jumpIf_at {w : W} {fn : Ref → Option Func} {ex : List (List Instr)} {f : NFrame} {fs : List Frame}
    {i u a : Nat} {st : List Ref} {v : Ref} (h : fetch ex f.exe i = some (.jumpIf a)) :
    step L cap (stAt w fn ex f fs i (u + 1) (v :: st)) =
      match L.asBool v w with
      | .ok w' b => .run (stAt w' fn ex f fs (if b then a else i + 1) u st)
      | .err w' => .err (stAt w' fn ex f fs (i + 1) u st)
      | .ub => .ub := by
  rw [step_at h]
  simp only [execI, St.pop, stAt]
  rw [if_neg (by omega)]
  simp only [List.take_succ_cons, List.take_zero, List.drop_succ_cons, List.drop_zero, Nat.add_sub_cancel, St.prim]
  cases L.asBool v w with
  | ok w' b => cases b <;> rfl
  | err w' => rfl
  | ub => rfl

/-- What the machine does after the first operand of `a and b` (`test` is false) or `a or b`
(`test` is true), whose value is `v`, has been evaluated in the frame `f`; `start` is where the
code of `b` starts and `stop` where that of the whole expression ends.  The value of the
expression is `L.tru` or `L.fls`.

* If `v` is not a boolean, the next instruction fails.
* If `v` decides, two instructions later the value is there: no instruction of `b` is executed.
* Otherwise the next instruction takes `v` away, and then comes `b`. -/
def FirstOperand (L : Layer W) (cap : Nat) (test : Bool) (f : NFrame) (fs : List Frame) (fn : Ref → Option Func)
    (ex : List (List Instr)) (st : List Ref) (v : Ref) (w : W) (i start stop : Nat) : Prop :=
  match L.asBool v w with
  | .err w' => step L cap (stAt w fn ex f fs i (f.used + 1) (v :: st)) = .err (stAt w' fn ex f fs (i + 1) f.used st)
  | .ub => step L cap (stAt w fn ex f fs i (f.used + 1) (v :: st)) = .ub
  | .ok w' b =>
    if b = test then
      runN L cap 2 (stAt w fn ex f fs i (f.used + 1) (v :: st)) =
        .run (stAt w' fn ex f fs stop (f.used + 1) ((if test then L.tru else L.fls) :: st))
    else
      step L cap (stAt w fn ex f fs i (f.used + 1) (v :: st)) = .run (stAt w' fn ex f fs start f.used st)

/-- The same for the second operand: its value, as a boolean, is the value of the expression. -/
def SecondOperand (L : Layer W) (cap : Nat) (f : NFrame) (fs : List Frame) (fn : Ref → Option Func)
    (ex : List (List Instr)) (st : List Ref) (v : Ref) (w : W) (i stop : Nat) : Prop :=
  match L.asBool v w with
  | .err w' => step L cap (stAt w fn ex f fs i (f.used + 1) (v :: st)) = .err (stAt w' fn ex f fs (i + 1) f.used st)
  | .ub => step L cap (stAt w fn ex f fs i (f.used + 1) (v :: st)) = .ub
  | .ok w' b => ∃ k, runN L cap k (stAt w fn ex f fs i (f.used + 1) (v :: st)) =
      .run (stAt w' fn ex f fs stop (f.used + 1) ((if b then L.tru else L.fls) :: st))

theorem two_of {s t u : St W} (h1 : step L cap s = .run t) (h2 : step L cap t = .run u) :
    runN L cap 2 s = .run u := by rw [runN_two h1, h2]

theorem three_of {s t u v : St W} (h1 : step L cap s = .run t) (h2 : step L cap t = .run u)
    (h3 : step L cap u = .run v) : runN L cap 3 s = .run v := by
  rw [runN_succ, h1]
  exact two_of h2 h3

/-- C43 for `and`: in the code of `a and b` at `f.idx`, the code of `a` is followed by a test, and
the code of `b` by another. -/
theorem C43_and (a b : Expr) (f : NFrame) (fs : List Frame) (fn : Ref → Option Func) (ex : List (List Instr))
    (st : List Ref) (hc : CodeAt ex f.exe f.idx ((Expr.and a b).code f.idx)) (hu : f.used < maxFrameStack)
    (hs : st.length < cap) (w : W) (v : Ref) :
    CodeAt ex f.exe f.idx (a.code f.idx) ∧
    FirstOperand L cap false f fs fn ex st v w (f.idx + a.len) (f.idx + a.len + 1) (f.idx + (Expr.and a b).len) ∧
    CodeAt ex f.exe (f.idx + a.len + 1) (b.code (f.idx + a.len + 1)) ∧
    SecondOperand L cap f fs fn ex st v w (f.idx + a.len + 1 + b.len) (f.idx + (Expr.and a b).len) := by
  simp only [Expr.code] at hc
  have hl : f.idx + (Expr.and a b).len = f.idx + a.len + 1 + b.len + 4 := by simp only [Expr.len]; omega
  rw [hl]
  have c1 := hc.left.left.left.left
  have j1 := (hc.left.left.left.right' (q := f.idx + a.len) (by simp)).head
  have c2 := hc.left.left.right' (q := f.idx + a.len + 1) (by simp; omega)
  have j2 := (hc.left.right' (q := f.idx + a.len + 1 + b.len) (by simp; omega)).head
  have t1 := (hc.right' (q := f.idx + a.len + 1 + b.len + 1) (by simp; omega)).head
  have t2 := (hc.right' (q := f.idx + a.len + 1 + b.len + 1) (by simp; omega)).tail.head
  have t3 := (hc.right' (q := f.idx + a.len + 1 + b.len + 1) (by simp; omega)).tail.tail.head
  have no : ∀ w', step L cap (stAt w' fn ex f fs (f.idx + a.len + 1 + b.len + 3) f.used st) =
      .run (stAt w' fn ex f fs (f.idx + a.len + 1 + b.len + 4) (f.used + 1) (L.fls :: st)) := by
    intro w'
    rw [step_at t3]
    exact push_at hu hs
  refine ⟨c1, ?_, c2, ?_⟩
  · unfold FirstOperand
    have h := jumpIfNot_at (L := L) (cap := cap) (w := w) (fn := fn) (fs := fs) (u := f.used) (st := st) (v := v) j1
    cases hb : L.asBool v w with
    | err w' => rw [hb] at h; exact h
    | ub => rw [hb] at h; exact h
    | ok w' t =>
      rw [hb] at h
      cases t with
      | true => exact h
      | false => exact two_of h (no w')
  · unfold SecondOperand
    have h := jumpIfNot_at (L := L) (cap := cap) (w := w) (fn := fn) (fs := fs) (u := f.used) (st := st) (v := v) j2
    cases hb : L.asBool v w with
    | err w' => rw [hb] at h; exact h
    | ub => rw [hb] at h; exact h
    | ok w' t =>
      rw [hb] at h
      cases t with
      | false => exact ⟨2, two_of h (no w')⟩
      | true =>
        refine ⟨3, three_of h (u := stAt w' fn ex f fs (f.idx + a.len + 1 + b.len + 2) (f.used + 1) (L.tru :: st)) ?_ ?_⟩
        · rw [if_pos rfl, step_at t1]
          exact push_at hu hs
        · rw [step_at t2]
          rfl

/-- C43 for `or`. -/
theorem C43_or (a b : Expr) (f : NFrame) (fs : List Frame) (fn : Ref → Option Func) (ex : List (List Instr))
    (st : List Ref) (hc : CodeAt ex f.exe f.idx ((Expr.or a b).code f.idx)) (hu : f.used < maxFrameStack)
    (hs : st.length < cap) (w : W) (v : Ref) :
    CodeAt ex f.exe f.idx (a.code f.idx) ∧
    FirstOperand L cap true f fs fn ex st v w (f.idx + a.len) (f.idx + a.len + 1) (f.idx + (Expr.or a b).len) ∧
    CodeAt ex f.exe (f.idx + a.len + 1) (b.code (f.idx + a.len + 1)) ∧
    SecondOperand L cap f fs fn ex st v w (f.idx + a.len + 1 + b.len) (f.idx + (Expr.or a b).len) := by
  simp only [Expr.code] at hc
  have hl : f.idx + (Expr.or a b).len = f.idx + a.len + 1 + b.len + 4 := by simp only [Expr.len]; omega
  rw [hl]
  have c1 := hc.left.left.left.left
  have j1 := (hc.left.left.left.right' (q := f.idx + a.len) (by simp)).head
  have c2 := hc.left.left.right' (q := f.idx + a.len + 1) (by simp; omega)
  have j2 := (hc.left.right' (q := f.idx + a.len + 1 + b.len) (by simp; omega)).head
  have t1 := (hc.right' (q := f.idx + a.len + 1 + b.len + 1) (by simp; omega)).head
  have t2 := (hc.right' (q := f.idx + a.len + 1 + b.len + 1) (by simp; omega)).tail.head
  have t3 := (hc.right' (q := f.idx + a.len + 1 + b.len + 1) (by simp; omega)).tail.tail.head
  have yes : ∀ w', step L cap (stAt w' fn ex f fs (f.idx + a.len + 1 + b.len + 3) f.used st) =
      .run (stAt w' fn ex f fs (f.idx + a.len + 1 + b.len + 4) (f.used + 1) (L.tru :: st)) := by
    intro w'
    rw [step_at t3]
    exact push_at hu hs
  refine ⟨c1, ?_, c2, ?_⟩
  · unfold FirstOperand
    have h := jumpIf_at (L := L) (cap := cap) (w := w) (fn := fn) (fs := fs) (u := f.used) (st := st) (v := v) j1
    cases hb : L.asBool v w with
    | err w' => rw [hb] at h; exact h
    | ub => rw [hb] at h; exact h
    | ok w' t =>
      rw [hb] at h
      cases t with
      | false => exact h
      | true => exact two_of h (yes w')
  · unfold SecondOperand
    have h := jumpIf_at (L := L) (cap := cap) (w := w) (fn := fn) (fs := fs) (u := f.used) (st := st) (v := v) j2
    cases hb : L.asBool v w with
    | err w' => rw [hb] at h; exact h
    | ub => rw [hb] at h; exact h
    | ok w' t =>
      rw [hb] at h
      cases t with
      | true => exact ⟨2, two_of h (yes w')⟩
      | false =>
        refine ⟨3, three_of h (u := stAt w' fn ex f fs (f.idx + a.len + 1 + b.len + 2) (f.used + 1) (L.fls :: st)) ?_ ?_⟩
        · rw [if_neg (by simp), step_at t1]
          exact push_at hu hs
        · rw [step_at t2]
          rfl

/-- `x and (1 or none)` in the middle of a program. -/
example : CodeAt [[.nope, .nope] ++ (Expr.and (.ident [120]) (.or (.int 1) .none)).code 2] 0 2
    ((Expr.and (.ident [120]) (.or (.int 1) .none)).code 2) := by
  intro i x hx
  rw [Nat.add_comm]
  exact hx

/-! ## C44 -/

mutual
/-- `s`, whose code starts at `p`, contains a `break` outside of all loops and functions in `s`; its
instruction is at `q`. -/
inductive BreakIn : Stmt → Nat → Nat → Prop
  | brk {p} : BreakIn .brk p p
  | thenElse {c t f p q} : BreakIn t (p + c.len + 1) q → BreakIn (.ifElse c t f) p q
  | orElse {c t f p q} : BreakIn f (p + c.len + 1 + t.len + 1) q → BreakIn (.ifElse c t f) p q
  | thenOnly {c t p q} : BreakIn t (p + c.len + 1) q → BreakIn (.ifOnly c t) p q
  | comp {ss p q} : BreakIns ss p q → BreakIn (.comp ss) p q
inductive BreakIns : Stmts → Nat → Nat → Prop
  | here {s ss p q} : BreakIn s p q → BreakIns (.cons s ss) p q
  | there {s ss p q} : BreakIns ss (p + s.len) q → BreakIns (.cons s ss) p q
end

mutual
theorem break_code {ex : List (List Instr)} {e : Nat} {b : Nat} : ∀ (s : Stmt) (p q : Nat), BreakIn s p q →
    CodeAt ex e p (s.code (some b) p) → fetch ex e q = some (.jump b)
  | .brk, p, q, h, hc => by
    cases h
    exact hc.head
  | .ifElse c t f, p, q, h, hc => by
    simp only [Stmt.code] at hc
    cases h with
    | thenElse h => exact break_code t _ q h (hc.left.left.right' (by simp; omega))
    | orElse h => exact break_code f _ q h (hc.right' (by simp; omega))
  | .ifOnly c t, p, q, h, hc => by
    simp only [Stmt.code] at hc
    cases h with
    | thenOnly h => exact break_code t _ q h (hc.right' (by simp; omega))
  | .comp ss, p, q, h, hc => by
    cases h with
    | comp h => exact breaks_code ss p q h hc
  | .expr _, _, _, h, _ => by cases h
  | .while _ _, _, _, h, _ => by cases h
  | .doWhile _ _, _, _, h, _ => by cases h
  | .ret _, _, _, h, _ => by cases h
  | .func _ _, _, _, h, _ => by cases h
theorem breaks_code {ex : List (List Instr)} {e : Nat} {b : Nat} : ∀ (ss : Stmts) (p q : Nat), BreakIns ss p q →
    CodeAt ex e p (ss.code (some b) p) → fetch ex e q = some (.jump b)
  | .nil, _, _, h, _ => by cases h
  | .cons s ss, p, q, h, hc => by
    simp only [Stmts.code] at hc
    cases h with
    | here h => exact break_code s p q h hc.left
    | there h => exact breaks_code ss _ q h (hc.right' (by simp))
end

/-- C44 for `while`: a `break` of the body that is in no loop inside the body goes to the
instruction after the loop, and changes nothing else. -/
theorem C44_while (c : Expr) (body : Stmt) (b : Option Nat) (f : NFrame) (fs : List Frame) (fn : Ref → Option Func)
    (ex : List (List Instr)) (st : List Ref) (w : W) (u p q : Nat)
    (hc : CodeAt ex f.exe p ((Stmt.while c body).code b p)) (hb : BreakIn body (p + c.len + 1) q) :
    step L cap (stAt w fn ex f fs q u st) = .run (stAt w fn ex f fs (p + (Stmt.while c body).len) u st) := by
  simp only [Stmt.code] at hc
  have h := break_code body _ q hb (hc.left.right' (by simp; omega))
  rw [step_at h, show p + (Stmt.while c body).len = p + c.len + 1 + body.len + 1 by simp only [Stmt.len]; omega]
  rfl

/-- C44 for `do ... while`. -/
theorem C44_doWhile (c : Expr) (body : Stmt) (b : Option Nat) (f : NFrame) (fs : List Frame) (fn : Ref → Option Func)
    (ex : List (List Instr)) (st : List Ref) (w : W) (u p q : Nat)
    (hc : CodeAt ex f.exe p ((Stmt.doWhile body c).code b p)) (hb : BreakIn body p q) :
    step L cap (stAt w fn ex f fs q u st) = .run (stAt w fn ex f fs (p + (Stmt.doWhile body c).len) u st) := by
  simp only [Stmt.code] at hc
  have h := break_code body _ q hb hc.left.left
  rw [step_at h, show p + (Stmt.doWhile body c).len = p + body.len + c.len + 1 by simp only [Stmt.len]; omega]
  rfl

/-- A `break` inside a block and an `if`, and one in a loop inside, which is another loop's. -/
example : BreakIn (.comp (.cons (.while .tru .brk) (.cons (.ifElse .tru (.expr .none) .brk) .nil))) 10 19 ∧
    ¬ ∃ q, BreakIn (.while .tru .brk) 10 q := by
  constructor
  · refine .comp (.there (.here (.orElse ?_)))
    exact (BreakIn.brk : BreakIn .brk 19 19)
  · rintro ⟨q, h⟩
    cases h

mutual
/-- A statement, in a loop or not, with a `break` that is in no loop of its function.  (Functions
inside expressions are not looked into.) -/
inductive Loose : RStmt → (loop : Bool) → Prop
  | brk {p} : Loose (.brk p) false
  | thenElse {c t f p l} : Loose t l → Loose (.ifElse c t f p) l
  | orElse {c t f p l} : Loose f l → Loose (.ifElse c t f p) l
  | thenOnly {c t p l} : Loose t l → Loose (.ifOnly c t p) l
  | while {c b p l} : Loose b true → Loose (.while c b p) l
  | doWhile {c b p l} : Loose b true → Loose (.doWhile b c p) l
  | comp {ss p l} : Looses ss l → Loose (.comp ss p) l
  | func {n ps b fp p l} : Loose b false → Loose (.func n (.mk ps b) fp p) l
inductive Looses : RStmts → (loop : Bool) → Prop
  | here {s ss l} : Loose s l → Looses (.cons s ss) l
  | there {s ss l} : Looses ss l → Looses (.cons s ss) l
end

theorem bind_none {α β : Type} (x : Option α) : (x.bind fun _ => (none : Option β)) = none := by
  cases x <;> rfl

mutual
theorem loose_elab : ∀ (s : RStmt) (l : Bool), Loose s l → s.elab l = none
  | .brk _, _, .brk => rfl
  | .ifElse c t f _, l, h => by
    simp only [RStmt.elab, bind, Option.bind_assoc]
    cases h with
    | thenElse h => rw [loose_elab t l h]; simp
    | orElse h => rw [loose_elab f l h]; simp
  | .ifOnly c t _, l, .thenOnly h => by
    simp only [RStmt.elab, bind]
    rw [loose_elab t l h]
    simp
  | .while c b _, l, .while h => by
    simp only [RStmt.elab, bind]
    rw [loose_elab b true h]
    simp
  | .doWhile b c _, l, .doWhile h => by
    simp only [RStmt.elab, bind]
    rw [loose_elab b true h]
    simp
  | .comp ss _, l, .comp h => by
    simp only [RStmt.elab, bind]
    rw [looses_elab ss l h]
    simp
  | .func n (.mk ps b) _ _, l, .func h => by
    simp only [RStmt.elab, RFun.elab, bind]
    rw [loose_elab b false h]
    simp
theorem looses_elab : ∀ (ss : RStmts) (l : Bool), Looses ss l → ss.elab l = none
  | .cons s ss, l, h => by
    simp only [RStmts.elab, bind]
    cases h with
    | here h => rw [loose_elab s l h]; rfl
    | there h => rw [looses_elab ss l h]; simp
end

/-- C44, second half: a `break` outside of loops is refused. -/
def C44Statement : Prop := ∀ root size, Looses root false → codegen root size = .err

/-- No program with such a `break` gets an executable, but it is not refused either: the report of
the error writes through a pointer that nothing has set (codegenctx.c, `error_offset`). -/
theorem C44_outside (root : RStmts) (size : Int) (h : Looses root false) : codegen root size = .ub :=
  codegen_rejects root size (looses_elab root false h)

/-- C44 is violated by every program with such a `break`. -/
theorem C44_violated : ¬ C44Statement := by
  intro h
  have hl : Looses (.cons (.brk ⟨0, 6⟩) .nil) false := .here .brk
  have h1 := h _ 6 hl
  rw [C44_outside _ 6 hl] at h1
  cases h1

/-! ## C34 -/

theorem fit_get (L : Layer W) (n : Nat) (args : List Ref) (k : Nat) (hk : k < n) :
    (L.fit n args)[k]? = some (args[k]?.getD L.none) := by
  unfold Layer.fit
  by_cases h : k < args.length
  · rw [List.getElem?_append_left (by simp; omega), List.getElem?_take_of_lt hk, List.getElem?_eq_getElem h]
    rfl
  · rw [List.getElem?_append_right (by simp; omega), List.getElem?_eq_none (show args.length ≤ k by omega)]
    rw [List.getElem?_replicate, if_pos (by simp; omega)]
    rfl

/-- C34, arguments: a function of the language with `fn.argc` parameters, called with `argc`
arguments `argv`, starts with nothing but its parameters on its part of the stack: the `k`-th is the
`k`-th argument, or none. -/
theorem C34_arguments (f : NFrame) (fs : List Frame) (fnm : Ref → Option Func) (ex : List (List Instr))
    (st argv : List Ref) (g : Ref) (w w' : W) (clo : Ref) (fn : Func) (i u argc want : Nat)
    (hf : fetch ex f.exe i = some (.call argc want)) (ha : argv.length = argc) (hc : L.callee g w = .ok w' (.noja clo))
    (hfn : fnm g = some fn) (t : St W)
    (h : step L cap (stAt w fnm ex f fs i (u + argc + 1) (g :: (argv ++ st))) = .run t) :
    ∃ h : NFrame, ∃ ps : List Ref,
      t.frames = .normal h :: .normal { f with idx := i + 1, used := u } :: fs ∧
      h.exe = fn.exe ∧ h.idx = fn.addr ∧ h.closure = some clo ∧ h.used = fn.argc ∧
      t.stack = ps ++ st ∧ ps.length = fn.argc ∧
      ∀ k, k < fn.argc → ps.reverse[k]? = some (argv[k]?.getD L.none) := by
  subst ha
  rw [step_at hf] at h
  simp only [execI, St.pop, stAt] at h
  rw [if_neg (by omega)] at h
  simp only [List.take_succ_cons, List.take_zero, List.drop_succ_cons, List.drop_zero] at h
  by_cases hm : maxArgs < argv.length
  · rw [if_pos hm] at h; cases h
  · rw [if_neg hm, if_neg (by omega)] at h
    simp only [List.take_left', List.drop_left', callObj, St.prim, hc] at h
    rw [hfn] at h
    dsimp only at h
    rw [show u + argv.length + 1 - 1 - argv.length = u by omega] at h
    unfold enter at h
    simp only [St.prim] at h
    cases hn : L.newScope w' with
    | ok w2 locals =>
      rw [hn] at h
      dsimp only at h
      by_cases hx : maxFrames ≤ (Frame.normal { f with idx := i + 1, used := u } :: fs).length
      · rw [if_pos hx] at h; cases h
      · rw [if_neg hx] at h
        have hlen : (L.fit fn.argc argv).length = fn.argc := by simp [Layer.fit]; omega
        have key := pushAll_post (cap := cap) (L.fit fn.argc argv)
          (s := ⟨w2, fnm, ex, st, .normal { exe := fn.exe, idx := fn.addr, locals := locals, closure := some clo, used := 0, want := want } ::
            .normal { f with idx := i + 1, used := u } :: fs⟩)
          (Q := fun t => ∃ h : NFrame, ∃ ps : List Ref,
            t.frames = .normal h :: .normal { f with idx := i + 1, used := u } :: fs ∧
            h.exe = fn.exe ∧ h.idx = fn.addr ∧ h.closure = some clo ∧ h.used = fn.argc ∧
            t.stack = ps ++ st ∧ ps.length = fn.argc ∧
            ∀ k, k < fn.argc → ps.reverse[k]? = some (argv[k]?.getD L.none)) rfl
          ⟨_, _, rfl, rfl, rfl, rfl, by show 0 + _ = _; rw [hlen]; omega, rfl, by rw [List.length_reverse, hlen],
            fun k hk => by rw [List.reverse_reverse]; exact fit_get L _ _ _ hk⟩
        rw [h] at key
        exact key
    | err w2 => rw [hn] at h; cases h
    | ub => rw [hn] at h; cases h

/-- C34, arguments of a native function that wants `n` arguments: the same. -/
theorem C34_native (n : Nat) (argv : List Ref) :
    (L.adapt (some n) argv).length = n ∧ ∀ k, k < n → (L.adapt (some n) argv)[k]? = some (argv[k]?.getD L.none) := by
  refine ⟨by simp [Layer.adapt, Layer.fit]; omega, fun k hk => ?_⟩
  exact fit_get L n argv k hk

/-- C34, results: when a function returns to a caller `g` whose call wants `want` values, the caller
goes on with exactly these above what it had: the `k`-th is the `k`-th returned value, or none. -/
theorem C34_results_partial (f g : NFrame) (fs : List Frame) (fnm : Ref → Option Func) (ex : List (List Instr))
    (st vs : List Ref) (w : W) (i m : Nat) (hf : fetch ex f.exe i = some (.ret m)) (hu : f.used = vs.length)
    (t : St W)
    (h : step L cap ⟨w, fnm, ex, vs.reverse ++ st, .normal { f with idx := i } :: .normal g :: fs⟩ = .run t) :
    ∃ rs : List Ref, t.frames = .normal { g with used := g.used + f.want } :: fs ∧ t.stack = rs ++ st ∧
      rs.length = f.want ∧ ∀ k, k < f.want → rs.reverse[k]? = some (vs[k]?.getD L.none) := by
  unfold step at h
  dsimp only at h
  rw [hf] at h
  simp only [execI, leave] at h
  by_cases hp : L.pending w = true
  · rw [if_pos hp] at h; cases h
  · rw [if_neg hp] at h
    have hl : f.used = vs.reverse.length := by rw [List.length_reverse, hu]
    rw [hl, List.take_left', List.drop_left', List.reverse_reverse] at h
    · unfold deliver at h
      by_cases hm : maxRets < min vs.length f.want
      · rw [if_pos hm] at h; cases h
      · rw [if_neg hm] at h
        have hlen : (vs.take f.want ++ List.replicate (f.want - vs.length) L.none).length = f.want := by simp; omega
        have key := pushAll_post (cap := cap) (vs.take f.want ++ List.replicate (f.want - vs.length) L.none)
          (s := ⟨w, fnm, ex, st, .normal g :: fs⟩)
          (Q := fun t => ∃ rs : List Ref, t.frames = .normal { g with used := g.used + f.want } :: fs ∧ t.stack = rs ++ st ∧
            rs.length = f.want ∧ ∀ k, k < f.want → rs.reverse[k]? = some (vs[k]?.getD L.none)) rfl
          ⟨_, by rw [hlen], rfl, by rw [List.length_reverse, hlen],
            fun k hk => by rw [List.reverse_reverse]; exact fit_get L f.want vs k hk⟩
        rw [h] at key
        exact key
    · rfl
    · rfl

/-- C34 in full would mean that a return reached by a program always delivers, or reaches a limit. -/
def C34Statement : Prop :=
  ∀ (C : Config) (p : Stmts) (w : World) (cap n m : Nat) (s₁ s : St World) (f : NFrame), p.wf false = true →
    boot (objects C) cap 0 ⟨w, fun _ => none, [compile p], [], []⟩ = .run s₁ → runN (objects C) cap n s₁ = .run s →
    Demo.top s = some f → fetch s.exes f.exe f.idx = some (.ret m) → step (objects C) cap s ≠ .ub

namespace Many

def names : List Name := [[97], [98], [99], [100], [101], [102], [103], [104], [105]]

/-- `fun f() return 1, 1, 1, 1, 1, 1, 1, 1, 1; a, b, c, d, e, f, g, h, i = f();` -/
def prog : Stmts :=
  .cons (.func [102] (.mk .nil (.ret (names.foldr (fun _ es => .cons (.int 1) es) .nil))))
    (.cons (.expr (.massign (.var [97]) (([[98], [99], [100], [101], [102], [103], [104]] : List Name).foldr
      (fun n ts => .cons (.var n) ts) (.one (.var [105]))) (.fn (.ident [102]) .nil))) .nil)

def s₀ : St World := ⟨Demo.world, fun _ => none, [compile prog], [], []⟩

def isUb : Status World → Bool
  | .ub => true
  | _ => false

theorem ub_of {x : Status World} (h : isUb x = true) : x = .ub := by
  cases x with
  | ub => rfl
  | _ => cases h

def s₁ : St World := Demo.get (boot (objects Demo.config) 100 0 s₀)
def s : St World := Demo.get (runN (objects Demo.config) 100 15 s₁)

end Many

/-- C34 is violated by a call with nine results that wants them all: `rets` in run.c:781 has eight
places, of which run.c:1125-1126 fills eight and run.c:790-791 reads nine. -/
theorem C34_violated : ¬ C34Statement := by
  intro h
  have hb : boot (objects Demo.config) 100 0 Many.s₀ = .run Many.s₁ := Demo.run_get (by decide +kernel)
  have hr : runN (objects Demo.config) 100 15 Many.s₁ = .run Many.s := Demo.run_get (by decide +kernel)
  exact h Demo.config Many.prog Demo.world 100 15 9 _ Many.s ((Demo.top Many.s).getD ⟨0, 0, 0, none, 0, 0⟩) (by decide)
    hb hr (by decide +kernel) (by decide +kernel) (Many.ub_of (by decide +kernel))

/-- C42 in full: a run that ends, other than at a limit, ends as the tree says. -/
def C42Statement : Prop :=
  ∀ (C : Config) (p : Stmts) (w : World) (cap n : Nat), p.wf false = true →
    match start (objects C) cap 0 ⟨w, fun _ => none, [compile p], [], []⟩ n with
    | .done vs u => ∃ fuel s, p.mean (objects C) fuel ⟨w, fun _ => none⟩ = .ok s vs ∧ u.w = s.w
    | .err u => ∃ fuel, p.mean (objects C) fuel ⟨w, fun _ => none⟩ = .err u.w
    | .ub => ∃ fuel, p.mean (objects C) fuel ⟨w, fun _ => none⟩ = .ub
    | .limit _ => True
    | .run _ => True

def Many.isOff : Res World (List Ref) → Bool
  | .off => true
  | _ => false

/-- C42 is violated by the same program: that the ninth result is read past an array is not what the tree says.
(`C42_run_is_meaning` is C42 without the trees for which this happens.) -/
theorem C42_violated : ¬ C42Statement := by
  intro h
  have := h Demo.config Many.prog Demo.world 100 20 (by decide)
  rw [Many.ub_of (x := start (objects Demo.config) 100 0 ⟨Demo.world, fun _ => none, [compile Many.prog], [], []⟩ 20) (by decide +kernel)] at this
  obtain ⟨fuel, hf⟩ := this
  have ho : Many.prog.mean (objects Demo.config) 5 ⟨Demo.world, fun _ => none⟩ = .off := by
    have : Many.isOff (Many.prog.mean (objects Demo.config) 5 ⟨Demo.world, fun _ => none⟩) = true := by decide +kernel
    revert this
    cases Many.prog.mean (objects Demo.config) 5 ⟨Demo.world, fun _ => none⟩ with
    | off => exact fun _ => rfl
    | _ => intro h; cases h
  have := mean_unique (objects Demo.config) Many.prog ⟨Demo.world, fun _ => none⟩ (m := 5) (n := fuel) (by rw [ho]; simp) (by rw [hf]; simp)
  rw [ho, hf] at this
  cases this

/-- The hypotheses of `C34_arguments` and `C34_results_partial` in a run: one argument for two
parameters, and two results. -/
example : (∃ f, Demo.top (Demo.at' 6) = some f ∧ fetch (Demo.at' 6).exes f.exe f.idx = some (.call 1 2)) ∧
    (∃ f, Demo.top (Demo.at' 26) = some f ∧ f.used = 2 ∧ fetch (Demo.at' 26).exes f.exe f.idx = some (.ret 2)) :=
  ⟨⟨(Demo.top (Demo.at' 6)).getD ⟨0, 0, 0, none, 0, 0⟩, by decide +kernel, by decide +kernel⟩,
   ⟨(Demo.top (Demo.at' 26)).getD ⟨0, 0, 0, none, 0, 0⟩, by decide +kernel, by decide +kernel, by decide +kernel⟩⟩

end Noja.VM
