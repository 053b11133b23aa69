import Verif.VM.Layer
import Verif.VM.Compile

/-!
# The bytecode interpreter

Models `run.c` and the frames of `runtime.c` as a machine that executes one instruction per step.

How the C recursion is flattened: `runInstruction` executing `CALL` calls `runExecutableAtIndex`,
which runs a loop of its own and returns the results, which `CALL` then pushes.  Here `CALL` pushes
the new frame and stops; the `RETURN` or `EXIT` that ends the callee's loop also pops the frame and
pushes the results on the caller (`leave`, `deliver`).  The number of results that the suspended
`CALL` wants is kept in the callee's frame.

The interrupt flag and the callback are looked at before the first instruction of every loop and
after every instruction that does not end its loop (run.c:1087-1096): seen from outside this is
once before every step, and `exec` does that, for any sequence of answers.

Simplifications: `malloc` does not fail; the timing table and the names of functions do not
matter; no garbage collection (see `Verif.VM.Move`); indices are natural numbers.
-/

namespace Noja.VM

/-- runtime.c:41 -/
def maxFrameStack : Nat := 16
/-- runtime.c:42 -/
def maxFrames : Nat := 16
/-- objects.h `MAX_RETS` -/
def maxRets : Nat := 8
/-- run.c:772 `argv[32]` -/
def maxArgs : Nat := 32

/-- The code of a function object: `exe`, `index` and `argc` (run.c:20-28). -/
structure Func where
  exe : Nat
  addr : Nat
  argc : Nat
deriving DecidableEq, Repr

/-- runtime.c:56-62 `NormalFrame`. -/
structure NFrame where
  exe : Nat
  idx : Nat
  locals : Ref
  closure : Option Ref
  /-- number of values on the stack that belong to this frame -/
  used : Nat
  /-- number of results wanted by the `CALL` that waits for this frame -/
  want : Nat
deriving DecidableEq, Repr

inductive Frame where
  | normal (f : NFrame)
  /-- a native function that runs a program, and the number of results its caller wants -/
  | native (want : Nat)
deriving DecidableEq, Repr

/-- The runtime (runtime.c:75-92): `stack` is the shared evaluation stack, top first. -/
structure St (W : Type) where
  w : W
  /-- the code of function objects -/
  funcs : Ref → Option Func
  /-- the executables in memory -/
  exes : List (List Instr)
  stack : List Ref
  /-- innermost first -/
  frames : List Frame

/-- What the machine is doing. -/
inductive Status (W : Type) where
  | run (s : St W)
  /-- the outermost frame returned these values -/
  | done (rets : List Ref) (s : St W)
  /-- a runtime error was reported -/
  | err (s : St W)
  /-- an error was reported because a limit of the interpreter was reached -/
  | limit (s : St W)
  | ub

variable {W : Type}

/-- runtime.c:396-434 `Runtime_Push`; `cap` is the capacity of the stack. -/
def St.push (cap : Nat) (v : Ref) (s : St W) : Status W :=
  match s.frames with
  | .normal f :: fs =>
    if f.used = maxFrameStack then .limit s
    else if cap ≤ s.stack.length then .limit s
    else .run { s with stack := v :: s.stack, frames := .normal { f with used := f.used + 1 } :: fs }
  | _ => .err s

def St.pushAll (cap : Nat) : List Ref → St W → Status W
  | [], s => .run s
  | v :: vs, s =>
    match s.push cap v with
    | .run s => s.pushAll cap vs
    | x => x

/-- runtime.c:436-481 `Runtime_Pop`: the popped values, top first, are given to `k`. -/
def St.pop (n : Nat) (s : St W) (k : List Ref → St W → Status W) : Status W :=
  match s.frames with
  | .normal f :: fs =>
    if f.used < n then .err s
    else k (s.stack.take n)
      { s with stack := s.stack.drop n, frames := .normal { f with used := f.used - n } :: fs }
  | _ => .err s

/-- `Runtime_Top(0), ..., Runtime_Top(-(n-1))` (runtime.c:483-497). -/
def St.peek (n : Nat) (s : St W) (k : List Ref → Status W) : Status W :=
  match s.frames with
  | .normal f :: _ => if f.used < n then .err s else k (s.stack.take n)
  | _ => .err s

/-- Use of an operation of the object layer. -/
def St.prim {α : Type} (s : St W) (o : Out W α) (k : α → St W → Status W) : Status W :=
  match o with
  | .ok w a => k a { s with w := w }
  | .err w => .err { s with w := w }
  | .ub => .ub

/-- runtime.c:499-503 `Runtime_SetInstructionIndex`. -/
def St.goto (a : Nat) (s : St W) : Status W :=
  match s.frames with
  | .normal f :: fs => .run { s with frames := .normal { f with idx := a } :: fs }
  | _ => .err s

/-- run.c:786-803: the results of a call, as many as wanted.  `rets` has room for `maxRets`
objects and run.c:1125 stores no more; reading beyond is undefined. -/
def deliver (L : Layer W) (cap want : Nat) (rets : List Ref) (s : St W) : Status W :=
  if maxRets < min rets.length want then .ub
  else s.pushAll cap (rets.take want ++ List.replicate (want - rets.length) L.none)

/-- run.c:1108-1118: a new frame (runtime.c:671-709) with the arguments on the stack. -/
def enter (L : Layer W) (cap exe addr : Nat) (closure : Option Ref) (want : Nat) (args : List Ref)
    (s : St W) : Status W :=
  s.prim (L.newScope s.w) fun locals s =>
    if maxFrames ≤ s.frames.length then .limit s
    else
      { s with
        frames := .normal { exe := exe, idx := addr, locals := locals, closure := closure, used := 0, want := want } :: s.frames }.pushAll
          cap args

/-- run.c:1103-1131: the end of the innermost loop. -/
def leave (L : Layer W) (cap : Nat) (s : St W) : Status W :=
  match s.frames with
  | .normal f :: fs =>
    if L.pending s.w then .err s
    else
      let rets := (s.stack.take f.used).reverse
      let stack := s.stack.drop f.used
      match fs with
      | [] => .done rets { s with stack := stack, frames := [] }
      | .normal g :: fs => deliver L cap f.want rets { s with stack := stack, frames := .normal g :: fs }
      | .native k :: fs => deliver L cap k rets { s with stack := stack, frames := fs }
  | _ => .err s

/-- objects.c:133-147 `Object_Call`, run.c:48-115 `func_call`, run.c:207-283
`native_func_call`. -/
def callObj (L : Layer W) (cap : Nat) (f : Ref) (argv : List Ref) (want : Nat) (s : St W) :
    Status W :=
  s.prim (L.callee f s.w) fun c s =>
    match c with
    | .no => .err s
    | .noja clo =>
      match s.funcs f with
      | none => .ub
      | some fn => enter L cap fn.exe fn.addr (some clo) want (L.fit fn.argc argv) s
    | .native id argc =>
      if maxFrames ≤ s.frames.length then .limit s
      else
        { s with frames := .native want :: s.frames }.prim (L.native id (L.adapt argc argv) s.w)
          fun r t =>
            match r with
            | .done rets => deliver L cap want rets { t with frames := s.frames }
            | .load p =>
              if p.wf false then
                enter L cap t.exes.length 0 none 0 [] { t with exes := t.exes ++ [compile p] }
              else .ub

/-- run.c:495-1080 `runInstruction`, after the fetch. -/
def execI (L : Layer W) (cap : Nat) (i : Instr) (s : St W) : Status W :=
  match i with
  | .nope => .run s
  | .un .pos => s.peek 1 fun _ => .run s
  | .un op => s.pop 1 fun vs s =>
    match vs with
    | [a] => s.prim (L.un op a s.w) fun r s => s.push cap r
    | _ => .ub
  | .bin op => s.pop 2 fun vs s =>
    match vs with
    | [b, a] => s.prim (L.bin op a b s.w) fun r s => s.push cap r
    | _ => .ub
  | .ass n => s.peek 1 fun vs =>
    match vs, s.frames with
    | [v], .normal f :: _ => s.prim (L.setVar f.locals n v s.w) fun _ s => .run s
    | _, _ => .ub
  | .pop n => s.pop n fun _ s => .run s
  | .checkType _ _ => s.peek 2 fun vs =>
    match vs with
    | [t, v] => s.pop 1 fun _ s => s.prim (L.isType t v s.w) fun r s => if r then .run s else .err s
    | _ => .ub
  | .call argc want => s.pop 1 fun vs s =>
    match vs with
    | [f] =>
      if maxArgs < argc then .limit s
      else s.pop argc fun argv s => callObj L cap f argv want s
    | _ => .ub
  | .select => s.peek 2 fun vs =>
    match vs with
    | [key, col] => s.pop 2 fun _ s => s.prim (L.select col key s.w) fun r s => s.push cap r
    | _ => .ub
  | .select2 => s.peek 2 fun vs =>
    match vs with
    | [key, col] => s.pop 1 fun _ s => s.prim (L.select col key s.w) fun r s => s.push cap r
    | _ => .ub
  | .insert => s.peek 3 fun vs =>
    match vs with
    | [val, key, col] => s.pop 2 fun _ s => s.prim (L.insert col key val s.w) fun _ s => .run s
    | _ => .ub
  | .insert2 => s.peek 3 fun vs =>
    match vs with
    | [key, col, val] => s.pop 2 fun _ s => s.prim (L.insert col key val s.w) fun _ s => .run s
    | _ => .ub
  | .pushInt v => s.prim (L.int v s.w) fun r s => s.push cap r
  | .pushFlt x => s.prim (L.float x s.w) fun r s => s.push cap r
  | .pushStr t => s.prim (L.str t s.w) fun r s => s.push cap r
  | .pushVar n =>
    match s.frames with
    | .normal f :: _ => s.prim (L.getVar f.locals f.closure n s.w) fun r s => s.push cap r
    | _ => .err s
  | .pushNne => s.push cap L.none
  | .pushTru => s.push cap L.tru
  | .pushFls => s.push cap L.fls
  | .pushFun a argc _ =>
    match s.frames with
    | .normal f :: _ =>
      s.prim (L.newFunc f.closure f.locals s.w) fun r s =>
        { s with funcs := fun x => if x = r then some ⟨f.exe, a, argc⟩ else s.funcs x }.push cap r
    | _ => .err s
  | .pushLst n => s.prim (L.newList n s.w) fun r s => s.push cap r
  | .pushMap n => s.prim (L.newMap n s.w) fun r s => s.push cap r
  | .pushNneTyp => s.push cap L.noneType
  | .pushTyp => s.peek 1 fun vs =>
    match vs with
    | [v] => s.prim (L.typeOf v s.w) fun r s => s.push cap r
    | _ => .ub
  | .exit =>
    match s.frames with
    | .normal f :: _ =>
      match s.push cap f.locals with
      | .run s => leave L cap s
      | x => x
    | _ => .err s
  | .ret _ => leave L cap s
  | .jump a => s.goto a
  | .jumpIf a => s.pop 1 fun vs s =>
    match vs with
    | [v] => s.prim (L.asBool v s.w) fun b s => if b then s.goto a else .run s
    | _ => .ub
  | .jumpIfNot a => s.pop 1 fun vs s =>
    match vs with
    | [v] => s.prim (L.asBool v s.w) fun b s => if b then .run s else s.goto a
    | _ => .ub

/-- executable.c `Executable_Fetch`. -/
def fetch (exes : List (List Instr)) (e i : Nat) : Option Instr :=
  match exes[e]? with
  | some code => code[i]?
  | none => none

/-- run.c:495-516 and one instruction. -/
def step (L : Layer W) (cap : Nat) (s : St W) : Status W :=
  match s.frames with
  | .normal f :: fs =>
    match fetch s.exes f.exe f.idx with
    | none => .err s
    | some i => execI L cap i { s with frames := .normal { f with idx := f.idx + 1 } :: fs }
  | _ => .err s

/-- At most `n` steps, without interrupts. -/
def runN (L : Layer W) (cap : Nat) : Nat → St W → Status W
  | 0, s => .run s
  | n + 1, s =>
    match step L cap s with
    | .run s => runN L cap n s
    | x => x

/-- At most `n` steps; `stop t` is what the check before step `t` sees (run.c:1082-1106). -/
def exec (L : Layer W) (cap : Nat) (stop : Nat → Bool) : (n t : Nat) → St W → Status W
  | 0, _, s => .run s
  | n + 1, t, s =>
    if stop t then .err s
    else
      match step L cap s with
      | .run s => exec L cap stop n (t + 1) s
      | x => x

/-- The machine about to run the program that is executable number `e` (run.c:1134-1152). -/
def boot (L : Layer W) (cap e : Nat) (s : St W) : Status W := enter L cap e 0 none 0 [] s

end Noja.VM
