/-!
# `src/lib/executable.c`

The builder (`ExeBuilder`), the finished executable and `Executable_Fetch`.

The code area is a bucket list of fixed-size records that never move (`Verif.Util.BucketList`,
`C06_address_stable`), so an operand slot is addressed by instruction and operand number; the data
area is a byte sequence.  Labels are promises (`Verif.Util.Promise`) for a `long long int`,
numbered in the order of creation.

Simplifications: no limit on the sizes; `room` says whether the allocations of an `Append` succeed.
-/

namespace Noja.Exe

/-- executable.h `Opcode`, in the order of executable.c:80-123. -/
inductive Opcode where
  | NOPE | POS | NEG | NOT | ADD | SUB | MUL | DIV | MOD | EQL | NQL | LSS | GRT | LEQ | GEQ | NLB | STP
  | ASS | POP | CHECKTYPE | CALL | SELECT | SELECT2 | INSERT | INSERT2
  | PUSHINT | PUSHFLT | PUSHSTR | PUSHVAR | PUSHTRU | PUSHFLS | PUSHNNE | PUSHFUN | PUSHLST | PUSHMAP
  | PUSHTYP | PUSHNNETYP | RETURN | EXIT | JUMPIFNOTANDPOP | JUMPIFANDPOP | JUMP
deriving DecidableEq, Repr

/-- executable.h `OperandType` without `OPTP_PROMISE`. -/
inductive OpType where
  | idx | int | float | str
deriving DecidableEq, Repr

/-- executable.c:80-123 `instr_table[...].optypes`. -/
def optypes : Opcode → List OpType
  | .ASS => [.str]
  | .POP => [.int]
  | .CHECKTYPE => [.int, .str]
  | .CALL => [.int, .int]
  | .PUSHINT => [.int]
  | .PUSHFLT => [.float]
  | .PUSHSTR => [.str]
  | .PUSHVAR => [.str]
  | .PUSHFUN => [.idx, .int, .str]
  | .PUSHLST => [.int]
  | .PUSHMAP => [.int]
  | .RETURN => [.int]
  | .JUMPIFNOTANDPOP => [.idx]
  | .JUMPIFANDPOP => [.idx]
  | .JUMP => [.idx]
  | _ => []

/-- executable.h `Operand` as given to `ExeBuilder_Append`; a string is what `strlen` sees. -/
inductive Opd where
  | idx (v : Int)
  | int (v : Int)
  | float (bits : BitVec 64)
  | str (s : List UInt8)
  | promise (l : Nat)
deriving DecidableEq, Repr

/-- `Operand` as returned by `Executable_Fetch`. -/
inductive FOpd where
  | idx (v : Int)
  | int (v : Int)
  | float (bits : BitVec 64)
  | str (s : List UInt8)
deriving DecidableEq, Repr

/-- One of `operands[MAX_OPS]` (executable.c:46-49). -/
inductive Word where
  | junk
  | int (v : Int)
  | float (bits : BitVec 64)
deriving DecidableEq, Repr

/-- executable.c:42-50 `Instruction`. -/
structure Ins where
  op : Opcode
  off : Int
  len : Int
  ops : List Word
deriving DecidableEq, Repr

/-- promise.c:45-51: value and the slots that wait for it. -/
structure Prom where
  val : Option Int
  gaps : List (Nat × Nat)

/-- executable.c:60-63 `ExeBuilder`, and the labels. -/
structure Builder where
  data : List UInt8
  code : List Ins
  promc : Int
  proms : Nat → Prom

/-- executable.c:52-58 `Executable`. -/
structure Executable where
  head : List UInt8
  body : List Ins
deriving DecidableEq

/-- executable.c:429-445 `ExeBuilder_New`. -/
def new : Builder := { data := [], code := [], promc := 0, proms := fun _ => ⟨none, []⟩ }

/-- `instr->operands[i] = w` -/
def setSlot (code : List Ins) (k i : Nat) (w : Word) : List Ins :=
  code.modify k fun ins => { ins with ops := ins.ops.set i w }

/-- executable.c:556-648: the operands from number `i` on of instruction `k`.  A promise has the
size of a `long long int`, which is the size of every operand type that is allowed here. -/
def storeOps (k : Nat) : (i : Nat) → List OpType → List Opd → Builder → Builder × Bool
  | i, t :: ts, o :: os, b =>
    match o with
    | .promise l =>
      if t = .str then (b, false)
      else
        let p := b.proms l
        match p.val with
        | none =>
          storeOps k (i + 1) ts os
            { b with
              promc := b.promc + 1
              proms := fun x => if x = l then ⟨none, (k, i) :: p.gaps⟩ else b.proms x }
        | some v => storeOps k (i + 1) ts os { b with code := setSlot b.code k i (.int v) }
    | .str s =>
      if t ≠ .str then (b, false)
      else
        storeOps k (i + 1) ts os
          { b with
            code := setSlot b.code k i (.int b.data.length)
            data := b.data ++ (s ++ [0]) }
    | .idx v =>
      if t ≠ .idx then (b, false)
      else storeOps k (i + 1) ts os { b with code := setSlot b.code k i (.int v) }
    | .int v =>
      if t ≠ .int then (b, false)
      else storeOps k (i + 1) ts os { b with code := setSlot b.code k i (.int v) }
    | .float x =>
      if t ≠ .float then (b, false)
      else storeOps k (i + 1) ts os { b with code := setSlot b.code k i (.float x) }
  | _, _, _, b => (b, true)

/-- executable.c:497-652 `ExeBuilder_Append`. -/
def append (op : Opcode) (opv : List Opd) (off len : Int) (room : Bool) (b : Builder) :
    Builder × Bool :=
  if opv.length ≠ (optypes op).length then (b, false)
  else if room = false then (b, false)
  else
    storeOps b.code.length 0 (optypes op) opv
      { b with code := b.code ++ [⟨op, off, len, List.replicate (optypes op).length .junk⟩] }

/-- `Promise_Resolve` with the callback of executable.c:487-495. -/
def resolve (l : Nat) (v : Int) (b : Builder) : Builder :=
  { b with
    code := (b.proms l).gaps.foldl (fun c g => setSlot c g.1 g.2 (.int v)) b.code
    promc := b.promc - (b.proms l).gaps.length
    proms := fun x => if x = l then ⟨some v, []⟩ else b.proms x }

/-- executable.c:659-666 `ExeBuilder_InstrCount`. -/
def instrCount (b : Builder) : Nat := b.code.length

/-- executable.c:447-485 `ExeBuilder_Finalize`. -/
def finalize (b : Builder) : Option Executable :=
  if b.promc > 0 then none else some { head := b.data, body := b.code }

/-- The C string at an offset of the data area. -/
def cstr (head : List UInt8) (off : Int) : List UInt8 := (head.drop off.toNat).takeWhile (· ≠ 0)

/-- executable.c:287-324: what is read from a slot. -/
def readOpd (head : List UInt8) (t : OpType) (w : Word) : FOpd :=
  match t, w with
  | .str, .int v => .str (cstr head v)
  | .idx, .int v => .idx v
  | .int, .int v => .int v
  | .float, .float x => .float x
  | .float, .int v => .float (BitVec.ofInt 64 v)
  | .idx, .float x => .idx x.toInt
  | .int, .float x => .int x.toInt
  | .str, .float _ => .str []
  | _, .junk => .int 0

/-- executable.c:268-330 `Executable_Fetch`. -/
def fetch (e : Executable) (i : Nat) : Option (Opcode × List FOpd) :=
  match e.body[i]? with
  | none => none
  | some ins => some (ins.op, List.zipWith (readOpd e.head) (optypes ins.op) ins.ops)

/-- executable.c:246-255 `Executable_GetInstrOffset`, for an executable with a source. -/
def instrOffset (e : Executable) (i : Nat) : Int :=
  match e.body[i]? with
  | none => -1
  | some ins => ins.off

/-- executable.c:257-266 `Executable_GetInstrLength`. -/
def instrLength (e : Executable) (i : Nat) : Int :=
  match e.body[i]? with
  | none => -1
  | some ins => ins.len

end Noja.Exe
