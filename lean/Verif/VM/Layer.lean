import Verif.VM.Ast

/-!
# The object layer as seen by the interpreter

`run.c` works on objects only through the operations below.  `W` is everything outside the frames
and the evaluation stack: the object heap, the streams, the error flag.  The interpreter is
modelled, and compiled programs are proved correct, for every such layer; `Verif.VM.Objects` gives
the layer built from the models of the object types.

Collections of garbage are not part of the interpreter model: references stay what they are.
`Verif.VM.Move` adds them and shows that it makes no difference.
-/

namespace Noja.VM

abbrev Ref := Nat

/-- Outcome of an operation of the layer: it returned, it reported an error, or it did something
undefined. -/
inductive Out (W : Type) (α : Type) where
  | ok (w : W) (a : α)
  | err (w : W)
  | ub

/-- What a callable object is. -/
inductive Callee where
  /-- an object without `call` method (objects.c:139) -/
  | no
  /-- a function of the language, with its closure -/
  | noja (closure : Ref)
  /-- a native function and the number of arguments it wants (`none`: any) -/
  | native (id : Nat) (argc : Option Nat)
deriving DecidableEq

/-- What a native function asks for. -/
inductive NRes where
  /-- return these values -/
  | done (rets : List Ref)
  /-- run this program and return what it returns (`import`, basic.c:122-137) -/
  | load (p : Stmts)

structure Layer (W : Type) where
  /-- the static objects none, true, false and the type of none -/
  none : Ref
  tru : Ref
  fls : Ref
  noneType : Ref
  /-- `error->occurred`, set by an operation that nevertheless returned normally -/
  pending : W → Bool
  int : Int → W → Out W Ref
  float : BitVec 64 → W → Out W Ref
  str : List UInt8 → W → Out W Ref
  un : UnOp → Ref → W → Out W Ref
  bin : BinOp → Ref → Ref → W → Out W Ref
  /-- `Object_IsBool` and `Object_GetBool`; an error if it is not a boolean -/
  asBool : Ref → W → Out W Bool
  typeOf : Ref → W → Out W Ref
  isNone : Ref → W → Out W Bool
  /-- type, then value -/
  isType : Ref → Ref → W → Out W Bool
  newList : Nat → W → Out W Ref
  newMap : Nat → W → Out W Ref
  /-- collection, then key; none if there is nothing under that key -/
  select : Ref → Ref → W → Out W Ref
  /-- collection, key, value -/
  insert : Ref → Ref → Ref → W → Out W Unit
  newScope : W → Out W Ref
  setVar : (locals : Ref) → Name → Ref → W → Out W Unit
  getVar : (locals : Ref) → (closure : Option Ref) → Name → W → Out W Ref
  newFunc : (closure : Option Ref) → (locals : Ref) → W → Out W Ref
  callee : Ref → W → Out W Callee
  native : Nat → List Ref → W → Out W NRes

def Out.bind {W α β : Type} (o : Out W α) (k : α → W → Out W β) : Out W β :=
  match o with
  | .ok w a => k a w
  | .err w => .err w
  | .ub => .ub

/-- The default-argument test of codegen.c:239-242 (`PUSHTYP; PUSHNNETYP; EQL; JUMPIFNOTANDPOP`)
decides whether a value is none. -/
def Layer.Lawful {W : Type} (L : Layer W) : Prop :=
  ∀ v w, ((L.typeOf v w).bind fun t w => (L.bin .eql t L.noneType w).bind fun r w => L.asBool r w)
    = L.isNone v w

/-- Arguments for a function that wants `n` of them (run.c:62-92): missing ones are none, extra
ones are ignored. -/
def Layer.fit {W : Type} (L : Layer W) (n : Nat) (args : List Ref) : List Ref :=
  args.take n ++ List.replicate (n - args.length) L.none

/-- run.c:219-265. -/
def Layer.adapt {W : Type} (L : Layer W) (argc : Option Nat) (args : List Ref) : List Ref :=
  match argc with
  | .none => args
  | .some n => L.fit n args

end Noja.VM
