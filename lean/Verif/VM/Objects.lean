import Verif.VM.Source
import Verif.Graph.Model
import Verif.Num.Ops

/-!
# The object layer built from the models of the object types

`Verif.VM.Layer` describes what the interpreter needs of objects; here is the layer made of the
models of `Verif.Graph`, `Verif.Num` and `Verif.Str`, with closures and functions added.

Parameters: whether a probe sequence finds a key (`hit`, see `Verif.Graph.Model`), the floating
point operations, the slots of the static map of builtins, the native functions, and selection and
insertion for the other types of collections.  Recursion over cyclic objects, which in C overflows
the stack, is cut off at `fuel` and counts as undefined.
-/

set_option linter.unusedVariables false

namespace Noja.VM

open Noja.Graph (Obj Kind Heap)

/-- Everything but frames and stack. -/
structure World where
  /-- objects, after the static ones -/
  dyn : List Obj
  /-- `error->occurred` -/
  err : Bool
  /-- o_closure.c:36-40: `prev` and `vars` of closure objects -/
  clos : Ref → Option (Option Ref × Ref)
  /-- the closure of function objects -/
  fclo : Ref → Option Ref
  /-- native function objects -/
  nat : Ref → Option (Nat × Option Nat)
  /-- o_staticmap.c:55-59: the table of static maps -/
  tab : Ref → Nat
  /-- what was written to the output -/
  out : List UInt8

def kinds : List Kind := [.type, .none, .bool, .int, .float, .string, .list, .map, .buffer, .file,
  .dir, .nullable, .sum, .any, .closure, .func, .nfunc, .smap]

/-- The static objects: none, true, false and the types. -/
def statics : List Obj := [.none, .bool true, .bool false] ++ kinds.map .type

def typeRef : Kind → Ref
  | .type => 3 | .none => 4 | .bool => 5 | .int => 6 | .float => 7 | .string => 8 | .list => 9
  | .map => 10 | .buffer => 11 | .file => 12 | .dir => 13 | .nullable => 14 | .sum => 15 | .any => 16
  | .closure => 17 | .func => 18 | .nfunc => 19 | .smap => 20

def World.heap (w : World) : Heap := statics ++ w.dyn

def World.withHeap (w : World) (h : Heap) : World := { w with dyn := h.drop statics.length }

def World.alloc (w : World) (o : Obj) : World × Ref := ({ w with dyn := w.dyn ++ [o] }, w.heap.length)

structure Config where
  hit : Nat → Nat → Bool
  arith : Num.FloatArith
  fuel : Nat
  /-- the object `runtime->builtins` -/
  builtins : Option Ref
  /-- o_staticmap.c:107-147: the value of a slot, by table and name -/
  slot : Nat → List UInt8 → Option (World → Out World Ref)
  native : Nat → List Ref → World → Out World NRes
  selectX : Obj → (key : Ref) → World → Out World (Option Ref)
  insertX : Obj → (col key val : Ref) → World → Out World Unit

def outOf {α : Type} (w : World) : Exec α → Out World α
  | .ok a => .ok w a
  | .err => .err w
  | .ub => .ub
  | .diverge => .ub

def mk (w : World) (o : Obj) : Out World Ref := .ok (w.alloc o).1 (w.alloc o).2

def boolRef (b : Bool) : Ref := if b then 1 else 2

def numOf : Obj → Option Num.Num
  | .int v => some (.int v)
  | .float x => some (.float x)
  | _ => none

def objOf : Num.Num → Obj
  | .int v => .int v
  | .float x => .float x

/-- o_string.c:137-171 on a C string. -/
def cstring (n : List UInt8) : Exec Str.Str := Str.fromCString (n ++ [0])

def intKey (h : Heap) (key : Ref) : Option Int :=
  match h[key]? with
  | some (.int v) => some v
  | _ => none

/-- The characters of a string object. -/
def textOf (h : Heap) (k : Ref) : Option (List UInt8) :=
  match h[k]? with
  | some (.str s) => some (s.body.take s.bytes)
  | _ => none

/-- objects.c:171-187 `Object_Select`: o_map.c:217-268, o_list.c:204-230, o_string.c:92-116,
o_closure.c:65-79, o_staticmap.c:107-147; no value if NULL is returned. -/
def selectObj (C : Config) : (fuel : Nat) → (col key : Ref) → World → Out World (Option Ref)
  | 0, _, _, _ => .ub
  | fuel + 1, col, key, w =>
    match w.heap[col]? with
    | none => .ub
    | some (.map es) =>
      match Graph.hash w.heap C.fuel key with
      | .ok _ =>
        match Graph.lookup C.hit w.heap key es w.err with
        | .ok (v, e) => .ok { w with err := e } v
        | _ => .ub
      | _ => .ub
    | some (.list items) =>
      match intKey w.heap key with
      | some i =>
        if toI32 i < 0 ∨ toI32 i ≥ items.length then .ok { w with err := true } none
        else .ok w items[(toI32 i).toNat]?
      | none => .ok { w with err := true } none
    | some (.str s) =>
      match Str.select s (intKey w.heap key) with
      | .ok t => .ok (w.alloc (.str t)).1 (some (w.alloc (.str t)).2)
      | .err => .ok { w with err := true } none
      | _ => .ub
    | some (.opaque .closure) =>
      match w.clos col with
      | none => .ub
      | some (prev, vars) =>
        (selectObj C fuel vars key w).bind fun v w =>
          if w.err then .ok w none
          else
            match v, prev with
            | none, some p => selectObj C fuel p key w
            | v, _ => .ok w v
    | some (.opaque .smap) =>
      match textOf w.heap key with
      | none => .ok w none
      | some n =>
        match C.slot (w.tab col) n with
        | none => .ok w none
        | some f => (f w).bind fun r w => .ok w (some r)
    | some o => C.selectX o key w

/-- Enough for every chain of closures: a closure is newer than what it refers to. -/
def selFuel (w : World) : Nat := w.heap.length + 1

/-- objects.c:207-223 `Object_Insert`: o_map.c:330-394, o_list.c:253-296. -/
def insertObj (C : Config) (col key val : Ref) (w : World) : Out World Unit :=
  match w.heap[col]? with
  | none => .ub
  | some (.map es) =>
    (outOf w (Graph.mapInsert C.hit (fun h => Graph.hash h C.fuel) (Graph.copy C.hit C.fuel) w.heap col key val)).bind
      fun h w => .ok (w.withHeap h) ()
  | some (.list items) =>
    match intKey w.heap key with
    | some i =>
      if toI32 i < 0 ∨ toI32 i > items.length then .err w
      else if toI32 i = items.length then .ok (w.withHeap (w.heap.set col (.list (items ++ [val])))) ()
      else .ok (w.withHeap (w.heap.set col (.list (items.set (toI32 i).toNat val)))) ()
    | none => .err w
  | some o => C.insertX o col key val w

/-- runtime.c:555-571: the places where a variable is looked for, one after the other. -/
def searchIn (C : Config) (key : Ref) : List (Option Ref) → World → Out World (Option Ref)
  | [], w => .ok w none
  | none :: ls, w => searchIn C key ls w
  | some l :: ls, w =>
    (selectObj C (selFuel w) l key w).bind fun v w =>
      match v with
      | some r => .ok w (some r)
      | none => searchIn C key ls w

/-- runtime.c:532-575 `Runtime_GetVariable` and run.c:911-927. -/
def getVar (C : Config) (locals : Ref) (closure : Option Ref) (n : Name) (w : World) : Out World Ref :=
  (outOf w (cstring n)).bind fun s w =>
    (searchIn C (w.alloc (.str s)).2 [some locals, closure, C.builtins] (w.alloc (.str s)).1).bind fun v w =>
      match v with
      | some r => .ok w r
      | none => .err w

/-- runtime.c:505-530 `Runtime_SetVariable`. -/
def setVar (C : Config) (locals : Ref) (n : Name) (v : Ref) (w : World) : Out World Unit :=
  (outOf w (cstring n)).bind fun s w =>
    insertObj C locals (w.alloc (.str s)).2 v (w.alloc (.str s)).1

def relOf : BinOp → Option Num.RelOp
  | .lss => some .lss | .leq => some .leq | .grt => some .grt | .geq => some .geq | _ => none

def mathOf : BinOp → Option Num.MathOp
  | .add => some .add | .sub => some .sub | .mul => some .mul | .div => some .div | _ => none

/-- run.c:603-690: the instructions with two operands. -/
def binObj (C : Config) (op : BinOp) (a b : Ref) (w : World) : Out World Ref :=
  match op with
  | .sum => mk w (.sum a b)
  | .eql => (outOf w (Graph.compare w.heap a b)).bind fun r w => .ok w (boolRef r)
  | .nql => (outOf w (Graph.compare w.heap a b)).bind fun r w => .ok w (boolRef !r)
  | op =>
    match w.heap[a]?, w.heap[b]? with
    | some x, some y =>
      match mathOf op, relOf op with
      | some m, _ => (outOf w (Num.mathOp C.arith m (numOf x) (numOf y))).bind fun r w => mk w (objOf r)
      | none, some m => (outOf w (Num.relOp m (numOf x) (numOf y))).bind fun r w => .ok w (boolRef r)
      | none, none => (outOf w (Num.modOp (numOf x) (numOf y))).bind fun r w => mk w (objOf r)
    | _, _ => .ub

def unObj (op : UnOp) (a : Ref) (w : World) : Out World Ref :=
  match op with
  | .pos => .ok w a
  | .nlb => mk w (.nullable a)
  | .neg =>
    match w.heap[a]? with
    | some x => (outOf w (Num.negOp (numOf x))).bind fun r w => mk w (objOf r)
    | none => .ub
  | .not =>
    match w.heap[a]? with
    | some (.bool b) => .ok w (boolRef !b)
    | some _ => .err w
    | none => .ub

def kindOf (v : Ref) (w : World) : Out World Kind :=
  match w.heap[v]? with
  | some o => .ok w o.kind
  | none => .ub

def newClosure (prev : Option Ref) (vars : Ref) (w : World) : World × Ref :=
  let (w, c) := w.alloc (.opaque .closure)
  ({ w with clos := fun x => if x = c then some (prev, vars) else w.clos x }, c)

/-- run.c:955-975. -/
def newFunc (closure : Option Ref) (locals : Ref) (w : World) : World × Ref :=
  let (w, c) := newClosure closure locals w
  let (w, f) := w.alloc (.opaque .func)
  ({ w with fclo := fun x => if x = f then some c else w.fclo x }, f)

/-- run.c:806-831: errors of the selection are thrown away. -/
def selectI (C : Config) (col key : Ref) (w : World) : Out World Ref :=
  (selectObj C (selFuel w) col key { w with err := false }).bind fun v u =>
    .ok { u with err := w.err } (v.getD 0)

def calleeOf (f : Ref) (w : World) : Out World Callee :=
  match w.heap[f]? with
  | some (.opaque .func) =>
    match w.fclo f with
    | some c => .ok w (.noja c)
    | none => .ub
  | some (.opaque .nfunc) =>
    match w.nat f with
    | some (id, argc) => .ok w (.native id argc)
    | none => .ub
  | some _ => .ok w .no
  | none => .ub

def objects (C : Config) : Layer World where
  none := 0
  tru := 1
  fls := 2
  noneType := typeRef .none
  pending w := w.err
  int v w := mk w (.int v)
  float x w := mk w (.float x)
  str s w := (outOf w (cstring (s.takeWhile (· ≠ 0)))).bind fun s w => mk w (.str s)
  un := unObj
  bin := binObj C
  asBool v w :=
    match w.heap[v]? with
    | some (.bool b) => .ok w b
    | some _ => .err w
    | none => .ub
  typeOf v w := (kindOf v w).bind fun k w => .ok w (typeRef k)
  isNone v w := (kindOf v w).bind fun k w => .ok w (decide (k = .none))
  isType t v w :=
    (outOf w (Graph.isTypeOf C.hit w.heap C.fuel w.err t v)).bind fun r w => .ok { w with err := r.2 } r.1
  newList _ w := mk w (.list [])
  newMap _ w := mk w (.map [])
  select := selectI C
  insert := insertObj C
  newScope w := mk w (.map [])
  setVar := setVar C
  getVar := getVar C
  newFunc c l w := .ok (newFunc c l w).1 (newFunc c l w).2
  callee := calleeOf
  native := C.native

theorem heap_static (w : World) (i : Nat) (h : i < 21) : w.heap[i]? = statics[i]? := by
  unfold World.heap
  rw [List.getElem?_append_left (by simpa [statics, kinds] using h)]

theorem typeRef_static (k : Kind) (w : World) : w.heap[typeRef k]? = some (.type k) := by
  cases k <;> exact heap_static _ _ (by decide)

theorem objects_lawful (C : Config) : (objects C).Lawful := by
  intro v w
  show ((kindOf v w).bind fun k w => Out.ok w (typeRef k)).bind _ = (kindOf v w).bind _
  unfold kindOf
  cases hv : w.heap[v]? with
  | none => rfl
  | some o =>
    show (binObj C .eql (typeRef o.kind) (typeRef .none) w).bind _ = Out.ok w (decide (o.kind = .none))
    generalize o.kind = k
    have hc : Graph.compare w.heap (typeRef k) (typeRef .none) = .ok (decide (k = .none)) := by
      simp [Graph.compare, rd, typeRef_static, Graph.opEql, Obj.kind, bind, Exec.bind]
    simp only [binObj, hc, outOf, Out.bind]
    cases hd : decide (k = Kind.none) with
    | false =>
      show (match w.heap[2]? with
        | some (.bool b) => Out.ok w b
        | some _ => .err w
        | none => .ub) = _
      rw [heap_static w 2 (by decide)]; rfl
    | true =>
      show (match w.heap[1]? with
        | some (.bool b) => Out.ok w b
        | some _ => .err w
        | none => .ub) = _
      rw [heap_static w 1 (by decide)]; rfl

end Noja.VM
