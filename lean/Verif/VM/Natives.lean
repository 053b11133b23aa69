import Verif.VM.Scope
import Verif.VM.Names
import Verif.Builtin.Text
import Verif.Builtin.Round

/-!
# Builtins that act on objects

The tables `bins_basic` (basic.c:315-352), `bins_string` (string.c:268-275), `bins_math`
(math.c:139-162) and `bins_buffer` (buffer.c:93-98) and native functions.  The other tables and
functions (files, sockets, random numbers, those of the mathematical library, `print`, `input`,
`import`, `sliceUp`) stay parameters: they are those of the configuration `B`, the tables 2, 4 and 6
and the functions with the numbers 10 to 15 and from 24 on.

Buffers are objects with bytes here; that slices share the bytes of a buffer is in `Verif.Obj.Buffer`.
Buffers of 2^31 and more bytes are not modelled.
-/

set_option linter.unusedVariables false

namespace Noja.VM

open Noja.Graph (Obj Kind Heap)

/-- An entry of a table: o_staticmap.c:107-147. -/
inductive Item where
  | type (k : Kind)
  | any
  | float (x : BitVec 64)
  | table (t : Nat)
  | fn (id : Nat) (argc : Option Nat)

def Item.value : Item → World → Out World Ref
  | .type k, w => .ok w (typeRef k)
  | .any, w => mk w .any
  | .float x, w => mk w (.float x)
  | .table t, w =>
    let (w, r) := w.alloc (.opaque .smap)
    .ok { w with tab := fun x => if x = r then t else w.tab x } r
  | .fn id argc, w =>
    let (w, r) := w.alloc (.opaque .nfunc)
    .ok { w with nat := fun x => if x = r then some (id, argc) else w.nat x } r

/-- basic.c:315-352. -/
def basicTable : List (Name × Item) := [
  (N.Type, .type .type), (N.None, .type .none), (N.int, .type .int),
  (N.bool, .type .bool), (N.float, .type .float), (N.String, .type .string),
  (N.Buffer, .type .buffer), (N.List, .type .list), (N.Map, .type .map),
  (N.File, .type .file), (N.Directory, .type .dir),
  (N.NullableType, .type .nullable), (N.SumType, .type .sum), (N.any, .any),
  (N.net, .table 2), (N.math, .table 3), (N.files, .table 4),
  (N.buffer, .table 5), (N.string, .table 1), (N.random, .table 6),
  (N.import, .fn 10 (some 1)), (N.type, .fn 0 (some 1)), (N.print, .fn 11 none),
  (N.input, .fn 12 (some 0)), (N.count, .fn 1 (some 1)), (N.error, .fn 3 (some 1)),
  (N.assert, .fn 2 none), (N.istypeof, .fn 4 (some 2)),
  (N.typename, .fn 5 (some 1)), (N.keysof, .fn 6 (some 1)),
  (N.getCurrentWorkingDirectory, .fn 13 (some 0)),
  (N.getCurrentScriptDirectory, .fn 14 (some 0)),
  (N.getCurrentScriptLocation, .fn 15 (some 0))]

/-- string.c:268-275. -/
def stringTable : List (Name × Item) := [
  (N.ord, .fn 7 (some 1)), (N.chr, .fn 8 (some 1)), (N.cat, .fn 9 none),
  (N.trim, .fn 16 (some 1)), (N.slice, .fn 17 (some 3)), (N.toInt, .fn 18 (some 1))]

/-- math.c:139-162; the numbers are the bits of M_PI and M_E. -/
def mathTable : List (Name × Item) := [
  (N.PI, .float 0x400921FB54442D18#64), (N.E, .float 0x4005BF0A8B145769#64),
  (N.floor, .fn 19 (some 1)), (N.ceil, .fn 20 (some 1)),
  (N.cos, .fn 25 (some 1)), (N.sin, .fn 26 (some 1)), (N.tan, .fn 27 (some 1)),
  (N.acos, .fn 28 (some 1)), (N.asin, .fn 29 (some 1)), (N.atan, .fn 30 (some 1)), (N.atan2, .fn 31 (some 2)),
  (N.exp, .fn 32 (some 1)), (N.log, .fn 33 (some 1)), (N.log10, .fn 34 (some 1)),
  (N.pow, .fn 35 (some 1)), (N.sqrt, .fn 36 (some 1))]

/-- buffer.c:93-98. -/
def bufferTable : List (Name × Item) := [
  (N.new, .fn 21 (some 1)), (N.sliceUp, .fn 24 (some 3)), (N.toString, .fn 22 (some 1)), (N.fromString, .fn 23 (some 1))]

/-- The tables of strings and buffers have no end mark: looking for a name that they do not have reads past
them. -/
def stdSlot (B : Config) : Nat → Name → Option (World → Out World Ref)
  | 0, n => (basicTable.lookup n).map Item.value
  | 1, n => some (((stringTable.lookup n).map Item.value).getD fun _ => .ub)
  | 3, n => (mathTable.lookup n).map Item.value
  | 5, n => some (((bufferTable.lookup n).map Item.value).getD fun _ => .ub)
  | t, n => B.slot t n

/-- What a native function sees of its arguments. -/
def argOf : Obj → Builtin.Arg
  | .none => .none
  | .bool b => .bool b
  | .int v => .int v
  | .float x => .float x
  | .str s => .str s
  | .buffer b => .buffer b b.length
  | .list _ => .list
  | .map _ => .map
  | _ => .other

def argsOf (h : Heap) : List Ref → Exec (List Builtin.Arg)
  | [] => .ok []
  | r :: rs => rd h r >>= fun o => argsOf h rs >>= fun l => .ok (argOf o :: l)

/-- utils.c:3-33, 168-175 `returnValues2`, for one integer or string, or none and a message; and one new
object. -/
def retOf (w : World) : Builtin.Ret → Out World NRes
  | .int v => (mk w (.int v)).bind fun r w => .ok w (.done [r])
  | .float x => (mk w (.float x)).bind fun r w => .ok w (.done [r])
  | .str s => (mk w (.str s)).bind fun r w => .ok w (.done [r])
  | .buffer b => (mk w (.buffer b)).bind fun r w => .ok w (.done [r])
  | .fail m => (outOf w (cstring (Graph.text m))).bind fun s w => (mk w (.str s)).bind fun r w => .ok w (.done [0, r])

/-- A native function on the values of its arguments. -/
def onArgs (f : List Builtin.Arg → Exec Builtin.Ret) (args : List Ref) (w : World) : Out World NRes :=
  (outOf w (argsOf w.heap args >>= f)).bind fun r w => retOf w r

/-- objects.c:225-240 `Object_Count`: lists, maps, strings and buffers (o_list.c:83, o_map.c:80,
o_string.c:78, o_buffer.c:91). -/
def countOf : Obj → Option Nat
  | .list l => some l.length
  | .map es => some es.length
  | .str s => some s.count
  | .buffer b => some b.length
  | _ => none

/-- o_list.c:320-347 `Object_NewListOfConsecutiveIntegers`, after the first `i` of them. -/
def consecutive (l : Ref) : (n i : Nat) → List Ref → World → World
  | 0, _, _, w => w
  | n + 1, i, rs, w =>
    consecutive l n (i + 1) (rs ++ [(w.alloc (.int i)).2])
      ((w.alloc (.int i)).1.withHeap ((w.alloc (.int i)).1.heap.set l (.list (rs ++ [(w.alloc (.int i)).2]))))

/-- objects.c:92-99 `Object_KeysOf`: o_list.c:98-105, o_string.c, o_buffer.c, o_map.c:71-78. -/
def keysOf (r : Ref) (w : World) : Out World Ref :=
  match w.heap[r]? with
  | some (.map es) => mk w (.list (es.map (·.1)))
  | some o =>
    match countOf o with
    | some n => .ok (consecutive (w.alloc (.list [])).2 n 0 [] (w.alloc (.list [])).1) (w.alloc (.list [])).2
    | none => .ok w 0
  | none => .ub

/-- basic.c:213-233. -/
def assertAll : List Ref → World → Out World NRes
  | [], w => .ok w (.done [])
  | r :: rs, w =>
    match w.heap[r]? with
    | some (.bool true) => assertAll rs w
    | some _ => .err w
    | none => .ub

/-- string.c:198-200: `parseArgs` with "s" before `trim`. -/
def trimArgs (as : List Builtin.Arg) : Exec Builtin.Ret := do
  let ps ← Builtin.parseArgs as as.length ['s'] 0
  match ps with
  | [.str s] => Builtin.trim s
  | _ => .ub

/-- string.c:239-241: `parseArgs` with "s" before `toInt`. -/
def toIntArgs (as : List Builtin.Arg) : Exec Builtin.Ret := do
  let ps ← Builtin.parseArgs as as.length ['s'] 0
  match ps with
  | [.str s] => Builtin.toInt s
  | _ => .ub

/-- An optional integer. -/
def intArg : Builtin.PArg → Option Int
  | .int v => some v
  | _ => none

/-- string.c:147-149: `parseArgs` with "s?i?i" before `slice`. -/
def sliceArgs (as : List Builtin.Arg) : Exec Builtin.Ret := do
  let ps ← Builtin.parseArgs as as.length ['s', '?', 'i', '?', 'i'] 0
  match ps with
  | [.str s, o, n] => Builtin.slice s (intArg o) (intArg n)
  | _ => .ub

/-- math.c:97-137 `bin_ceil`, `bin_floor`. -/
def roundArgs (f : BitVec 64 → Exec Int) : List Builtin.Arg → Exec Builtin.Ret
  | [.float x] => f x >>= fun v => .ok (.int v)
  | [_] => .err
  | _ => .ub

/-- math.c:35-55 `WRAP_FUNC`, for the function `f` of the C library. -/
def mathArgs (f : BitVec 64 → BitVec 64) : List Builtin.Arg → Exec Builtin.Ret
  | [.float x] => .ok (.float (f x))
  | [_] => .err
  | _ => .ub

/-- math.c:57-82 `WRAP_FUNC_2`. -/
def mathArgs2 (f : BitVec 64 → BitVec 64 → BitVec 64) : List Builtin.Arg → Exec Builtin.Ret
  | [.float x, .float y] => .ok (.float (f x y))
  | [_, _] => .err
  | _ => .ub

/-- buffer.c:7-27 `bin_new`. -/
def newArgs : List Builtin.Arg → Exec Builtin.Ret
  | [.int v] => if 0 ≤ v ∧ v < 2 ^ 31 then .ok (.buffer (List.replicate v.toNat 0)) else .ub
  | [_] => .err
  | _ => .ub

/-- buffer.c:64-91 `bin_toString`. -/
def toStringArgs : List Builtin.Arg → Exec Builtin.Ret
  | [.buffer mem n] =>
    match Utf8.strlen mem n with
    | .err => .ok (.fail "Buffer doesn't contain valid UTF-8")
    | .ok _ => Str.fromString mem n >>= fun s => .ok (.str s)
    | .ub => .ub
    | .diverge => .diverge
  | [_] => .err
  | _ => .ub

/-- buffer.c:48-62 `bin_fromString`. -/
def fromStringArgs (as : List Builtin.Arg) : Exec Builtin.Ret := do
  let ps ← Builtin.parseArgs as as.length ['s'] 0
  match ps with
  | [.str s] => if s.body.length < s.bytes ∨ 2 ^ 31 ≤ s.bytes then .ub else .ok (.buffer (s.body.take s.bytes))
  | _ => .ub

/-- o_buffer.c:168-200 `buffer_select`. -/
def bufSelect (b : List UInt8) (key : Ref) (w : World) : Out World (Option Ref) :=
  match intKey w.heap key with
  | some i =>
    if toI32 i < 0 then .ok { w with err := true } none
    else
      match b[(toI32 i).toNat]? with
      | some x => .ok (w.alloc (.int x.toNat)).1 (some (w.alloc (.int x.toNat)).2)
      | none => .ok { w with err := true } none
  | none => .ok { w with err := true } none

/-- o_buffer.c:202-247 `buffer_insert`. -/
def bufInsert (b : List UInt8) (col key val : Ref) (w : World) : Out World Unit :=
  match intKey w.heap key, intKey w.heap val with
  | some i, some q =>
    if toI32 i < 0 ∨ toI32 i ≥ b.length then .err w
    else if q > 255 ∨ q < 0 then .err w
    else .ok (w.withHeap (w.heap.set col (.buffer (b.set (toI32 i).toNat (UInt8.ofNat q.toNat))))) ()
  | _, _ => .err w

/-- basic.c:139-148 `type`, 150-168 `count`, 213-233 `assert`, `error`, `istypeof`, 97-111
`typename`, `keysof`, string.c `ord`, `chr`, `cat`, `trim`, `slice`, `toInt`, math.c `floor`, `ceil`, buffer.c `new`,
`toString`, `fromString`. -/
def stdNative (B : Config) : Nat → List Ref → World → Out World NRes
  | 0, [a], w => (kindOf a w).bind fun k w => .ok w (.done [typeRef k])
  | 1, [a], w =>
    match w.heap[a]? with
    | some o =>
      match countOf o with
      | some n => (mk w (.int n)).bind fun r w => .ok w (.done [r])
      | none => .err w
    | none => .ub
  | 2, args, w => assertAll args w
  | 3, [a], w => .err w
  | 4, [t, v], w =>
    (outOf w (Graph.isTypeOf B.hit w.heap B.fuel w.err t v)).bind fun r w =>
      .ok { w with err := r.2 } (.done [boolRef r.1])
  | 5, [a], w =>
    (kindOf a w).bind fun k w => (outOf w (cstring (Graph.text k.name))).bind fun s w =>
      (mk w (.str s)).bind fun r w => .ok w (.done [r])
  | 6, [a], w => (keysOf a w).bind fun r w => .ok w (.done [r])
  | 7, [a], w => onArgs (fun as => match as with | [a] => Builtin.ord a | _ => .ub) [a] w
  | 8, [a], w => onArgs (fun as => match as with | [a] => Builtin.chr a | _ => .ub) [a] w
  | 9, args, w => onArgs Builtin.cat args w
  | 16, args, w => onArgs trimArgs args w
  | 17, args, w => onArgs sliceArgs args w
  | 18, args, w => onArgs toIntArgs args w
  | 19, args, w => onArgs (roundArgs Round.floor) args w
  | 20, args, w => onArgs (roundArgs Round.ceil) args w
  | 21, args, w => onArgs newArgs args w
  | 22, args, w => onArgs toStringArgs args w
  | 23, args, w => onArgs fromStringArgs args w
  | n, args, w => B.native n args w

def std (B : Config) : Config where
  hit := B.hit
  arith := B.arith
  fuel := B.fuel
  builtins := B.builtins
  slot := stdSlot B
  native := stdNative B
  selectX := fun o key w =>
    match o with
    | .buffer b => bufSelect b key w
    | o => B.selectX o key w
  insertX := fun o col key val w =>
    match o with
    | .buffer b => bufInsert b col key val w
    | o => B.insertX o col key val w

theorem Item.quiet {i : Item} {w w' : World} {r : Ref} (h : i.value w = .ok w' r) : w'.err = w.err := by
  cases i with
  | type k => cases h; rfl
  | any => cases h; rfl
  | float x => cases h; rfl
  | table t => cases h; rfl
  | fn id argc => cases h; rfl

theorem std_quiet {B : Config} (hB : ∀ n, Quiet B n) (n : Name) : Quiet (std B) n := by
  intro t f w w' r h hf
  match t, h with
  | 0, h =>
    have h' : (basicTable.lookup n).map Item.value = some f := h
    cases hl : basicTable.lookup n with
    | none => rw [hl] at h'; cases h'
    | some i => rw [hl] at h'; cases h'; exact Item.quiet hf
  | 1, h =>
    have h' : some (((stringTable.lookup n).map Item.value).getD fun _ => .ub) = some f := h
    cases hl : stringTable.lookup n with
    | none => rw [hl] at h'; cases h'; cases hf
    | some i => rw [hl] at h'; cases h'; exact Item.quiet hf
  | 2, h => exact hB n 2 f w w' r h hf
  | 3, h =>
    have h' : (mathTable.lookup n).map Item.value = some f := h
    cases hl : mathTable.lookup n with
    | none => rw [hl] at h'; cases h'
    | some i => rw [hl] at h'; cases h'; exact Item.quiet hf
  | 4, h => exact hB n 4 f w w' r h hf
  | 5, h =>
    have h' : some (((bufferTable.lookup n).map Item.value).getD fun _ => .ub) = some f := h
    cases hl : bufferTable.lookup n with
    | none => rw [hl] at h'; cases h'; cases hf
    | some i => rw [hl] at h'; cases h'; exact Item.quiet hf
  | t + 6, h => exact hB n (t + 6) f w w' r h hf

end Noja.VM
