import Verif.Exec
import Verif.CInt
import Verif.Hash
import Verif.Str.Model
import Verif.Obj.IntKey

/-!
# Objects as a graph: equality, hashing, printing, type assertions, copying

Models `objects.c` and the `hash`, `copy`, `print`, `istypeof` and `op_eql` methods of the
object types under `src/lib/objects` and of `o_staticmap.c`.

A heap is a list of objects; a reference is an index into it.  A dangling reference is `ub`.

Simplifications:
* Heap exhaustion is not modelled.  The temporary integer keys made by the list's `istypeof`
  are not put on the heap.
* A map is the list of its entries in insertion order.  The hash table is modelled in
  `Verif.Obj.Map`; here the only thing left of it is the parameter `hit k k'`, which says
  whether the probe sequence of `k` reaches the slot of `k'`.  Theorems hold for every `hit`,
  or for every `hit` that reaches equal keys.
* Type objects and the true/false/none/any objects are static and unique, so pointer equality
  on them is equality of contents.
* Text produced by `printf("%2.2f")` is a parameter.
-/

namespace Noja.Graph

/-- The type of an object (`Object.type`). -/
inductive Kind where
  | type | none | bool | int | float | string | list | map | buffer | file | dir
  | nullable | sum | any | closure | func | nfunc | smap
deriving DecidableEq, Repr

/-- The names of the types: `TYPENAME_...` in `src/lib/defs.h`, o_closure.c:47, run.c:117-137,
o_staticmap.c:66. -/
def Kind.name : Kind → String
  | .type => "Type" | .none => "None" | .bool => "bool" | .int => "int" | .float => "float"
  | .string => "String" | .list => "List" | .map => "Map" | .buffer => "Buffer" | .file => "File"
  | .dir => "Directory" | .nullable => "NullableType" | .sum => "SumType" | .any => "AnyType"
  | .closure => "Closure" | .func => "function" | .nfunc => "native function"
  | .smap => "static map"

inductive Obj where
  | type (k : Kind)
  | none
  | bool (b : Bool)
  | int (v : Int)
  | float (bits : BitVec 64)
  | str (s : Str.Str)
  | list (items : List Nat)
  | map (entries : List (Nat × Nat))
  | buffer (bytes : List UInt8)
  | nullable (item : Nat)
  | sum (item0 item1 : Nat)
  | any
  /-- objects without equality, printing and type assertions: file, dir, closure, func, nfunc,
  smap -/
  | opaque (k : Kind)
deriving DecidableEq

def Obj.kind : Obj → Kind
  | .type _ => .type | .none => .none | .bool _ => .bool | .int _ => .int | .float _ => .float
  | .str _ => .string | .list _ => .list | .map _ => .map | .buffer _ => .buffer
  | .nullable _ => .nullable | .sum _ _ => .sum | .any => .any | .opaque k => k

abbrev Heap := List Obj

/-! ## Equality (`Object_Compare`) -/

/-- An IEEE-754 double is NaN. -/
def isNaN (x : BitVec 64) : Bool := (x &&& 0x7FFFFFFFFFFFFFFF#64) > 0x7FF0000000000000#64

/-- An IEEE-754 double is +0 or -0. -/
def isZero (x : BitVec 64) : Bool := (x &&& 0x7FFFFFFFFFFFFFFF#64) == 0#64

/-- C's `==` on doubles. -/
def floatEq (x y : BitVec 64) : Bool :=
  !isNaN x && !isNaN y && (x == y || (isZero x && isZero y))

/-- The `op_eql` methods (objects.c:66-69, o_none.c:97-103, o_bool.c:80-88, o_int.c:114-127,
o_float.c:74-85, o_string.c:205-218) on two objects of the same type; `err` is
"Object %s doesn't implement Object_Compare". -/
def opEql : Obj → Obj → Exec Bool
  | .type k, .type k' => .ok (decide (k = k'))
  | .none, .none => .ok true
  | .bool b, .bool b' => .ok (decide (b = b'))
  | .int v, .int v' => .ok (decide (v = v'))
  | .float x, .float y => .ok (floatEq x y)
  | .str s, .str s' => Str.opEql s s'
  | _, _ => .err

/-- objects.c:272-288 `Object_Compare`. -/
def compare (h : Heap) (a b : Nat) : Exec Bool := do
  let x ← rd h a
  let y ← rd h b
  if x.kind ≠ y.kind then .ok false else opEql x y

/-! ## Hashing (`Object_Hash`) -/

/-- Signed `int` addition: overflow is undefined. -/
def addInt (x y : BitVec 32) : Exec (BitVec 32) :=
  if x.saddOverflow y then .ub else .ok (x + y)

/-- o_list.c:118-119: `h += Object_Hash(...)` over the items. -/
def hashSum (f : Nat → Exec (BitVec 32)) : List Nat → BitVec 32 → Exec (BitVec 32)
  | [], acc => .ok acc
  | r :: rs, acc => do
    let x ← f r
    let acc ← addInt acc x
    hashSum f rs acc

/-- o_map.c:144-146: `h += Object_Hash(key) + Object_Hash(val)` over the entries. -/
def hashEntries (f : Nat → Exec (BitVec 32)) : List (Nat × Nat) → BitVec 32 → Exec (BitVec 32)
  | [], acc => .ok acc
  | (k, v) :: es, acc => do
    let x ← f k
    let y ← f v
    let s ← addInt x y
    let acc ← addInt acc s
    hashEntries f es acc

/-- The `hash` methods: o_none.c:66-71, o_bool.c:61-71, o_int.c:57-64, o_float.c:57-65,
o_string.c:183-191, o_list.c:107-122, o_map.c:137-148, o_staticmap.c:81-85.  The other types have
none: the call goes through a NULL pointer. -/
def hashBody (f : Nat → Exec (BitVec 32)) : Obj → Exec (BitVec 32)
  | .none => .ok 0
  | .bool b => .ok (if b then 1 else 0)
  | .int v => IntKey.hash v
  | .float x => hashbytes (IntKey.leBytes 8 x.toNat) 8
  | .str s => Str.hash s
  | .list items => hashSum f items 0
  | .map es => hashEntries f es 0
  | .opaque .smap => .ok 0
  | _ => .ub

/-- objects.c:108-114 `Object_Hash`; `fuel` bounds the depth of the recursion. -/
def hash (h : Heap) : (fuel : Nat) → Nat → Exec (BitVec 32)
  | 0, _ => .diverge
  | fuel + 1, r => rd h r >>= hashBody (hash h fuel)

/-! ## Printing (`Object_Print`) -/

abbrev Text := List UInt8

def text (s : String) : Text := s.toUTF8.toList

/-- o_buffer.c:260-286 `print_bytes`. -/
def hexDigit (n : Nat) : UInt8 := UInt8.ofNat (if n < 10 then n + 48 else n - 10 + 65)

def printBytes : List UInt8 → Text
  | [] => []
  | b :: bs =>
    [hexDigit (b.toNat / 16), hexDigit (b.toNat % 16)] ++
      (if bs.isEmpty then [] else text ", ") ++ printBytes bs

def setFlag (fl : Nat → Bool) (r : Nat) (b : Bool) : Nat → Bool := fun x => if x = r then b else fl x

/-- o_list.c:310-316: the items with ", " between them. -/
def printSeq (p : (Nat → Bool) → Nat → Exec (Text × (Nat → Bool))) :
    List Nat → (Nat → Bool) → Exec (Text × (Nat → Bool))
  | [], fl => .ok ([], fl)
  | r :: rs, fl => do
    let (t, fl) ← p fl r
    let (t', fl) ← printSeq p rs fl
    .ok (t ++ (if rs.isEmpty then [] else text ", ") ++ t', fl)

/-- o_map.c:408-416. -/
def printEntries (p : (Nat → Bool) → Nat → Exec (Text × (Nat → Bool))) :
    List (Nat × Nat) → (Nat → Bool) → Exec (Text × (Nat → Bool))
  | [], fl => .ok ([], fl)
  | (k, v) :: es, fl => do
    let (t, fl) ← p fl k
    let (t', fl) ← p fl v
    let (t'', fl) ← printEntries p es fl
    .ok (t ++ text ": " ++ t' ++ (if es.isEmpty then [] else text ", ") ++ t'', fl)

/-- The `print` methods: objects.c:48-52, o_none.c:87-95, o_bool.c:114-121, o_int.c:105-112,
o_float.c:115-121, o_string.c:220-229, o_list.c:305-318, o_map.c:403-418, o_buffer.c:286-293,
o_nullable.c:67-73, o_sum.c:69-75; objects.c:162-163 for types without one. -/
def printBody (fmt : BitVec 64 → Text) (p : (Nat → Bool) → Nat → Exec (Text × (Nat → Bool)))
    (fl : Nat → Bool) : Obj → Exec (Text × (Nat → Bool))
  | .type k => .ok (text k.name, fl)
  | .none => .ok (text "none", fl)
  | .bool b => .ok (text (if b then "true" else "false"), fl)
  | .int v => .ok (text (toString v), fl)
  | .float x => .ok (fmt x, fl)
  | .str s => .ok (Str.print s, fl)
  | .list items => do
    let (t, fl) ← printSeq p items fl
    .ok (text "[" ++ t ++ text "]", fl)
  | .map es => do
    let (t, fl) ← printEntries p es fl
    .ok (text "{" ++ t ++ text "}", fl)
  | .buffer bytes => .ok (text "[" ++ printBytes bytes ++ text "]", fl)
  | .nullable i => do
    let (t, fl) ← p fl i
    .ok (text "?" ++ t, fl)
  | .sum a b => do
    let (t, fl) ← p fl a
    let (t', fl) ← p fl b
    .ok (t ++ text " | " ++ t', fl)
  | .any => .ok (text "<AnyType is unprintable>", fl)
  | .opaque k => .ok (text "<" ++ text k.name ++ text " is unprintable>", fl)

/-- objects.c:149-169 `Object_Print`; `fl` are the `Object_PRINT` flags, `fuel` bounds the depth
of the recursion. -/
def print (fmt : BitVec 64 → Text) (h : Heap) :
    (fuel : Nat) → (fl : Nat → Bool) → Nat → Exec (Text × (Nat → Bool))
  | 0, _, _ => .diverge
  | fuel + 1, fl, r => do
    let o ← rd h r
    if fl r then .ok (text "...", fl)
    else do
      let (t, fl) ← printBody fmt (print fmt h fuel) (setFlag fl r true) o
      .ok (t, setFlag fl r false)

/-! ## Type assertions (`Object_IsTypeOf`) -/

/-- o_map.c:217-268 `select_` on the entries.  `e` says whether an error has been reported
(before or during the call): an error makes the search stop at the next entry that differs. -/
def lookup (hit : Nat → Nat → Bool) (h : Heap) (key : Nat) :
    List (Nat × Nat) → (e : Bool) → Exec (Option Nat × Bool)
  | [], e => .ok (none, e)
  | (k, v) :: es, e =>
    if hit key k then
      match compare h key k with
      | .ok true => .ok (some v, e)
      | .ok false => if e then .ok (none, true) else lookup hit h key es e
      | .err => .ok (none, true)
      | .ub => .ub
      | .diverge => .diverge
    else lookup hit h key es e

/-- o_list.c:79-93, the loop over the items of the type; `vs` are the remaining items of the
value.  Selecting an index past the end reports an error. -/
def itemsOf (f : Bool → Nat → Nat → Exec (Bool × Bool)) :
    (ts vs : List Nat) → (e : Bool) → Exec (Bool × Bool)
  | [], _, e => .ok (true, e)
  | _ :: _, [], _ => .ok (false, true)
  | t :: ts, v :: vs, e => do
    let (b, e) ← f e t v
    if b then itemsOf f ts vs e else .ok (false, e)

/-- o_map.c:90-101, the loop over the entries of the type. -/
def entriesOf (f : Bool → Nat → Nat → Exec (Bool × Bool))
    (look : Nat → Bool → Exec (Option Nat × Bool)) :
    (es : List (Nat × Nat)) → (e : Bool) → Exec (Bool × Bool)
  | [], e => .ok (true, e)
  | (k, t) :: es, e => do
    let (v, e) ← look k e
    match v with
    | none => .ok (false, e)
    | some v => do
      let (b, e) ← f e t v
      if b then entriesOf f look es e else .ok (false, e)

/-- The `istypeof` methods: objects.c:54-59, o_any.c:45-56, o_nullable.c:49-59, o_sum.c:51-60,
o_list.c:69-95, o_map.c:80-103, on the type object `ot` and the value `v` whose object is `ov`;
`f` is `Object_IsTypeOf`.  Other types have none (objects.c:103-104).  The result is the returned
boolean and whether an error has been reported. -/
def typeBody (f : Bool → Nat → Nat → Exec (Bool × Bool)) (hit : Nat → Nat → Bool) (h : Heap)
    (e : Bool) (v : Nat) (ov : Obj) : Obj → Exec (Bool × Bool)
  | .type k => .ok (decide (ov.kind = k), e)
  | .any => .ok (true, e)
  | .nullable i => if ov.kind = .none then .ok (true, e) else f e i v
  | .sum a b => do
    let (r, e) ← f e a v
    if r then .ok (true, e) else f e b v
  | .list ts =>
    match ov with
    | .list vs => itemsOf f ts vs e
    | _ => .ok (false, e)
  | .map es =>
    match ov with
    | .map fs => entriesOf f (fun k e => lookup hit h k fs e) es e
    | _ => .ok (false, e)
  | _ => .ok (false, e)

/-- objects.c:101-106 `Object_IsTypeOf`. -/
def isTypeOf (hit : Nat → Nat → Bool) (h : Heap) :
    (fuel : Nat) → (e : Bool) → (t v : Nat) → Exec (Bool × Bool)
  | 0, _, _, _ => .diverge
  | fuel + 1, e, t, v =>
    rd h t >>= fun ot => rd h v >>= fun ov => typeBody (isTypeOf hit h fuel) hit h e v ov ot

/-! ## Copying (`Object_Copy`) and map insertion -/

/-- o_list.c:133-137. -/
def copyItems (c : Heap → Nat → Exec (Heap × Nat)) : Heap → List Nat → Exec (Heap × List Nat)
  | h, [] => .ok (h, [])
  | h, r :: rs => do
    let (h, r') ← c h r
    let (h, rs') ← copyItems c h rs
    .ok (h, r' :: rs')

/-- The position of the entry found by `lookup`'s search (o_map.c:351-390). -/
def findKey (hit : Nat → Nat → Bool) (h : Heap) (key : Nat) :
    List (Nat × Nat) → (i : Nat) → Exec (Option Nat)
  | [], _ => .ok none
  | (k, _) :: es, i =>
    if hit key k then do
      let c ← compare h key k
      if c then .ok (some i) else findKey hit h key es (i + 1)
    else findKey hit h key es (i + 1)

/-- o_map.c:330-394 `insert`; `hs` is `Object_Hash`, `c` is `Object_Copy`. -/
def mapInsert (hit : Nat → Nat → Bool) (hs : Heap → Nat → Exec (BitVec 32))
    (c : Heap → Nat → Exec (Heap × Nat)) (h : Heap) (m key val : Nat) : Exec Heap := do
  let o ← rd h m
  match o with
  | .map es => do
    let _ ← hs h key
    let i ← findKey hit h key es 0
    match i with
    | some i =>
      match es[i]? with
      | some (k, _) => .ok (h.set m (.map (es.set i (k, val))))
      | none => .ub
    | none => do
      let (h, k') ← c h key
      .ok (h.set m (.map (es ++ [(k', val)])))
  | _ => .err

/-- o_map.c:116-132: copying the entries into the new map `m`. -/
def copyEntries (hit : Nat → Nat → Bool) (hs : Heap → Nat → Exec (BitVec 32))
    (c : Heap → Nat → Exec (Heap × Nat)) (m : Nat) : Heap → List (Nat × Nat) → Exec Heap
  | h, [] => .ok h
  | h, (k, v) :: es => do
    let (h, k') ← c h k
    let (h, v') ← c h v
    let h ← mapInsert hit hs c h m k' v'
    copyEntries hit hs c m h es

/-- The `copy` methods: o_none.c:73-78, o_bool.c:73-78, o_int.c:66-72, o_float.c:67-72,
o_string.c:193-203, o_staticmap.c:74-79, o_list.c:124-142, o_map.c:110-135 on the object `r`; the
other types report an error. -/
def copyBody (hit : Nat → Nat → Bool) (hs : Heap → Nat → Exec (BitVec 32))
    (c : Heap → Nat → Exec (Heap × Nat)) (h : Heap) (r : Nat) : Obj → Exec (Heap × Nat)
  | .none => .ok (h, r)
  | .bool _ => .ok (h, r)
  | .int _ => .ok (h, r)
  | .float _ => .ok (h, r)
  | .str _ => .ok (h, r)
  | .opaque .smap => .ok (h, r)
  | .list items => do
    let (h1, rs) ← copyItems c (h ++ [.list []]) items
    .ok (h1.set h.length (.list rs), h.length)
  | .map es => do
    let h1 ← copyEntries hit hs c h.length (h ++ [.map []]) es
    .ok (h1, h.length)
  | _ => .err

/-- objects.c:116-131 `Object_Copy`; `fuel` bounds the depth of the recursion. -/
def copy (hit : Nat → Nat → Bool) : (fuel : Nat) → Heap → Nat → Exec (Heap × Nat)
  | 0, _, _ => .diverge
  | fuel + 1, h, r =>
    rd h r >>= copyBody hit (fun h => hash h fuel) (copy hit fuel) h r

end Noja.Graph
