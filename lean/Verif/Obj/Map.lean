import Verif.Exec
import Verif.CInt
import Verif.Hash
import Verif.Obj.List
import Verif.Obj.Probe

/-!
# Model of `src/lib/objects/o_map.c` (new, select, insert, grow, count, keysof)

Keys are of any type with a hash (`Object_Hash`) and a comparison (`Object_Compare`; `err`
when the key's type has none).  Keys are immutable values here, so the copy made of a new key
(358) is the key itself; C25 is about that copy.  Heap exhaustion is not modelled; the
mapper size is a `Nat` (in C it overflows `int` at 2^31 slots).  Loops take fuel.
-/

namespace Noja.Map

/-- `Object_Hash` and `Object_Compare` on a kind of keys. -/
structure KeyOps (K : Type) where
  hash : K → BitVec 32
  cmp : K → K → Exec Bool

/-- o_map.c:35-41 `MapObject`.  `mapper[i] = -1` is `none`; unwritten array slots are `none`. -/
structure MObj (K V : Type) where
  mapperSize : Nat
  count : Nat
  mapper : List (Option Nat)
  keys : List (Option K)
  vals : List (Option V)

variable {K V : Type}

/-- o_map.c:105-108 `calc_capacity` (the product with 2.0 and the quotient by 3.0 are exact
enough to truncate to this: a power of two is never a multiple of 3). -/
def calcCapacity (mapperSize : Nat) : Nat := mapperSize * 2 / 3

/-- o_map.c:164-166, the search for the initial mapper size. -/
def sizeLoop (num : Nat) : (fuel : Nat) → (mapperSize : Nat) → Exec Nat
  | 0, _ => .diverge
  | fuel + 1, mapperSize =>
    if calcCapacity mapperSize < num then sizeLoop num fuel (mapperSize * 2) else .ok mapperSize

/-- o_map.c:155-191 `Object_NewMap`. -/
def newMap (fuel : Nat) (num : Int) : Exec (MObj K V) := do
  let num := if num < 0 then 0 else num.toNat
  let size ← sizeLoop num fuel 8
  .ok { mapperSize := size, count := 0, mapper := List.replicate size none,
        keys := List.replicate (calcCapacity size) none,
        vals := List.replicate (calcCapacity size) none }

/-- Reading a slot of an array that must have been written. -/
def rdw {α} (a : List (Option α)) (i : Nat) : Exec α := do
  let v ← rd a i
  match v with
  | some v => .ok v
  | none => .ub

/-- o_map.c:262-263 and 388-389: the next slot, `pert` being already shifted.  (The unsigned sum
may wrap at 2^32, which the mask makes unobservable.) -/
def nextSlot (mapperSize i : Nat) (pert : BitVec 32) : Nat :=
  (i * 5 + pert.toNat + 1) &&& (mapperSize - 1)

/-- o_map.c:234-264, the loop of `select_`.  `ok none` is a NULL result without an error. -/
def selectLoop (ko : KeyOps K) (m : MObj K V) (key : K) :
    (fuel : Nat) → (pert : BitVec 32) → (i : Nat) → Exec (Option V)
  | 0, _, _ => .diverge
  | fuel + 1, pert, i => do
    let k ← rd m.mapper i
    match k with
    | none => .ok none
    | some k => do
      let kk ← rdw m.keys k
      let c ← ko.cmp key kk
      if c then do
        let v ← rdw m.vals k
        .ok (some v)
      else
        selectLoop ko m key fuel (pert >>> 5) (nextSlot m.mapperSize i (pert >>> 5))

/-- o_map.c:217-268 `select_`. -/
def select (ko : KeyOps K) (fuel : Nat) (m : MObj K V) (key : K) : Exec (Option V) :=
  selectLoop ko m key fuel (ko.hash key) ((ko.hash key).toNat &&& (m.mapperSize - 1))

/-- o_map.c:306-319, the loop placing entry `i` in the new mapper.  Here `pert` is a signed
`int`: the shift is arithmetic. -/
def placeLoop (mapperSize : Nat) (i : Nat) :
    (fuel : Nat) → (mapper : List (Option Nat)) → (pert : Int) → (j : Nat) → Exec (List (Option Nat))
  | 0, _, _, _ => .diverge
  | fuel + 1, mapper, pert, j => do
    let k ← rd mapper j
    match k with
    | none => LObj.wr mapper j (some i)
    | some _ =>
      placeLoop mapperSize i fuel mapper (pert >>> 5)
        (((j : Int) * 5 + (pert >>> 5) + 1) % (mapperSize : Int)).toNat

/-- o_map.c:294-320, rehashing entries `i, i + 1, ...` (`n` of them). -/
def rehash (ko : KeyOps K) (fuel : Nat) (mapperSize : Nat) (keys : List (Option K)) :
    (n : Nat) → (i : Nat) → (mapper : List (Option Nat)) → Exec (List (Option Nat))
  | 0, _, mapper => .ok mapper
  | n + 1, i, mapper => do
    let k ← rdw keys i
    let hash := (ko.hash k).toInt
    let mapper ← placeLoop mapperSize i fuel mapper hash (hash % (mapperSize : Int)).toNat
    rehash ko fuel mapperSize keys n (i + 1) mapper

/-- o_map.c:270-328 `grow`. -/
def grow (ko : KeyOps K) (fuel : Nat) (m : MObj K V) : Exec (MObj K V) := do
  let size := m.mapperSize * 2
  let cap := calcCapacity size
  let keys ← LObj.copyVals m.keys m.count 0 (List.replicate cap none)
  let vals ← LObj.copyVals m.vals m.count 0 (List.replicate cap none)
  let mapper ← rehash ko fuel size keys m.count 0 (List.replicate size none)
  .ok { m with mapper := mapper, mapperSize := size, keys := keys, vals := vals }

/-- o_map.c:351-390, the loop of `insert`. -/
def insertLoop (ko : KeyOps K) (m : MObj K V) (key : K) (val : V) :
    (fuel : Nat) → (pert : BitVec 32) → (i : Nat) → Exec (MObj K V)
  | 0, _, _ => .diverge
  | fuel + 1, pert, i => do
    let k ← rd m.mapper i
    match k with
    | none => do
      let mapper ← LObj.wr m.mapper i (some m.count)
      let keys ← LObj.wr m.keys m.count (some key)
      let vals ← LObj.wr m.vals m.count (some val)
      .ok { m with mapper := mapper, keys := keys, vals := vals, count := m.count + 1 }
    | some k => do
      let kk ← rdw m.keys k
      let c ← ko.cmp key kk
      if c then do
        let vals ← LObj.wr m.vals k (some val)
        .ok { m with vals := vals }
      else
        insertLoop ko m key val fuel (pert >>> 5) (nextSlot m.mapperSize i (pert >>> 5))

/-- o_map.c:330-394 `insert`. -/
def insert (ko : KeyOps K) (fuel : Nat) (m : MObj K V) (key : K) (val : V) : Exec (MObj K V) := do
  let m ← (if m.count = calcCapacity m.mapperSize then grow ko fuel m else .ok m)
  insertLoop ko m key val fuel (ko.hash key) ((ko.hash key).toNat &&& (m.mapperSize - 1))

/-- Reading the first `n` slots of an array. -/
def rdAll {α} (a : List (Option α)) : (n i : Nat) → Exec (List α)
  | 0, _ => .ok []
  | n + 1, i => do
    let v ← rdw a i
    let vs ← rdAll a n (i + 1)
    .ok (v :: vs)

/-- o_map.c:71-78 `keysof`. -/
def keysof (m : MObj K V) : Exec (List K) := rdAll m.keys m.count 0

/-! ## What programs do with maps, and what they should see -/

/-- Operations on a map. -/
inductive Op (K V : Type)
  | insert (key : K) (val : V)
  | select (key : K)
  | count
  | keys

/-- What is seen. -/
inductive Res (K V : Type)
  | done
  | found (v : V)
  | absent
  | number (n : Nat)
  | keys (ks : List K)

/-- One operation. -/
def step (ko : KeyOps K) (fuel : Nat) (m : MObj K V) : Op K V → Exec (MObj K V × Res K V)
  | .insert k v => do
    let m ← insert ko fuel m k v
    .ok (m, .done)
  | .select k => do
    let r ← select ko fuel m k
    match r with
    | some v => .ok (m, .found v)
    | none => .ok (m, .absent)
  | .count => .ok (m, .number m.count)
  | .keys => do
    let ks ← keysof m
    .ok (m, .keys ks)

/-- A history. -/
def run (ko : KeyOps K) (fuel : Nat) : MObj K V → List (Op K V) → Exec (List (Res K V))
  | _, [] => .ok []
  | m, o :: os => do
    let (m, r) ← step ko fuel m o
    let rs ← run ko fuel m os
    .ok (r :: rs)

namespace Spec

/-- Entries in order of first insertion.  Two keys are the same entry when `cls` agrees. -/
def insert {C : Type} [DecidableEq C] (cls : K → C) : List (K × V) → K → V → List (K × V)
  | [], k, v => [(k, v)]
  | (k', v') :: s, k, v => if cls k = cls k' then (k', v) :: s else (k', v') :: insert cls s k v

def lookup {C : Type} [DecidableEq C] (cls : K → C) : List (K × V) → K → Option V
  | [], _ => none
  | (k', v') :: s, k => if cls k = cls k' then some v' else lookup cls s k

def step {C : Type} [DecidableEq C] (cls : K → C) (s : List (K × V)) :
    Op K V → List (K × V) × Res K V
  | .insert k v => (insert cls s k v, .done)
  | .select k =>
    match lookup cls s k with
    | some v => (s, .found v)
    | none => (s, .absent)
  | .count => (s, .number s.length)
  | .keys => (s, .keys (s.map (·.1)))

def run {C : Type} [DecidableEq C] (cls : K → C) : List (K × V) → List (Op K V) → List (Res K V)
  | _, [] => []
  | s, o :: os => (step cls s o).2 :: run cls (step cls s o).1 os

end Spec

/-- Comparison and hash agree with the notion `cls` of "same key". -/
structure Consistent {C : Type} [DecidableEq C] (ko : KeyOps K) (cls : K → C) : Prop where
  cmp : ∀ a b, ko.cmp a b = .ok (decide (cls a = cls b))
  hash : ∀ a b, cls a = cls b → ko.hash a = ko.hash b

end Noja.Map
