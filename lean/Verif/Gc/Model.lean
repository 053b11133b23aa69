import Verif.Exec

/-!
# `src/lib/objects/heap.c`: the moving garbage collector

Objects are identified by the order of their allocation, separately for the static objects, the old
space (main area and overflow memory together) and the new space; that blocks do not overlap is C29.

Simplifications: types are static objects, which a collection leaves alone, and so are none, the
booleans and `any`, which have no references of their own; an object's `type` is therefore not
followed.  The C stack used by the recursion is not limited here.  `malloc` does not fail.
-/

namespace Noja.Gc

/-- A reference to an object. -/
inductive Ref where
  | static (i : Nat)
  | old (a : Nat)
  | new (b : Nat)
deriving DecidableEq, Repr

/-- The contents of an object; `none` is a null pointer. -/
inductive Obj where
  | int (v : Int)
  | float (bits : BitVec 64)
  | str (body : List UInt8)
  | list (capacity : Nat) (vals : List (Option Ref))
  | map (mapperSize : Nat) (mapper : List Int) (entries : List (Option Ref × Option Ref))
  | closure (prev vars : Option Ref)
  | func (code : Nat) (closure : Option Ref)
  | native (id : Nat)
  | smap (id : Nat)
  | buffer (payload offset length : Nat)
  | file (id : Nat)
  | dir (id : Nat)
  | sum (a b : Option Ref)
  | nullable (a : Option Ref)
deriving DecidableEq, Repr

/-! ## What the object types tell the collector -/

/-- `TypeObject.size` (x86-64). -/
def Obj.size : Obj → Nat
  | .int _ => 24
  | .float _ => 24
  | .str _ => 32
  | .list _ _ => 32
  | .map _ _ _ => 48
  | .closure _ _ => 32
  | .func _ _ => 64
  | .native _ => 40
  | .smap _ => 32
  | .buffer _ _ _ => 40
  | .file _ => 24
  | .dir _ => 24
  | .sum _ _ => 32
  | .nullable _ => 24

/-- o_map.c:105-108 `calc_capacity`. -/
def mapCapacity (mapperSize : Nat) : Nat := mapperSize * 2 / 3

/-- The sizes `walkexts` passes on: o_string.c:231-236, o_list.c:197-202, o_map.c:204-215. -/
def Obj.exts : Obj → List Nat
  | .str body => [body.length + 1]
  | .list capacity _ => [16 * capacity]
  | .map m _ _ => [4 * m, 8 * mapCapacity m, 8 * mapCapacity m]
  | _ => []

/-- The references in the order in which `walk` passes them on: o_list.c:189-195,
o_map.c:193-202, o_closure.c:81-87, run.c:35-39, o_sum.c:62-67, o_nullable.c:61-65. -/
def Obj.slots : Obj → List (Option Ref)
  | .list _ vals => vals
  | .map _ _ entries => entries.flatMap fun e => [e.1, e.2]
  | .closure prev vars => [prev, vars]
  | .func _ c => [c]
  | .sum a b => [a, b]
  | .nullable a => [a]
  | _ => []

def pairs : List (Option Ref) → List (Option Ref × Option Ref)
  | a :: b :: l => (a, b) :: pairs l
  | _ => []

/-- The object with its references replaced. -/
def Obj.fill : Obj → List (Option Ref) → Obj
  | .list c _, l => .list c l
  | .map m mp _, l => .map m mp (pairs l)
  | .closure _ _, [p, v] => .closure p v
  | .func i _, [c] => .func i c
  | .sum _ _, [a, b] => .sum a b
  | .nullable _, [a] => .nullable a
  | o, _ => o

/-! ## The collection -/

/-- The objects of the old space, each with the number of bytes from the start of each of its
extensions to the end of the block of memory that contains it. -/
abbrev Old := List (Obj × List Nat)

/-- heap.c:101-119 `struct xHeap` during a collection. -/
structure GS where
  size : Nat
  used : Nat
  failed : Bool
  /-- `Object_MOVED` and `new_location` of the objects of the old space -/
  fwd : Nat → Option Nat
  new : List Obj

/-- heap.c:289-290. -/
def align (u : Nat) : Nat := if u % 8 ≠ 0 then u / 8 * 8 + 8 else u

/-- heap.c:280-329 `Heap_RawMalloc` while collecting. -/
def alloc (size : Nat) (g : GS) : GS :=
  if align g.used + size > g.size then { g with used := align g.used, failed := true }
  else { g with used := align g.used + size }

/-- heap.c:427-450 `Heap_CollectExtension`, for every extension; `memcpy` reads from the old one. -/
def collectExts : List Nat → List Nat → GS → Exec GS
  | [], _, g => .ok g
  | n :: ns, rooms, g =>
    if g.failed then collectExts ns rooms.tail g
    else
      let g' := alloc n g
      if g'.failed then collectExts ns rooms.tail g'
      else if rooms.headD 0 < n then .ub
      else collectExts ns rooms.tail g'

/-- Writing through the pointer to reference `k` of the object `b`. -/
def setSlot (b k : Nat) (r : Option Ref) (g : GS) : GS :=
  { g with new := g.new.modify b fun o => o.fill (o.slots.set k r) }

/-- The loops of the `walk` methods: `n` references from number `k` on. -/
def walkSlots (col : Option Ref → GS → Exec (Option Ref × GS)) (b : Nat) : (n k : Nat) → GS → Exec GS
  | 0, _, g => .ok g
  | n + 1, k, g =>
    match g.new[b]? with
    | none => .ub
    | some o => do
      let (r, g) ← col (o.slots[k]?.join) g
      walkSlots col b n (k + 1) (setSlot b k r g)

/-- heap.c:452-530 `Heap_CollectReference`: the new value of the reference.  A reference to an object
of the new space would be taken for one that was not moved; there are none. -/
def collect (h : Old) : Nat → Option Ref → GS → Exec (Option Ref × GS)
  | 0, _, _ => .diverge
  | n + 1, r, g =>
    if g.failed then .ok (r, g)
    else
      match r with
      | none => .ok (none, g)
      | some (.static i) => .ok (some (.static i), g)
      | some (.new _) => .ub
      | some (.old a) =>
        match g.fwd a with
        | some b => .ok (some (.new b), g)
        | none =>
          match h[a]? with
          | none => .ub
          | some (o, rooms) =>
            let g := alloc o.size g
            if g.failed then .ok (some (.old a), g)
            else do
              let b := g.new.length
              let g ← collectExts o.exts rooms
                { g with new := g.new ++ [o], fwd := fun x => if x = a then some b else g.fwd x }
              let g ← walkSlots (collect h n) b o.slots.length 0 g
              .ok (some (.new b), g)

/-- runtime.c:728-757: the roots one after the other (builtins; locals and closure of every frame;
the values on the stack). -/
def collectAll (h : Old) (n : Nat) : List (Option Ref) → GS → Exec (List (Option Ref) × GS)
  | [], g => .ok ([], g)
  | r :: rs, g => do
    let (r, g) ← collect h n r g
    let (rs, g) ← collectAll h n rs g
    .ok (r :: rs, g)

/-- heap.c:331-356 `Heap_StartCollection`. -/
def start (size : Nat) : GS := ⟨size, 0, false, fun _ => none, []⟩

/-! ## What it should do -/

/-- The references of an object. -/
def Obj.refs : Obj → List (Option Ref)
  | .list _ vals => vals
  | .map _ _ entries => entries.map Prod.fst ++ entries.map Prod.snd
  | .closure prev vars => [vars, prev]
  | .func _ c => [c]
  | .sum a b => [a, b]
  | .nullable a => [a]
  | .int _ | .float _ | .str _ | .native _ | .smap _ | .buffer _ _ _ | .file _ | .dir _ => []

/-- The same object with other references. -/
def Obj.mapRefs (f : Option Ref → Option Ref) : Obj → Obj
  | .list c vals => .list c (vals.map f)
  | .map m mp entries => .map m mp (entries.map fun e => (f e.1, f e.2))
  | .closure prev vars => .closure (f prev) (f vars)
  | .func i c => .func i (f c)
  | .sum a b => .sum (f a) (f b)
  | .nullable a => .nullable (f a)
  | .int v => .int v
  | .float x => .float x
  | .str s => .str s
  | .native i => .native i
  | .smap i => .smap i
  | .buffer p o l => .buffer p o l
  | .file i => .file i
  | .dir i => .dir i

/-- The objects that can be reached. -/
inductive Reach (h : Old) (roots : List (Option Ref)) : Nat → Prop
  | root {a : Nat} : some (.old a) ∈ roots → Reach h roots a
  | step {a c : Nat} {o : Obj} {rooms : List Nat} : Reach h roots a → h[a]? = some (o, rooms) →
      some (.old c) ∈ o.refs → Reach h roots c

/-- References between collections: static objects and objects of the heap. -/
def RefOk (h : Old) : Option Ref → Prop
  | none => True
  | some (.static _) => True
  | some (.old a) => a < h.length
  | some (.new _) => False

/-- Every reference refers to something. -/
def Valid (h : Old) (roots : List (Option Ref)) : Prop :=
  (∀ r ∈ roots, RefOk h r) ∧ ∀ (a : Nat) (o : Obj) (rooms : List Nat), h[a]? = some (o, rooms) → ∀ r ∈ o.refs, RefOk h r

/-- Where things are after a collection that moved the object `a` to `φ a`. -/
def move (φ : Nat → Nat) : Option Ref → Option Ref
  | some (.old a) => some (.new (φ a))
  | r => r

/-! ### The order of the references does not matter -/

theorem mem_slots (o : Obj) (r : Option Ref) : r ∈ o.slots ↔ r ∈ o.refs := by
  cases o with
  | map m mp es =>
    simp only [Obj.slots, Obj.refs, List.mem_flatMap, List.mem_append, List.mem_map]
    constructor
    · rintro ⟨e, he, hr⟩
      simp only [List.mem_cons, List.not_mem_nil, or_false] at hr
      rcases hr with rfl | rfl
      · exact .inl ⟨e, he, rfl⟩
      · exact .inr ⟨e, he, rfl⟩
    · rintro (⟨e, he, rfl⟩ | ⟨e, he, rfl⟩)
      · exact ⟨e, he, by simp⟩
      · exact ⟨e, he, by simp⟩
  | closure p v => simp [Obj.slots, Obj.refs, or_comm]
  | _ => simp [Obj.slots, Obj.refs]

theorem pairs_flat (es : List (Option Ref × Option Ref)) : pairs (es.flatMap fun e => [e.1, e.2]) = es := by
  induction es with
  | nil => rfl
  | cons e es ih => simp [pairs, ih]

theorem flat_pairs : ∀ (l : List (Option Ref)) (n : Nat), l.length = 2 * n → (pairs l).flatMap (fun e => [e.1, e.2]) = l
  | [], n, _ => rfl
  | [a], n, h => by simp at h; omega
  | a :: b :: l, n, h => by
    simp only [List.length_cons] at h
    simp [pairs, flat_pairs l (n - 1) (by omega)]

theorem flat_length (es : List (Option Ref × Option Ref)) : (es.flatMap fun e => [e.1, e.2]).length = 2 * es.length := by
  induction es with
  | nil => rfl
  | cons e es ih => simp only [List.flatMap_cons, List.length_append, ih]; simp; omega

theorem fill_slots (o : Obj) : o.fill o.slots = o := by
  cases o <;> simp [Obj.fill, Obj.slots, pairs_flat]

theorem slots_fill (o : Obj) (l : List (Option Ref)) (h : l.length = o.slots.length) : (o.fill l).slots = l := by
  cases o with
  | map m mp es =>
    simp only [Obj.slots, flat_length] at h
    simp only [Obj.fill, Obj.slots]
    exact flat_pairs l _ h
  | list c vs => rfl
  | closure p v =>
    match l, h with
    | [a, b], _ => rfl
  | sum p v =>
    match l, h with
    | [a, b], _ => rfl
  | func p v =>
    match l, h with
    | [a], _ => rfl
  | nullable p =>
    match l, h with
    | [a], _ => rfl
  | _ =>
    match l, h with
    | [], _ => rfl

theorem fill_fill (o : Obj) (l l' : List (Option Ref)) (h : l.length = o.slots.length) (h' : l'.length = o.slots.length) :
    (o.fill l).fill l' = o.fill l' := by
  cases o with
  | map m mp es => rfl
  | list c vs => rfl
  | closure p v =>
    match l, h, l', h' with
    | [a, b], _, [c, d], _ => rfl
  | sum p v =>
    match l, h, l', h' with
    | [a, b], _, [c, d], _ => rfl
  | func p v =>
    match l, h, l', h' with
    | [a], _, [c], _ => rfl
  | nullable p =>
    match l, h, l', h' with
    | [a], _, [c], _ => rfl
  | _ =>
    match l, h, l', h' with
    | [], _, [], _ => rfl

theorem pairs_map (f : Option Ref → Option Ref) (es : List (Option Ref × Option Ref)) :
    pairs ((es.flatMap fun e => [e.1, e.2]).map f) = es.map fun e => (f e.1, f e.2) := by
  induction es with
  | nil => rfl
  | cons e es ih => simp [pairs, ih]

/-- Replacing every reference, in whatever order, is replacing every reference. -/
theorem fill_map (f : Option Ref → Option Ref) (o : Obj) : o.fill (o.slots.map f) = o.mapRefs f := by
  cases o with
  | map m mp es =>
    simp only [Obj.fill, Obj.slots, Obj.mapRefs, pairs_map]
  | _ => rfl

end Noja.Gc
