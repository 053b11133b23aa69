import Verif.VM.Natives
import Verif.VM.Refine
import Verif.Obj.MapTable

/-!
# The object layer with the hash tables

In the layer of `Verif.VM.Objects` a map is a list of entries, and what the hash table does to it is a
parameter.  Here every map has the table of `Verif.Obj.Map`: the keys of the table are references, they
are hashed and compared as the objects that they refer to, and the entries of a map are those of its
table.

Not modelled: keys that are lists or maps (they are copied when inserted, o_map.c:358).  A search that
does not end is undefined here.

With `g` the layer is watched: it is undefined as soon as a map grows such that one of its keys is not
where it is looked for, or a key is something else than none, a boolean, an integer or a text.
-/

set_option linter.unusedVariables false

namespace Noja.VM

open Noja.Graph (Obj Kind Heap)

structure TWorld where
  w : World
  t : Ref → Map.MObj Ref Ref

variable {α β : Type}

/-- Something that does not touch the tables. -/
def up (f : World → Out World α) (x : TWorld) : Out TWorld α :=
  match f x.w with
  | .ok w a => .ok ⟨w, x.t⟩ a
  | .err w => .err ⟨w, x.t⟩
  | .ub => .ub

/-- objects.c:108-114 `Object_Hash` and objects.c:272-288 `Object_Compare` on keys of maps.  If an error has
been reported, a search stops when keys differ (o_map.c:247-255). -/
def kops (C : Config) (h : Heap) (e : Bool) : Map.KeyOps Ref where
  hash r :=
    match Graph.hash h C.fuel r with
    | .ok x => x
    | _ => 0
  cmp a b :=
    match Graph.compare h a b with
    | .ok false => if e then .err else .ok false
    | x => x

/-- Enough for every search and for every growth that ends (see `Map.W.select_ends`). -/
def tfuel (m : Map.MObj Ref Ref) : Nat := 2 * m.mapperSize + 8

/-- What maps can have as keys in programs that are not undefined. -/
def isAtom : Obj → Bool
  | .none => true
  | .bool _ => true
  | .int _ => true
  | .float x => !Graph.isNaN x && !Graph.isZero x
  | .str s => decide (Str.fromString (s.body.take s.bytes) s.bytes = .ok s) && !(s.body.take s.bytes).contains 0
  | _ => false

def isKey (h : Heap) (k : Ref) : Bool :=
  match h[k]? with
  | some o => isAtom o
  | none => false

/-- o_map.c:217-268 `select_`; with whether an error has been reported. -/
def lookT (C : Config) (g : Bool) (x : TWorld) (col key : Ref) (e : Bool) : Exec (Option Ref × Bool) :=
  if g && (e || !isKey x.w.heap key) then .ub
  else
    match Map.select (kops C x.w.heap e) (tfuel (x.t col)) (x.t col) key with
    | .ok v => .ok (v, e)
    | .err => .ok (none, true)
    | .ub => .ub
    | .diverge => .diverge

/-- `selectObj`, with the tables. -/
def selectT (C : Config) (g : Bool) : (fuel : Nat) → (col key : Ref) → TWorld → Out TWorld (Option Ref)
  | 0, _, _, _ => .ub
  | fuel + 1, col, key, x =>
    match x.w.heap[col]? with
    | some (.map es) =>
      match Graph.hash x.w.heap C.fuel key with
      | .ok _ =>
        match lookT C g x col key x.w.err with
        | .ok (v, e) => .ok ⟨{ x.w with err := e }, x.t⟩ v
        | _ => .ub
      | _ => .ub
    | some (.opaque .closure) =>
      match x.w.clos col with
      | none => .ub
      | some (prev, vars) =>
        (selectT C g fuel vars key x).bind fun v x =>
          if x.w.err then .ok x none
          else
            match v, prev with
            | none, some p => selectT C g fuel p key x
            | v, _ => .ok x v
    | _ => up (selectObj C 1 col key) x

/-- A growth that puts every key where it is looked for. -/
def growOk (C : Config) (h : Heap) (m : Map.MObj Ref Ref) : Bool :=
  if m.count = Map.calcCapacity m.mapperSize then
    match Map.grow (kops C h false) (tfuel m) m with
    | .ok m' => Map.allPlaced (kops C h false).hash m' m'.count 0
    | _ => false
  else true

def setTable (t : Ref → Map.MObj Ref Ref) (r : Ref) (m : Map.MObj Ref Ref) : Ref → Map.MObj Ref Ref :=
  fun x => if x = r then m else t x

/-- `insertObj`, with the tables: o_map.c:330-394. -/
def insertT (C : Config) (g : Bool) (col key val : Ref) (x : TWorld) : Out TWorld Unit :=
  match x.w.heap[col]? with
  | some (.map es) =>
    match x.w.heap[key]? with
    | some (.list _) => .ub
    | some (.map _) => .ub
    | _ =>
      if g && !(isKey x.w.heap key && growOk C x.w.heap (x.t col)) then .ub
      else
        match Graph.hash x.w.heap C.fuel key with
        | .ok _ =>
          match Map.insert (kops C x.w.heap false) (tfuel (x.t col)) (x.t col) key val with
          | .ok m => .ok ⟨x.w.withHeap (x.w.heap.set col (.map (Map.entries m))), setTable x.t col m⟩ ()
          | .err => .err x
          | _ => .ub
        | _ => .ub
  | _ => up (insertObj C col key val) x

/-- o_map.c:155-191 `Object_NewMap`. -/
def newMapT (num : Int) (x : TWorld) : Out TWorld Ref :=
  match Map.newMap (num.toNat + 1) num with
  | .ok m => .ok ⟨(x.w.alloc (.map [])).1, setTable x.t (x.w.alloc (.map [])).2 m⟩ (x.w.alloc (.map [])).2
  | _ => .ub

def searchInT (C : Config) (g : Bool) (key : Ref) : List (Option Ref) → TWorld → Out TWorld (Option Ref)
  | [], x => .ok x none
  | none :: ls, x => searchInT C g key ls x
  | some l :: ls, x =>
    (selectT C g (selFuel x.w) l key x).bind fun v x =>
      match v with
      | some r => .ok x (some r)
      | none => searchInT C g key ls x

def strT (s : Str.Str) (x : TWorld) : TWorld := ⟨(x.w.alloc (.str s)).1, x.t⟩

/-- runtime.c:532-575 `Runtime_GetVariable` and run.c:911-927. -/
def getVarT (C : Config) (g : Bool) (locals : Ref) (closure : Option Ref) (n : Name) (x : TWorld) : Out TWorld Ref :=
  (up (fun w => outOf w (cstring n)) x).bind fun s x =>
    (searchInT C g (x.w.alloc (.str s)).2 [some locals, closure, C.builtins] (strT s x)).bind fun v x =>
      match v with
      | some r => .ok x r
      | none => .err x

/-- runtime.c:505-530 `Runtime_SetVariable`. -/
def setVarT (C : Config) (g : Bool) (locals : Ref) (n : Name) (v : Ref) (x : TWorld) : Out TWorld Unit :=
  (up (fun w => outOf w (cstring n)) x).bind fun s x => insertT C g locals (x.w.alloc (.str s)).2 v (strT s x)

/-- run.c:806-831. -/
def selectIT (C : Config) (g : Bool) (col key : Ref) (x : TWorld) : Out TWorld Ref :=
  (selectT C g (selFuel x.w) col key ⟨{ x.w with err := false }, x.t⟩).bind fun v u =>
    .ok ⟨{ u.w with err := x.w.err }, u.t⟩ (v.getD 0)

/-- The `istypeof` methods; that of maps (o_map.c:80-103) selects in the map `v`. -/
def typeBodyT (f : Bool → Nat → Nat → Exec (Bool × Bool)) (look : Nat → Bool → Exec (Option Nat × Bool)) (h : Heap)
    (e : Bool) (v : Nat) (ov ot : Obj) : Exec (Bool × Bool) :=
  match ot, ov with
  | .map es, .map _ => Graph.entriesOf f look es e
  | ot, _ => Graph.typeBody f (fun _ _ => true) h e v ov ot

/-- objects.c:101-106 `Object_IsTypeOf`. -/
def isTypeT (C : Config) (g : Bool) (x : TWorld) : (fuel : Nat) → (e : Bool) → (t v : Nat) → Exec (Bool × Bool)
  | 0, _, _, _ => .diverge
  | fuel + 1, e, t, v =>
    rd x.w.heap t >>= fun ot => rd x.w.heap v >>= fun ov =>
      typeBodyT (isTypeT C g x fuel) (fun k e => lookT C g x v k e) x.w.heap e v ov ot

def isTypeIT (C : Config) (g : Bool) (t v : Ref) (x : TWorld) : Out TWorld Bool :=
  match isTypeT C g x C.fuel x.w.err t v with
  | .ok r => .ok ⟨{ x.w with err := r.2 }, x.t⟩ r.1
  | .err => .err x
  | _ => .ub

def nativeT (C : Config) (g : Bool) (id : Nat) (args : List Ref) (x : TWorld) : Out TWorld NRes :=
  match id, args with
  | 4, [t, v] => (isTypeIT C g t v x).bind fun b x => .ok x (.done [boolRef b])
  | id, args => up (C.native id args) x

/-- The layer with the tables; watched if `g`. -/
def tables (C : Config) (g : Bool) : Layer TWorld where
  none := 0
  tru := 1
  fls := 2
  noneType := typeRef .none
  pending x := x.w.err
  int v := up ((objects C).int v)
  float v := up ((objects C).float v)
  str s := up ((objects C).str s)
  un op a := up ((objects C).un op a)
  bin op a b := up ((objects C).bin op a b)
  asBool a := up ((objects C).asBool a)
  typeOf a := up ((objects C).typeOf a)
  isNone a := up ((objects C).isNone a)
  isType := isTypeIT C g
  newList n := up ((objects C).newList n)
  newMap n := newMapT n
  select := selectIT C g
  insert := insertT C g
  newScope := newMapT (-1)
  setVar := setVarT C g
  getVar := getVarT C g
  newFunc c l := up ((objects C).newFunc c l)
  callee f := up ((objects C).callee f)
  native := nativeT C g

theorem up_bind (f : World → Out World α) (k : α → World → Out World β) (x : TWorld) :
    (up f x).bind (fun a => up (k a)) = up (fun w => (f w).bind k) x := by
  unfold up
  dsimp only
  cases f x.w with
  | ok w a => rfl
  | err w => rfl
  | ub => rfl

theorem tables_lawful (C : Config) (g : Bool) : (tables C g).Lawful := by
  intro v x
  have h := objects_lawful C v
  show ((up ((objects C).typeOf v) x).bind fun t x =>
    (up ((objects C).bin .eql t (typeRef .none)) x).bind fun r x => up ((objects C).asBool r) x) = up ((objects C).isNone v) x
  have e1 : (fun (t : Ref) (x : TWorld) => (up ((objects C).bin .eql t (typeRef .none)) x).bind fun r x => up ((objects C).asBool r) x) =
      fun t => up (fun w => ((objects C).bin .eql t (typeRef .none) w).bind (objects C).asBool) := by
    funext t x
    exact up_bind _ _ x
  rw [e1, up_bind]
  congr 1
  funext w
  exact h w

/-! ## What the watched layer does, the layer does -/

theorem lookT_watched (C : Config) (x : TWorld) (col key : Ref) (e : Bool) :
    lookT C true x col key e = .ub ∨ lookT C true x col key e = lookT C false x col key e := by
  unfold lookT
  by_cases h : (true && (e || !isKey x.w.heap key)) = true
  · exact .inl (if_pos h)
  · exact .inr (by rw [if_neg h]; rfl)

theorem bind_watched {x y : Out TWorld α} {f g : α → TWorld → Out TWorld β} (h : x = .ub ∨ x = y)
    (hf : ∀ a w, f a w = .ub ∨ f a w = g a w) : x.bind f = .ub ∨ x.bind f = y.bind g := by
  rcases h with rfl | rfl
  · exact .inl rfl
  · cases x with
    | ok w a => exact hf a w
    | err w => exact .inr rfl
    | ub => exact .inl rfl

theorem selectT_watched (C : Config) : ∀ (fuel : Nat) (col key : Ref) (x : TWorld),
    selectT C true fuel col key x = .ub ∨ selectT C true fuel col key x = selectT C false fuel col key x
  | 0, _, _, _ => .inl rfl
  | fuel + 1, col, key, x => by
    unfold selectT
    cases x.w.heap[col]? with
    | none => exact .inr rfl
    | some o =>
      cases o with
      | map es =>
        dsimp only
        cases Graph.hash x.w.heap C.fuel key with
        | ok _ =>
          dsimp only
          rcases lookT_watched C x col key x.w.err with h | h
          · rw [h]; exact .inl rfl
          · rw [h]; exact .inr rfl
        | _ => exact .inl rfl
      | «opaque» k =>
        cases k with
        | closure =>
          dsimp only
          cases x.w.clos col with
          | none => exact .inl rfl
          | some p =>
            obtain ⟨prev, vars⟩ := p
            refine bind_watched (selectT_watched C fuel vars key x) fun v x => ?_
            by_cases he : x.w.err = true
            · rw [if_pos he, if_pos he]; exact .inr rfl
            · rw [if_neg he, if_neg he]
              cases v with
              | some v => exact .inr rfl
              | none =>
                cases prev with
                | none => exact .inr rfl
                | some p => exact selectT_watched C fuel p key x
        | _ => exact .inr rfl
      | _ => exact .inr rfl

theorem insertT_watched (C : Config) (col key val : Ref) (x : TWorld) :
    insertT C true col key val x = .ub ∨ insertT C true col key val x = insertT C false col key val x := by
  unfold insertT
  cases x.w.heap[col]? with
  | none => exact .inr rfl
  | some o =>
    cases o with
    | map es =>
      by_cases h : (true && !(isKey x.w.heap key && growOk C x.w.heap (x.t col))) = true
      · left
        dsimp only
        rw [if_pos h]
        split <;> rfl
      · right
        dsimp only
        rw [if_neg h]
        rfl
    | _ => exact .inr rfl

theorem searchInT_watched (C : Config) (key : Ref) : ∀ (ls : List (Option Ref)) (x : TWorld),
    searchInT C true key ls x = .ub ∨ searchInT C true key ls x = searchInT C false key ls x
  | [], x => .inr rfl
  | none :: ls, x => searchInT_watched C key ls x
  | some l :: ls, x => bind_watched (selectT_watched C _ l key x) fun v x => by
      cases v with
      | some r => exact .inr rfl
      | none => exact searchInT_watched C key ls x

theorem entriesOf_watched {f f' : Bool → Nat → Nat → Exec (Bool × Bool)} {l l' : Nat → Bool → Exec (Option Nat × Bool)}
    (hf : ∀ e t v, f e t v = .ub ∨ f e t v = f' e t v) (hl : ∀ k e, l k e = .ub ∨ l k e = l' k e) :
    ∀ (es : List (Nat × Nat)) (e : Bool), Graph.entriesOf f l es e = .ub ∨ Graph.entriesOf f l es e = Graph.entriesOf f' l' es e
  | [], e => .inr rfl
  | (k, t) :: es, e => by
    rw [Graph.entriesOf, Graph.entriesOf]
    rcases hl k e with h | h
    · rw [h]; exact .inl rfl
    · rw [h]
      cases l' k e with
      | ok r =>
        obtain ⟨v, e⟩ := r
        rw [Exec.bind_ok, Exec.bind_ok]
        cases v with
        | none => exact .inr rfl
        | some v =>
          dsimp only
          rcases hf e t v with h | h
          · rw [h]; exact .inl rfl
          · rw [h]
            cases f' e t v with
            | ok r =>
              obtain ⟨b, e⟩ := r
              rw [Exec.bind_ok, Exec.bind_ok]
              cases b with
              | true => exact entriesOf_watched hf hl es e
              | false => exact .inr rfl
            | _ => exact .inr rfl
      | _ => exact .inr rfl

theorem itemsOf_watched {f f' : Bool → Nat → Nat → Exec (Bool × Bool)} (hf : ∀ e t v, f e t v = .ub ∨ f e t v = f' e t v) :
    ∀ (ts vs : List Nat) (e : Bool), Graph.itemsOf f ts vs e = .ub ∨ Graph.itemsOf f ts vs e = Graph.itemsOf f' ts vs e
  | [], _, e => .inr rfl
  | _ :: _, [], _ => .inr rfl
  | t :: ts, v :: vs, e => by
    rw [Graph.itemsOf, Graph.itemsOf]
    rcases hf e t v with h | h
    · rw [h]; exact .inl rfl
    · rw [h]
      cases f' e t v with
      | ok r =>
        obtain ⟨b, e⟩ := r
        rw [Exec.bind_ok, Exec.bind_ok]
        cases b with
        | true => exact itemsOf_watched hf ts vs e
        | false => exact .inr rfl
      | _ => exact .inr rfl

/-- The `istypeof` methods with other functions, up to where the first are undefined. -/
theorem typeBody_watched {f f' : Bool → Nat → Nat → Exec (Bool × Bool)} {hit hit' : Nat → Nat → Bool} (h : Heap)
    (hf : ∀ e t v, f e t v = .ub ∨ f e t v = f' e t v) (e : Bool) (v : Nat) (ov ot : Obj)
    (hm : ∀ es fs, ot = .map es → ov ≠ .map fs) :
    Graph.typeBody f hit h e v ov ot = .ub ∨ Graph.typeBody f hit h e v ov ot = Graph.typeBody f' hit' h e v ov ot := by
  cases ot with
  | nullable i =>
    simp only [Graph.typeBody]
    by_cases q : ov.kind = .none
    · rw [if_pos q, if_pos q]; exact .inr rfl
    · rw [if_neg q, if_neg q]; exact hf e i v
  | sum a b =>
    simp only [Graph.typeBody]
    rcases hf e a v with h | h
    · rw [h]; exact .inl rfl
    · rw [h]
      cases f' e a v with
      | ok r =>
        obtain ⟨b', e⟩ := r
        rw [Exec.bind_ok, Exec.bind_ok]
        cases b' with
        | true => exact .inr rfl
        | false => exact hf e b v
      | _ => exact .inr rfl
  | list ts =>
    simp only [Graph.typeBody]
    cases ov with
    | list vs => exact itemsOf_watched hf ts vs e
    | _ => exact .inr rfl
  | map es =>
    simp only [Graph.typeBody]
    cases ov with
    | map fs => exact absurd rfl (hm es fs rfl)
    | _ => exact .inr rfl
  | _ => exact .inr rfl

theorem isTypeT_watched (C : Config) (x : TWorld) : ∀ (fuel : Nat) (e : Bool) (t v : Nat),
    isTypeT C true x fuel e t v = .ub ∨ isTypeT C true x fuel e t v = isTypeT C false x fuel e t v
  | 0, _, _, _ => .inr rfl
  | fuel + 1, e, t, v => by
    rw [isTypeT, isTypeT]
    cases rd x.w.heap t with
    | ok ot =>
      rw [Exec.bind_ok, Exec.bind_ok]
      cases rd x.w.heap v with
      | ok ov =>
        rw [Exec.bind_ok, Exec.bind_ok]
        unfold typeBodyT
        split
        · exact entriesOf_watched (isTypeT_watched C x fuel) (fun k e => lookT_watched C x v k e) _ e
        · rename_i h
          exact typeBody_watched _ (isTypeT_watched C x fuel) e v _ _ fun es fs h1 h2 => h es fs h1 h2
      | _ => exact .inr rfl
    | _ => exact .inr rfl

theorem isTypeIT_watched (C : Config) (t v : Ref) (x : TWorld) :
    isTypeIT C true t v x = .ub ∨ isTypeIT C true t v x = isTypeIT C false t v x := by
  unfold isTypeIT
  rcases isTypeT_watched C x C.fuel x.w.err t v with h | h
  · rw [h]; exact .inl rfl
  · rw [h]; exact .inr rfl

theorem oref_eq {W : Type} {x y : Out W α} (h : x = .ub ∨ x = y) : Refine.ORef Eq x y := by
  rcases h with rfl | rfl
  · trivial
  · cases x with
    | ok w a => exact ⟨w, rfl, rfl⟩
    | err w => exact ⟨w, rfl, rfl⟩
    | ub => trivial

theorem watched (C : Config) : Refine.LRef Eq (tables C true) (tables C false) where
  none := rfl
  tru := rfl
  fls := rfl
  pending w v h := by subst h; rfl
  int i w v h := by subst h; exact oref_eq (.inr rfl)
  float i w v h := by subst h; exact oref_eq (.inr rfl)
  str i w v h := by subst h; exact oref_eq (.inr rfl)
  un o a w v h := by subst h; exact oref_eq (.inr rfl)
  bin o a b w v h := by subst h; exact oref_eq (.inr rfl)
  asBool a w v h := by subst h; exact oref_eq (.inr rfl)
  isNone a w v h := by subst h; exact oref_eq (.inr rfl)
  isType a b w v h := by subst h; exact oref_eq (isTypeIT_watched C a b w)
  newList n w v h := by subst h; exact oref_eq (.inr rfl)
  newMap n w v h := by subst h; exact oref_eq (.inr rfl)
  select a b w v h := by
    subst h
    exact oref_eq (bind_watched (selectT_watched C _ _ _ _) fun _ _ => .inr rfl)
  insert a b c w v h := by subst h; exact oref_eq (insertT_watched C a b c w)
  newScope w v h := by subst h; exact oref_eq (.inr rfl)
  setVar a b c w v h := by
    subst h
    exact oref_eq (bind_watched (.inr rfl) fun s x => insertT_watched C _ _ _ _)
  getVar a b c w v h := by
    subst h
    exact oref_eq (bind_watched (.inr rfl) fun s x => bind_watched (searchInT_watched C _ _ _) fun _ _ => .inr rfl)
  newFunc a b w v h := by subst h; exact oref_eq (.inr rfl)
  callee a w v h := by subst h; exact oref_eq (.inr rfl)
  native id args w v h := by
    subst h
    refine oref_eq ?_
    show nativeT C true id args w = .ub ∨ nativeT C true id args w = nativeT C false id args w
    unfold nativeT
    split
    · exact bind_watched (isTypeIT_watched C _ _ _) fun _ _ => .inr rfl
    · exact .inr rfl

end Noja.VM
