import Verif.VM.Move.Machine
import Verif.Gc.Main

/-!
# Collections between instructions

A collection of the garbage collector of `Verif.Gc` in a state of the machine of `Verif.VM.Machine`.

What the model of the objects leaves out of them (`Shape`: how much memory was allocated for lists
and maps, where the extensions are) is arbitrary.  The objects that the machine has not moved are
garbage; afterwards they are replaced by objects that nothing refers to, so that objects that are
created later have the same number as they would have had without the collection.

Simplifications: `any`, which is a static object, is created anew by this model whenever it is looked
up; here it is moved like an object without references.  A collection that fails (C26, C27) is not
considered.
-/

set_option linter.unusedVariables false
set_option linter.unusedSimpArgs false

namespace Noja.VM.Move

open Noja.Graph (Obj Kind Heap Text text)
open Noja.VM.Book (All2)

/-- What objects are made of, apart from what `Graph.Obj` says. -/
structure Shape where
  cap : Ref → Nat
  mapperSize : Ref → Nat
  mapper : Ref → List Int
  /-- what is copied with the object without being looked at -/
  code : Ref → Nat
  /-- see `Gc.Old` -/
  rooms : Ref → List Nat

/-- A reference, seen by the collector. -/
def gref (len : Nat) (r : Ref) : Option Gc.Ref :=
  if r < statics.length then some (.static r) else if r < len then some (.old (r - statics.length)) else none

/-- An object, seen by the collector. -/
def gobj (S : Shape) (w : World) (r : Ref) : Obj → Gc.Obj
  | .int v => .int v
  | .float x => .float x
  | .str s => .str s.body
  | .list l => .list (S.cap r) (l.map (gref w.heap.length))
  | .map es => .map (S.mapperSize r) (S.mapper r) (es.map fun e => (gref w.heap.length e.1, gref w.heap.length e.2))
  | .buffer b => .buffer (S.code r) 0 b.length
  | .nullable a => .nullable (gref w.heap.length a)
  | .sum a b => .sum (gref w.heap.length a) (gref w.heap.length b)
  | .opaque .closure =>
    match w.clos r with
    | some x => .closure (x.1.bind (gref w.heap.length)) (gref w.heap.length x.2)
    | none => .closure none none
  | .opaque .func => .func (S.code r) ((w.fclo r).bind (gref w.heap.length))
  | .opaque .nfunc => .native (S.code r)
  | .opaque .smap => .smap (S.code r)
  | .opaque .dir => .dir (S.code r)
  | _ => .file (S.code r)

/-- The heap, seen by the collector. -/
def gheap (S : Shape) (w : World) : Gc.Old :=
  w.dyn.mapIdx fun i o => (gobj S w (statics.length + i) o, S.rooms (statics.length + i))

def frameRoots (len : Nat) : Frame → List (Option Gc.Ref)
  | .normal f => [gref len f.locals, f.closure.bind (gref len)]
  | .native _ => []

/-- runtime.c:736-755. -/
def roots (b : Option Ref) (s : St World) : List (Option Gc.Ref) :=
  b.bind (gref s.w.heap.length) :: (s.frames.flatMap (frameRoots s.w.heap.length) ++ s.stack.map (gref s.w.heap.length))

/-! ## The state after the collection -/

/-- The new location of an object. -/
def fwdRef (len : Nat) (fwd : Nat → Option Nat) (r : Ref) : Ref :=
  if r < statics.length then r
  else if r < len then
    match fwd (r - statics.length) with
    | some d => statics.length + d
    | none => r
  else r

/-- The old location of an object. -/
def backRef (len : Nat) (fwd : Nat → Option Nat) (r : Ref) : Option Ref :=
  if r < statics.length then some r
  else if r < len then
    ((List.range (len - statics.length)).find? fun a => fwd a == some (r - statics.length)).map (statics.length + ·)
  else some r

def renObj (φ : Ref → Ref) : Obj → Obj
  | .list l => .list (l.map φ)
  | .map es => .map (es.map fun e => (φ e.1, φ e.2))
  | .nullable a => .nullable (φ a)
  | .sum a b => .sum (φ a) (φ b)
  | o => o

def movedWorld (fwd : Nat → Option Nat) (w : World) : World where
  dyn := (List.range w.dyn.length).map fun d =>
    match (backRef w.heap.length fwd (statics.length + d)).bind fun a => w.heap[a]? with
    | some o => renObj (fwdRef w.heap.length fwd) o
    | none => .none
  err := w.err
  clos r := ((backRef w.heap.length fwd r).bind w.clos).map fun x =>
    (x.1.map (fwdRef w.heap.length fwd), fwdRef w.heap.length fwd x.2)
  fclo r := ((backRef w.heap.length fwd r).bind w.fclo).map (fwdRef w.heap.length fwd)
  nat r := (backRef w.heap.length fwd r).bind w.nat
  tab r := ((backRef w.heap.length fwd r).map w.tab).getD 0
  out := w.out

def movedFrame (φ : Ref → Ref) : Frame → Frame
  | .normal f => .normal { f with locals := φ f.locals, closure := f.closure.map φ }
  | .native k => .native k

def movedState (fwd : Nat → Option Nat) (s : St World) : St World where
  w := movedWorld fwd s.w
  funcs r := (backRef s.w.heap.length fwd r).bind s.funcs
  exes := s.exes
  stack := s.stack.map (fwdRef s.w.heap.length fwd)
  frames := s.frames.map (movedFrame (fwdRef s.w.heap.length fwd))

/-- The collector takes one state, with these builtins, to another one. -/
def Collects (b : Option Ref) (s : St World) (b' : Option Ref) (s' : St World) : Prop :=
  ∃ (S : Shape) (size n : Nat) (rs : List (Option Gc.Ref)) (g : Gc.GS),
    (∀ a, Gc.Reach (gheap S s.w) (roots b s) a → ∀ o rooms, (gheap S s.w)[a]? = some (o, rooms) → Gc.RoomOk o.exts rooms) ∧
    (gheap S s.w).length < n ∧
    Gc.collectAll (gheap S s.w) n (roots b s) (Gc.start size) = .ok (rs, g) ∧ g.failed = false ∧
    b' = b.map (fwdRef s.w.heap.length g.fwd) ∧ s' = movedState g.fwd s

/-! ## What the collector sees is in order -/

theorem gref_ok (S : Shape) (w : World) (r : Ref) : Gc.RefOk (gheap S w) (gref w.heap.length r) := by
  unfold gref
  by_cases h1 : r < statics.length
  · rw [if_pos h1]; trivial
  · rw [if_neg h1]
    by_cases h2 : r < w.heap.length
    · rw [if_pos h2]
      show r - statics.length < (gheap S w).length
      unfold gheap
      rw [List.length_mapIdx]
      unfold World.heap at h2
      rw [List.length_append] at h2
      have h1 := Nat.le_of_not_lt h1
      exact Nat.sub_lt_left_of_lt_add h1 h2
    · rw [if_neg h2]; trivial

theorem gref_bind_ok (S : Shape) (w : World) (r : Option Ref) : Gc.RefOk (gheap S w) (r.bind (gref w.heap.length)) := by
  cases r with
  | none => trivial
  | some r => exact gref_ok S w r

theorem mem_gobj_refs {S : Shape} {w : World} {a : Ref} {o : Obj} {x : Option Gc.Ref} (h : x ∈ (gobj S w a o).refs) :
    x = none ∨ ∃ r, x = gref w.heap.length r := by
  have hb : ∀ y : Option Ref, y.bind (gref w.heap.length) = none ∨ ∃ r, y.bind (gref w.heap.length) = gref w.heap.length r := by
    intro y
    cases y with
    | none => exact .inl rfl
    | some y => exact .inr ⟨y, rfl⟩
  cases o with
  | list l =>
    obtain ⟨r, _, e⟩ := List.mem_map.1 (show x ∈ l.map (gref w.heap.length) from h)
    exact .inr ⟨r, e.symm⟩
  | map es =>
    have h : x ∈ (es.map fun e => (gref w.heap.length e.1, gref w.heap.length e.2)).map Prod.fst ++
      (es.map fun e => (gref w.heap.length e.1, gref w.heap.length e.2)).map Prod.snd := h
    rcases List.mem_append.1 h with h | h
    · obtain ⟨y, hy, e⟩ := List.mem_map.1 h
      obtain ⟨z, hz, e2⟩ := List.mem_map.1 hy
      subst e2
      exact .inr ⟨z.1, e.symm⟩
    · obtain ⟨y, hy, e⟩ := List.mem_map.1 h
      obtain ⟨z, hz, e2⟩ := List.mem_map.1 hy
      subst e2
      exact .inr ⟨z.2, e.symm⟩
  | nullable a =>
    have h : x ∈ [gref w.heap.length a] := h
    rw [List.mem_singleton] at h
    exact .inr ⟨a, h⟩
  | sum a b =>
    have h : x ∈ [gref w.heap.length a, gref w.heap.length b] := h
    rcases List.mem_cons.1 h with h | h
    · exact .inr ⟨a, h⟩
    · rw [List.mem_singleton] at h
      exact .inr ⟨b, h⟩
  | «opaque» k =>
    cases k with
    | closure =>
      unfold gobj at h
      dsimp only at h
      revert h
      cases w.clos a with
      | none =>
        intro h
        have h : x ∈ [none, none] := h
        rcases List.mem_cons.1 h with h | h
        · exact .inl h
        · exact .inl (List.mem_singleton.1 h)
      | some y =>
        intro h
        have h : x ∈ [gref w.heap.length y.2, y.1.bind (gref w.heap.length)] := h
        rcases List.mem_cons.1 h with h | h
        · exact .inr ⟨_, h⟩
        · rw [List.mem_singleton.1 h]
          exact hb y.1
    | func =>
      have h : x ∈ [(w.fclo a).bind (gref w.heap.length)] := h
      rw [List.mem_singleton.1 h]
      exact hb _
    | _ => cases h
  | _ => cases h

theorem gheap_get (S : Shape) (w : World) (i : Nat) :
    (gheap S w)[i]? = (w.dyn[i]?).map fun o => (gobj S w (statics.length + i) o, S.rooms (statics.length + i)) := by
  unfold gheap
  rw [List.getElem?_mapIdx]

theorem gheap_length (S : Shape) (w : World) : (gheap S w).length = w.dyn.length := List.length_mapIdx

theorem heap_length (w : World) : w.heap.length = statics.length + w.dyn.length := List.length_append

theorem heap_dyn (w : World) (i : Nat) : w.heap[statics.length + i]? = w.dyn[i]? := by
  unfold World.heap
  rw [List.getElem?_append_right (Nat.le_add_right _ _), Nat.add_sub_cancel_left]

theorem valid (S : Shape) (b : Option Ref) (s : St World) : Gc.Valid (gheap S s.w) (roots b s) := by
  constructor
  · intro r hr
    unfold roots at hr
    rcases List.mem_cons.1 hr with h | h
    · rw [h]; exact gref_bind_ok S s.w b
    · rcases List.mem_append.1 h with h | h
      · obtain ⟨f, _, h⟩ := List.mem_flatMap.1 h
        cases f with
        | normal f =>
          have h : r ∈ [gref s.w.heap.length f.locals, f.closure.bind (gref s.w.heap.length)] := h
          rcases List.mem_cons.1 h with h | h
          · rw [h]; exact gref_ok S s.w _
          · rw [List.mem_singleton.1 h]; exact gref_bind_ok S s.w _
        | native k => cases h
      · obtain ⟨x, _, h⟩ := List.mem_map.1 h
        rw [← h]; exact gref_ok S s.w _
  · intro a o rooms ha r hr
    rw [gheap_get] at ha
    cases hd : s.w.dyn[a]? with
    | none => rw [hd] at ha; cases ha
    | some x =>
      rw [hd] at ha
      cases ha
      rcases mem_gobj_refs hr with h | ⟨y, h⟩
      · rw [h]; trivial
      · rw [h]; exact gref_ok S s.w _

/-! ## Forwarding -/

/-- An object that is not garbage. -/
def Live (len : Nat) (fwd : Nat → Option Nat) (r : Ref) : Prop :=
  r < statics.length ∨ len ≤ r ∨ (fwd (r - statics.length)).isSome = true

/-- Objects that map injectively into fewer. -/
theorem pigeon : ∀ (n m : Nat) (f : Nat → Nat), (∀ i, i < n → f i < m) → (∀ i j, i < n → j < n → f i = f j → i = j) → n ≤ m
  | 0, m, _, _, _ => Nat.zero_le m
  | n + 1, 0, f, h, _ => absurd (h 0 (Nat.succ_pos n)) (Nat.not_lt_zero _)
  | n + 1, m + 1, f, h, hi => by
    refine Nat.succ_le_succ (pigeon n m (fun i => if f i = m then f n else f i) ?_ ?_)
    · intro i hin
      have h1 := h i (by omega)
      have h2 := h n (by omega)
      have h3 := hi i n (by omega) (by omega)
      by_cases e : f i = m
      · rw [if_pos e]
        have : f n ≠ m := fun q => by have := h3 (e.trans q.symm); omega
        omega
      · rw [if_neg e]
        omega
    · intro i j hin hjn e
      have hi1 := hi i j (by omega) (by omega)
      have hi2 := hi i n (by omega) (by omega)
      have hi3 := hi n j (by omega) (by omega)
      have hi4 := hi n i (by omega) (by omega)
      have hi5 := hi j n (by omega) (by omega)
      by_cases e1 : f i = m
      · by_cases e2 : f j = m
        · exact hi1 (e1.trans e2.symm)
        · rw [if_pos e1, if_neg e2] at e
          have := hi3 e
          omega
      · by_cases e2 : f j = m
        · rw [if_neg e1, if_pos e2] at e
          have := hi2 e
          omega
        · rw [if_neg e1, if_neg e2] at e
          exact hi1 e

/-- What is known about the forwarding pointers after a collection. -/
structure Fwd (dyn : Nat) (fwd : Nat → Option Nat) : Prop where
  inj : ∀ a a' b, fwd a = some b → fwd a' = some b → a = a'
  old : ∀ a b, fwd a = some b → a < dyn
  new : ∀ a b, fwd a = some b → b < dyn

theorem Fwd.ofWF {h : Gc.Old} {P : Nat → Prop} {g : Gc.GS} (H : Gc.WF h P g) : Fwd h.length g.fwd where
  inj := H.inj
  old := H.old
  new a b e := by
    have hle : g.new.length ≤ h.length := by
      have hex : ∀ b : Nat, ∃ a : Nat, b < g.new.length → g.fwd a = some b := by
        intro b
        by_cases hb : b < g.new.length
        · obtain ⟨a, ha⟩ := H.onto b hb
          exact ⟨a, fun _ => ha⟩
        · exact ⟨0, fun q => absurd q hb⟩
      refine pigeon _ _ (fun b => (hex b).choose) ?_ ?_
      · intro i hi
        exact H.old _ _ ((hex i).choose_spec hi)
      · intro i j hi hj q
        have h1 := (hex i).choose_spec hi
        have h2 := (hex j).choose_spec hj
        rw [q] at h1
        rw [h1] at h2
        exact Option.some.inj h2
    exact Nat.lt_of_lt_of_le (H.lt a b e) hle

variable {fwd : Nat → Option Nat} {len dyn : Nat}

theorem back_fwd (F : Fwd dyn fwd) (hl : len = statics.length + dyn) {r : Ref} (h : Live len fwd r) :
    backRef len fwd (fwdRef len fwd r) = some r := by
  unfold fwdRef
  by_cases h1 : r < statics.length
  · rw [if_pos h1]; unfold backRef; rw [if_pos h1]
  · rw [if_neg h1]
    by_cases h2 : r < len
    · rw [if_pos h2]
      rcases h with h | h | h
      · exact absurd h h1
      · exact absurd h2 (Nat.not_lt.2 h)
      · obtain ⟨d, hd⟩ := Option.isSome_iff_exists.1 h
        rw [hd]
        dsimp only
        have hdd := F.new _ _ hd
        have hr := F.old _ _ hd
        unfold backRef
        rw [if_neg (Nat.not_lt.2 (Nat.le_add_right _ _)), if_pos (by rw [hl]; exact Nat.add_lt_add_left hdd _)]
        have hfind : (List.range (len - statics.length)).find? (fun a => fwd a == some (statics.length + d - statics.length)) =
            some (r - statics.length) := by
          rw [Nat.add_sub_cancel_left]
          have hmem : r - statics.length ∈ List.range (len - statics.length) := by
            rw [List.mem_range]; omega
          cases hf : (List.range (len - statics.length)).find? (fun a => fwd a == some d) with
          | none =>
            have := List.find?_eq_none.1 hf _ hmem
            rw [hd] at this
            simp at this
          | some a =>
            have := List.find?_some hf
            have ha : fwd a = some d := by simpa using this
            rw [F.inj a _ d ha hd]
        rw [hfind]
        show some (statics.length + (r - statics.length)) = some r
        rw [Nat.add_sub_cancel' (Nat.le_of_not_lt h1)]
    · rw [if_neg h2]; unfold backRef; rw [if_neg h1, if_neg h2]

theorem fwd_lt (F : Fwd dyn fwd) (hl : len = statics.length + dyn) {r : Ref} (h : Live len fwd r) (hr : r < len) : fwdRef len fwd r < len := by
  unfold fwdRef
  by_cases h1 : r < statics.length
  · rw [if_pos h1]; exact hr
  · rw [if_neg h1, if_pos hr]
    rcases h with h | h | h
    · exact absurd h h1
    · exact absurd hr (Nat.not_lt.2 h)
    · obtain ⟨d, hd⟩ := Option.isSome_iff_exists.1 h
      rw [hd]
      have hdd := F.new _ _ hd
      rw [hl]
      exact Nat.add_lt_add_left hdd _

theorem fwd_static {r : Ref} (h : r < statics.length) : fwdRef len fwd r = r := by
  unfold fwdRef
  rw [if_pos h]

theorem fwd_late {r : Ref} (hs : statics.length ≤ len) (h : len ≤ r) : fwdRef len fwd r = r := by
  unfold fwdRef
  rw [if_neg (Nat.not_lt.2 (Nat.le_trans hs h)), if_neg (Nat.not_lt.2 h)]

theorem fwd_ge {r : Ref} (h : statics.length ≤ r) : statics.length ≤ fwdRef len fwd r := by
  unfold fwdRef
  rw [if_neg (Nat.not_lt.2 h)]
  split
  · split
    · exact Nat.le_add_right _ _
    · exact h
  · exact h

theorem back_ref (F : Fwd dyn fwd) (hl : len = statics.length + dyn) {r a : Ref} (e : backRef len fwd r = some a) :
    fwdRef len fwd a = r ∧ Live len fwd a := by
  unfold backRef at e
  by_cases h1 : r < statics.length
  · rw [if_pos h1] at e
    cases e
    exact ⟨fwd_static h1, .inl h1⟩
  · rw [if_neg h1] at e
    by_cases h2 : r < len
    · rw [if_pos h2] at e
      obtain ⟨x, hx, rfl⟩ := Option.map_eq_some_iff.1 e
      have hm := List.find?_some hx
      have hf : fwd x = some (r - statics.length) := by simpa using hm
      have hx := F.old _ _ hf
      constructor
      · unfold fwdRef
        rw [if_neg (Nat.not_lt.2 (Nat.le_add_right _ _)), if_pos (by rw [hl]; exact Nat.add_lt_add_left hx _), Nat.add_sub_cancel_left, hf]
        exact Nat.add_sub_cancel' (Nat.le_of_not_lt h1)
      · refine .inr (.inr ?_)
        rw [Nat.add_sub_cancel_left, hf]
        rfl
    · rw [if_neg h2] at e
      cases e
      exact ⟨fwd_late (by omega) (Nat.le_of_not_lt h2), .inr (.inl (Nat.le_of_not_lt h2))⟩

/-- The object at the new location. -/
theorem moved_get {w : World} (F : Fwd w.dyn.length fwd) {r : Ref} (h : Live w.heap.length fwd r) :
    (movedWorld fwd w).heap[fwdRef w.heap.length fwd r]? = (w.heap[r]?).map (renObj (fwdRef w.heap.length fwd)) := by
  have hl := heap_length w
  by_cases h1 : r < statics.length
  · rw [fwd_static h1]
    unfold World.heap
    rw [List.getElem?_append_left h1, List.getElem?_append_left h1]
    cases hs : statics[r]? with
    | none => rfl
    | some o =>
      have : o ∈ statics := List.mem_of_getElem? hs
      unfold statics at this
      rcases List.mem_append.1 this with q | q
      · simp only [List.mem_cons, List.not_mem_nil, or_false] at q
        rcases q with q | q | q <;> rw [q] <;> rfl
      · obtain ⟨k, _, rfl⟩ := List.mem_map.1 q
        rfl
  · have h1 := Nat.le_of_not_lt h1
    by_cases h2 : r < w.heap.length
    · have hb := back_fwd F hl h
      have hlt := fwd_lt F hl h h2
      have hge := fwd_ge (len := w.heap.length) (fwd := fwd) h1
      generalize hc : fwdRef w.heap.length fwd r = c at *
      obtain ⟨d, rfl⟩ := Nat.exists_eq_add_of_le hge
      have hd : d < w.dyn.length := by
        rw [hl] at hlt
        exact Nat.lt_of_add_lt_add_left hlt
      rw [heap_dyn]
      unfold movedWorld
      dsimp only
      rw [List.getElem?_map, List.getElem?_range hd]
      show some (match (backRef w.heap.length fwd (statics.length + d)).bind fun a => w.heap[a]? with
        | some o => renObj (fwdRef w.heap.length fwd) o
        | none => .none) = _
      rw [hb]
      show some (match w.heap[r]? with | some o => renObj (fwdRef w.heap.length fwd) o | none => .none) = _
      cases hr : w.heap[r]? with
      | none => exact absurd h2 (Nat.not_lt.2 (List.getElem?_eq_none_iff.1 hr))
      | some o => rfl
    · have h2 := Nat.le_of_not_lt h2
      rw [fwd_late (by omega) h2, List.getElem?_eq_none h2, List.getElem?_eq_none]
      · rfl
      · rw [heap_length]
        unfold movedWorld
        dsimp only
        rw [List.length_map, List.length_range]
        omega

/-! ## The states before and after are the same under other names -/

/-- The names before all of it, and after the collection. -/
def after (ρ : Ref → Ref → Prop) (len : Nat) (fwd : Nat → Option Nat) (a c : Ref) : Prop :=
  ∃ b, ρ a b ∧ Live len fwd b ∧ c = fwdRef len fwd b

variable {ρ : Ref → Ref → Prop} {N : Nat}

theorem ren_after (R : Ren ρ N) (hN : N ≤ len) (F : Fwd dyn fwd) (hl : len = statics.length + dyn) : Ren (after ρ len fwd) len where
  one a c c' h h' := by
    obtain ⟨b, h1, _, h2⟩ := h
    obtain ⟨b', h1', _, h2'⟩ := h'
    have := R.one a b b' h1 h1'
    subst this
    rw [h2, h2']
  two a a' c h h' := by
    obtain ⟨b, h1, l1, h2⟩ := h
    obtain ⟨b', h1', l2, h2'⟩ := h'
    have e1 := back_fwd F hl l1
    have e2 := back_fwd F hl l2
    rw [← h2] at e1
    rw [← h2', e1] at e2
    cases e2
    exact R.two a a' b h1 h1'
  stat i h := ⟨i, R.stat i h, .inl h, (fwd_static h).symm⟩
  fresh i h := ⟨i, R.fresh i (Nat.le_trans hN h), .inr (.inl h), (fwd_late (by omega) h).symm⟩

theorem after_list {l l' : List Ref} (h : All2 ρ l l') (hv : ∀ r ∈ l', Live len fwd r) :
    All2 (after ρ len fwd) l (l'.map (fwdRef len fwd)) := by
  induction l' generalizing l with
  | nil =>
    cases l with
    | nil => trivial
    | cons a l => exact h.elim
  | cons b l' ih =>
    cases l with
    | nil => exact h.elim
    | cons a l => exact ⟨⟨b, h.1, hv b (List.mem_cons_self ..), rfl⟩, ih h.2 fun r hr => hv r (List.mem_cons_of_mem _ hr)⟩

theorem after_opt {x y : Option Ref} (h : Opt2 ρ x y) (hv : ∀ r, y = some r → Live len fwd r) :
    Opt2 (after ρ len fwd) x (y.map (fwdRef len fwd)) := by
  cases x <;> cases y <;> first | exact h.elim | trivial | skip
  exact ⟨_, h, hv _ rfl, rfl⟩

/-- The references of an object. -/
def kids : Obj → List Ref
  | .list l => l
  | .map es => es.map Prod.fst ++ es.map Prod.snd
  | .nullable a => [a]
  | .sum a b => [a, b]
  | _ => []

theorem after_pairs {l l' : List (Ref × Ref)} (h : All2 (Pair2 ρ) l l') (hv : ∀ e ∈ l', Live len fwd e.1 ∧ Live len fwd e.2) :
    All2 (Pair2 (after ρ len fwd)) l (l'.map fun e => (fwdRef len fwd e.1, fwdRef len fwd e.2)) := by
  induction l' generalizing l with
  | nil =>
    cases l with
    | nil => trivial
    | cons a l => exact h.elim
  | cons b l' ih =>
    cases l with
    | nil => exact h.elim
    | cons a l =>
      have hb := hv b (List.mem_cons_self ..)
      exact ⟨⟨⟨b.1, h.1.1, hb.1, rfl⟩, ⟨b.2, h.1.2, hb.2, rfl⟩⟩, ih h.2 fun r hr => hv r (List.mem_cons_of_mem _ hr)⟩

theorem after_obj {o o' : Obj} (h : ObjR ρ o o') (hv : ∀ r ∈ kids o', Live len fwd r) :
    ObjR (after ρ len fwd) o (renObj (fwdRef len fwd) o') := by
  cases h with
  | list h => exact .list (after_list h hv)
  | map h =>
    exact .map (after_pairs h fun e he => ⟨hv _ (List.mem_append_left _ (List.mem_map_of_mem he)),
      hv _ (List.mem_append_right _ (List.mem_map_of_mem he))⟩)
  | nullable h => exact .nullable ⟨_, h, hv _ (List.mem_cons_self ..), rfl⟩
  | sum h h' => exact .sum ⟨_, h, hv _ (List.mem_cons_self ..), rfl⟩ ⟨_, h', hv _ (List.mem_cons_of_mem _ (List.mem_cons_self ..)), rfl⟩
  | type k => exact .type k
  | none => exact .none
  | bool k => exact .bool k
  | int k => exact .int k
  | float k => exact .float k
  | str k => exact .str k
  | buffer k => exact .buffer k
  | any => exact .any
  | «opaque» k => exact .opaque k

theorem kids_refs {S : Shape} {w : World} {a : Ref} {o : Obj} {r : Ref} (h : r ∈ kids o) : gref w.heap.length r ∈ (gobj S w a o).refs := by
  cases o with
  | list l => exact List.mem_map_of_mem (f := gref w.heap.length) (show r ∈ l from h)
  | map es =>
    show gref w.heap.length r ∈ (es.map fun e => (gref w.heap.length e.1, gref w.heap.length e.2)).map Prod.fst ++
      (es.map fun e => (gref w.heap.length e.1, gref w.heap.length e.2)).map Prod.snd
    rw [List.map_map, List.map_map]
    rcases List.mem_append.1 (show r ∈ es.map Prod.fst ++ es.map Prod.snd from h) with h | h
    · obtain ⟨e, he, rfl⟩ := List.mem_map.1 h
      exact List.mem_append_left _ (List.mem_map.2 ⟨e, he, rfl⟩)
    · obtain ⟨e, he, rfl⟩ := List.mem_map.1 h
      exact List.mem_append_right _ (List.mem_map.2 ⟨e, he, rfl⟩)
  | nullable a =>
    rw [List.mem_singleton.1 (show r ∈ [a] from h)]
    exact List.mem_cons_self ..
  | sum a b =>
    rcases List.mem_cons.1 (show r ∈ [a, b] from h) with h | h
    · rw [h]; exact List.mem_cons_self ..
    · rw [List.mem_singleton.1 h]; exact List.mem_cons_of_mem _ (List.mem_cons_self ..)
  | _ => cases h

section

variable {S : Shape} {b : Option Ref} {s : St World}

/-- What is reached is live. -/
theorem live_of (hr : ∀ a, Gc.Reach (gheap S s.w) (roots b s) a → (fwd a).isSome = true) {r : Ref}
    (h : gref s.w.heap.length r ∈ roots b s) : Live s.w.heap.length fwd r := by
  by_cases h1 : r < statics.length
  · exact .inl h1
  · by_cases h2 : r < s.w.heap.length
    · have e : gref s.w.heap.length r = some (.old (r - statics.length)) := by
        unfold gref
        rw [if_neg h1, if_pos h2]
      rw [e] at h
      exact .inr (.inr (hr _ (.root h)))
    · exact .inr (.inl (Nat.le_of_not_lt h2))

/-- What live objects refer to is live. -/
theorem live_step (hr : ∀ a, Gc.Reach (gheap S s.w) (roots b s) a ↔ (fwd a).isSome = true) {a r : Ref} {o : Obj}
    (ha : Live s.w.heap.length fwd a) (ho : s.w.heap[a]? = some o) (hs : statics.length ≤ a)
    (h : gref s.w.heap.length r ∈ (gobj S s.w a o).refs) : Live s.w.heap.length fwd r := by
  by_cases h1 : r < statics.length
  · exact .inl h1
  · by_cases h2 : r < s.w.heap.length
    · have e : gref s.w.heap.length r = some (.old (r - statics.length)) := by
        unfold gref
        rw [if_neg h1, if_pos h2]
      rw [e] at h
      have hlt : a < s.w.heap.length := by rcases List.getElem?_eq_some_iff.1 ho with ⟨q, _⟩; exact q
      rcases ha with ha | ha | ha
      · exact absurd ha (Nat.not_lt.2 hs)
      · exact absurd hlt (Nat.not_lt.2 ha)
      · refine .inr (.inr ((hr _).1 (.step ((hr _).2 ha) (o := gobj S s.w a o) (rooms := S.rooms a) ?_ h)))
        rw [gheap_get, ← heap_dyn, Nat.add_sub_cancel' hs, ho]
        rfl
    · exact .inr (.inl (Nat.le_of_not_lt h2))

theorem static_kids {r : Ref} {o : Obj} {w : World} (h : w.heap[r]? = some o) (hr : r < statics.length) : kids o = [] ∧ ∀ k, o ≠ .opaque k := by
  unfold World.heap at h
  rw [List.getElem?_append_left hr] at h
  have : o ∈ statics := List.mem_of_getElem? h
  unfold statics at this
  rcases List.mem_append.1 this with q | q
  · simp only [List.mem_cons, List.not_mem_nil, or_false] at q
    rcases q with q | q | q <;> rw [q] <;> exact ⟨rfl, nofun⟩
  · obtain ⟨k, _, rfl⟩ := List.mem_map.1 q
    exact ⟨rfl, nofun⟩

theorem world_after (F : Fwd s.w.dyn.length fwd) (hr : ∀ a, Gc.Reach (gheap S s.w) (roots b s) a ↔ (fwd a).isSome = true)
    {w : World} (R : Ren ρ N) (h : WR ρ N w s.w) : WR (after ρ s.w.heap.length fwd) s.w.heap.length w (movedWorld fwd s.w) := by
  have hl := heap_length s.w
  have hlen : (movedWorld fwd s.w).heap.length = s.w.heap.length := by
    rw [heap_length, heap_length]
    unfold movedWorld
    dsimp only
    rw [List.length_map, List.length_range]
  have hclos : ∀ r x, Live s.w.heap.length fwd r → s.w.clos r = some x →
      (∀ p, x.1 = some p → Live s.w.heap.length fwd p) ∧ Live s.w.heap.length fwd x.2 := by
    intro r x hv hx
    have ho := h.closed r x hx
    have hs : statics.length ≤ r := Nat.le_of_not_lt fun q => (static_kids ho q).2 _ rfl
    have hrefs : (gobj S s.w r (.opaque .closure)).refs = [gref s.w.heap.length x.2, x.1.bind (gref s.w.heap.length)] := by
      unfold gobj
      dsimp only
      rw [hx]
      rfl
    refine ⟨fun p hp => live_step hr hv ho hs ?_, live_step hr hv ho hs ?_⟩
    · rw [hrefs, hp]
      exact List.mem_cons_of_mem _ (List.mem_cons_self ..)
    · rw [hrefs]
      exact List.mem_cons_self ..
  have hfclo : ∀ r x, Live s.w.heap.length fwd r → s.w.fclo r = some x → Live s.w.heap.length fwd x := by
    intro r x hv hx
    have ho := h.fclosed r x hx
    have hs : statics.length ≤ r := Nat.le_of_not_lt fun q => (static_kids ho q).2 _ rfl
    refine live_step hr hv ho hs ?_
    show _ ∈ [(s.w.fclo r).bind (gref s.w.heap.length)]
    rw [hx]
    exact List.mem_cons_self ..
  have hback : ∀ r a, backRef s.w.heap.length fwd r = some a → fwdRef s.w.heap.length fwd a = r ∧ Live s.w.heap.length fwd a :=
    fun r a e => back_ref F hl e
  exact
    { heap :=
        { len := by rw [h.heap.len, hlen]
          le := by rw [h.heap.len]; exact Nat.le_refl _
          obj := by
            rintro a c ⟨x, h1, h2, rfl⟩
            rw [moved_get F h2]
            have ho := h.heap.obj a x h1
            cases hx : s.w.heap[x]? with
            | none =>
              rw [hx] at ho
              cases ha : w.heap[a]? with
              | none => trivial
              | some o' => rw [ha] at ho; exact ho.elim
            | some o =>
              rw [hx] at ho
              cases ha : w.heap[a]? with
              | none => rw [ha] at ho; exact ho.elim
              | some o' =>
                rw [ha] at ho
                refine after_obj (show ObjR ρ o' o from ho) fun r hk => ?_
                by_cases q : x < statics.length
                · rw [(static_kids hx q).1] at hk
                  cases hk
                · exact live_step hr h2 hx (Nat.le_of_not_lt q) (kids_refs hk) }
      err := h.err
      clos := by
        rintro a c ⟨x, h1, h2, rfl⟩
        have ho := h.clos a x h1
        show Opt2 _ (w.clos a) (((backRef s.w.heap.length fwd (fwdRef s.w.heap.length fwd x)).bind s.w.clos).map _)
        rw [back_fwd F hl h2]
        show Opt2 _ (w.clos a) ((s.w.clos x).map _)
        cases hx : s.w.clos x with
        | none =>
          rw [hx] at ho
          cases ha : w.clos a with
          | none => trivial
          | some o' => rw [ha] at ho; exact ho.elim
        | some y =>
          rw [hx] at ho
          cases ha : w.clos a with
          | none => rw [ha] at ho; exact ho.elim
          | some z =>
            rw [ha] at ho
            obtain ⟨q1, q2⟩ := hclos x y h2 hx
            exact ⟨after_opt (show Opt2 ρ z.1 y.1 from ho.1) q1, ⟨_, ho.2, q2, rfl⟩⟩
      fclo := by
        rintro a c ⟨x, h1, h2, rfl⟩
        have ho := h.fclo a x h1
        show Opt2 _ (w.fclo a) (((backRef s.w.heap.length fwd (fwdRef s.w.heap.length fwd x)).bind s.w.fclo).map _)
        rw [back_fwd F hl h2]
        exact after_opt ho fun r q => hfclo x r h2 q
      nat := by
        rintro a c ⟨x, h1, h2, rfl⟩
        show _ = (backRef s.w.heap.length fwd (fwdRef s.w.heap.length fwd x)).bind s.w.nat
        rw [back_fwd F hl h2]
        exact h.nat a x h1
      tab := by
        rintro a c ⟨x, h1, h2, rfl⟩
        show _ = ((backRef s.w.heap.length fwd (fwdRef s.w.heap.length fwd x)).map s.w.tab).getD 0
        rw [back_fwd F hl h2]
        exact h.tab a x h1
      out := h.out
      closed := by
        intro r p e
        have e : ((backRef s.w.heap.length fwd r).bind s.w.clos).map _ = some p := e
        obtain ⟨y, hy, -⟩ := Option.map_eq_some_iff.1 e
        obtain ⟨a, h1, h2⟩ := Option.bind_eq_some_iff.1 hy
        obtain ⟨q1, q2⟩ := hback r a h1
        rw [← q1, moved_get F q2, h.closed a y h2]
        rfl
      fclosed := by
        intro r p e
        have e : ((backRef s.w.heap.length fwd r).bind s.w.fclo).map _ = some p := e
        obtain ⟨y, hy, -⟩ := Option.map_eq_some_iff.1 e
        obtain ⟨a, h1, h2⟩ := Option.bind_eq_some_iff.1 hy
        obtain ⟨q1, q2⟩ := hback r a h1
        rw [← q1, moved_get F q2, h.fclosed a y h2]
        rfl }

theorem frames_after {l l' : List Frame} (h : All2 (FrR ρ) l l')
    (hv : ∀ f, .normal f ∈ l' → Live len fwd f.locals ∧ ∀ c, f.closure = some c → Live len fwd c) :
    All2 (FrR (after ρ len fwd)) l (l'.map (movedFrame (fwdRef len fwd))) := by
  induction l' generalizing l with
  | nil =>
    cases l with
    | nil => trivial
    | cons a l => exact h.elim
  | cons g l' ih =>
    cases l with
    | nil => exact h.elim
    | cons f l =>
      refine ⟨?_, ih h.2 fun f hf => hv f (List.mem_cons_of_mem _ hf)⟩
      cases f with
      | normal f =>
        cases g with
        | normal g =>
          obtain ⟨q1, q2⟩ := hv g (List.mem_cons_self ..)
          have hf : NFrR ρ f g := h.1
          exact ⟨hf.exe, hf.idx, ⟨_, hf.locals, q1, rfl⟩, after_opt hf.closure q2, hf.used, hf.want⟩
        | native k => exact h.1.elim
      | native k =>
        cases g with
        | normal g => exact h.1.elim
        | native k' => exact h.1

/-- The forwarding pointers of a collection. -/
theorem forwards {size n : Nat} {rs : List (Option Gc.Ref)} {g : Gc.GS}
    (hroom : ∀ a, Gc.Reach (gheap S s.w) (roots b s) a → ∀ o rooms, (gheap S s.w)[a]? = some (o, rooms) → Gc.RoomOk o.exts rooms)
    (hn : (gheap S s.w).length < n) (hcol : Gc.collectAll (gheap S s.w) n (roots b s) (Gc.start size) = .ok (rs, g))
    (hf : g.failed = false) :
    Fwd s.w.dyn.length g.fwd ∧ ∀ a, Gc.Reach (gheap S s.w) (roots b s) a ↔ (g.fwd a).isSome = true := by
  obtain ⟨rs2, g2, e2, -, hwf, hd⟩ := Gc.after (valid S b s) hroom size n hn
  rw [hcol] at e2
  cases e2
  obtain ⟨-, hr, -⟩ := hd hf
  refine ⟨?_, hr⟩
  have := Fwd.ofWF hwf
  rw [gheap_length] at this
  exact this

theorem ren_moved (F : Fwd s.w.dyn.length fwd) (R : Ren ρ N) {w : World} (h : WR ρ N w s.w) :
    Ren (after ρ s.w.heap.length fwd) s.w.heap.length := by
  refine ren_after R ?_ F (heap_length s.w)
  have := h.heap.le
  rw [h.heap.len] at this
  exact this

theorem state_after (F : Fwd s.w.dyn.length fwd) (hr : ∀ a, Gc.Reach (gheap S s.w) (roots b s) a ↔ (fwd a).isSome = true)
    (R : Ren ρ N) {s0 : St World} (h : StR (WR ρ N) ρ s0 s) :
    StR (WR (after ρ s.w.heap.length fwd) s.w.heap.length) (after ρ s.w.heap.length fwd) s0 (movedState fwd s) := by
  have hl := heap_length s.w
  have hr1 := fun a q => (hr a).1 q
  refine ⟨world_after F hr R h.w, ?_, h.exes, ?_, ?_⟩
  · rintro a c ⟨x, h1, h2, rfl⟩
    show _ = (backRef s.w.heap.length fwd (fwdRef s.w.heap.length fwd x)).bind s.funcs
    rw [back_fwd F hl h2]
    exact h.funcs a x h1
  · refine after_list h.stack fun r q => live_of hr1 ?_
    exact List.mem_cons_of_mem _ (List.mem_append_right _ (List.mem_map_of_mem q))
  · refine frames_after h.frames fun f q => ⟨live_of hr1 ?_, fun c hc => live_of hr1 ?_⟩
    · refine List.mem_cons_of_mem _ (List.mem_append_left _ (List.mem_flatMap.2 ⟨_, q, ?_⟩))
      exact List.mem_cons_self ..
    · refine List.mem_cons_of_mem _ (List.mem_append_left _ (List.mem_flatMap.2 ⟨_, q, ?_⟩))
      show _ ∈ [gref s.w.heap.length f.locals, f.closure.bind (gref s.w.heap.length)]
      rw [hc]
      exact List.mem_cons_of_mem _ (List.mem_cons_self ..)

theorem builtins_after (hr : ∀ a, Gc.Reach (gheap S s.w) (roots b s) a ↔ (fwd a).isSome = true) {b0 : Option Ref} (hb : Opt2 ρ b0 b) :
    Opt2 (after ρ s.w.heap.length fwd) b0 (b.map (fwdRef s.w.heap.length fwd)) := by
  refine after_opt hb fun r q => live_of (fun a q => (hr a).1 q) ?_
  subst q
  exact List.mem_cons_self ..

/-- A collection only gives other names. -/
theorem collects_rel {b0 b' : Option Ref} {s0 s' : St World} (hc : Collects b s b' s') (R : Ren ρ N)
    (h : StR (WR ρ N) ρ s0 s) (hb : Opt2 ρ b0 b) :
    ∃ ρ' N', Ren ρ' N' ∧ statics.length ≤ N' ∧ StR (WR ρ' N') ρ' s0 s' ∧ Opt2 ρ' b0 b' := by
  obtain ⟨S, size, n, rs, g, hroom, hn, hcol, hf, rfl, rfl⟩ := hc
  obtain ⟨F, hr⟩ := forwards hroom hn hcol hf
  exact ⟨after ρ s.w.heap.length g.fwd, s.w.heap.length, ren_moved F R h.w, by rw [heap_length]; exact Nat.le_add_right _ _,
    state_after F hr R h, builtins_after hr hb⟩

end

end Noja.VM.Move
