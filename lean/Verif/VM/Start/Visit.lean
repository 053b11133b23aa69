import Verif.VM.Start.Iter
import Verif.VM.Start.Boot

/-!
# C70: iterators visit everything once
-/

set_option linter.unusedVariables false
set_option linter.unusedSimpArgs false

namespace Noja.VM.Start

open Noja.Graph (Obj Kind Heap)

/-- The object `o` is a collection with the values `vs`: a list, or a map with hashable keys, no two
of them equal, and without a method `iter`. -/
inductive Items (B : Config) (h : Heap) : Obj → List Ref → Prop
  | list (vs : List Ref) : Items B h (.list vs) vs
  | map (es : List (Nat × Nat)) (hd : ∀ (i j : Nat) (e e' : Nat × Nat), es[i]? = some e → es[j]? = some e' → i ≠ j →
        Graph.compare h e.1 e'.1 = .ok false)
      (hh : ∀ e ∈ es, ∃ z, Graph.hash h B.fuel e.1 = .ok z) (hp : NoIter h es) : Items B h (.map es) (es.map (·.2))

/-- `n` calls of `next` on a new iterator return the values and keys in order, each once, with their
numbers; and none after that. -/
def Visits (B : Config) (P : Place) (s : SSt World) (r : Ref) (o : Obj) (vs : List Ref) (fuel n : Nat) : Prop :=
  ∃ s' rows ks, rounds (objects (std B)) fuel (P.lib N.makeIterator) r n s = .ok s' rows ∧ ks.length = vs.length ∧
    Keys s' o ks ∧ rows.length = n ∧
    ∀ i row, rows[i]? = some row →
      (∃ v key ix, vs[i]? = some v ∧ ks[i]? = some key ∧ s'.w.heap[ix]? = some (.int i) ∧ row = [v, key, ix]) ∨
      (vs.length ≤ i ∧ row = [0, 0, 0])

/-- C70. -/
def C70Statement : Prop :=
  ∀ (B : Config) (P : Place) (s : SSt World) (r : Ref) (o : Obj) (vs : List Ref), Conf B → Globals B P.env s →
    s.w.heap[r]? = some o → Items B s.w.heap o vs → vs.length < 2 ^ 31 → ∃ fuel, ∀ n, Visits B P s r o vs fuel n

theorem lookup_self {hit : Nat → Nat → Bool} {h : Heap} (hh : ∀ k k', hit k k' = true) {key v : Nat} :
    ∀ {es : List (Nat × Nat)} {i : Nat}, es[i]? = some (key, v) → Graph.compare h key key = .ok true →
      (∀ j e, es[j]? = some e → i ≠ j → Graph.compare h key e.1 = .ok false) →
      Graph.lookup hit h key es false = .ok (some v, false)
  | (k, u) :: es, 0, hi, hr, hd => by
    cases hi
    unfold Graph.lookup
    rw [if_pos (hh _ _), hr]
  | (k, u) :: es, i + 1, hi, hr, hd => by
    unfold Graph.lookup
    rw [if_pos (hh _ _), hd 0 (k, u) rfl (by omega)]
    exact lookup_self hh (es := es) (i := i) hi hr fun j e hj hij => hd (j + 1) e hj (by omega)

/-- Proved for lists, and for maps each of whose keys is equal to itself.  Missing: maps with a key
that is not a number (see `C70_violated`); maps that do not find what is in them (`C17_violated`),
which `Conf` excludes. -/
theorem C70_partial {B : Config} {P : Place} {s : SSt World} {r : Ref} {o : Obj} {vs : List Ref} (hB : Conf B)
    (g : Globals B P.env s) (hr : s.w.heap[r]? = some o) (hi : Items B s.w.heap o vs) (hn : vs.length < 2 ^ 31)
    (he : ∀ es, o = .map es → ∀ e ∈ es, Graph.compare s.w.heap e.1 e.1 = .ok true) (m n : Nat) :
    Visits B P s r o vs (m + 3) n := by
  have hc : Coll B s.w.heap r vs := by
    cases hi with
    | list => exact .list hr
    | map es hd hh hp =>
      refine .map es hr rfl hh fun e hm => ?_
      obtain ⟨i, hi⟩ := List.mem_iff_getElem?.1 hm
      exact lookup_self hB.hit hi (he es rfl e hm) fun j e' hj hij => hd i j e e' hi hj hij
  have hp : Plain s.w.heap r := by
    intro es he'
    rw [hr] at he'
    cases he'
    cases hi with
    | map _ hd hh hp => exact hp
  obtain ⟨s', rows, h, ks, h1, h2, h3, h4, -, -⟩ := rounds_spec (m := m) hB g hr hc hp hn n
  refine ⟨s', rows, ks, h, h1, h2, h3, fun i row hi => ?_⟩
  have := h4 i row hi
  rw [Nat.zero_add] at this
  exact this

/-! ## A key that is not a number -/

def nanObj : Obj := .float 0x7FF8000000000000#64

/-- Three more objects: a NaN, an integer, and a map from one to the other. -/
def nanWorld (s : SSt World) : SSt World :=
  ⟨{ s.w with dyn := s.w.dyn ++ [nanObj, .int 5, .map [(s.w.heap.length, s.w.heap.length + 1)]] }, s.funs⟩

theorem nan_heap (s : SSt World) : (nanWorld s).w.heap = s.w.heap ++ [nanObj, .int 5, .map [(s.w.heap.length, s.w.heap.length + 1)]] := by
  show statics ++ (s.w.dyn ++ _) = statics ++ s.w.dyn ++ _
  rw [List.append_assoc]

theorem nan_ext (s : SSt World) : Ext [] s (nanWorld s) where
  len := by rw [nan_heap]; simp
  heap x hx _ := by rw [nan_heap, List.getElem?_append_left hx]
  dmap := nofun
  clos _ _ := rfl
  fclo _ _ := rfl
  nat _ _ := rfl
  tab _ _ := rfl
  funs _ _ := rfl
  out := rfl

/-- What the first call returns. -/
def firstValue (fuel : Nat) : Option Ref :=
  match rounds (objects (std config)) fuel (place.lib N.makeIterator) (state.w.heap.length + 2) 1 (nanWorld state) with
  | .ok _ [v :: _] => some v
  | _ => none

theorem first_none : firstValue 3 = some 0 := by decide +kernel

theorem callN_le (L : Layer World) {m n : Nat} (h : m ≤ n) (f : Ref) (a : List Ref) (k : Nat) : Le (callN L m f a k) (callN L n f a k) := by
  induction h with
  | refl => exact Le.refl _
  | step _ ih => exact ih.trans (callN_mono L _ f a k)

theorem rep_le {α : Type} {x y : M World α} (h : Le x y) : ∀ n, Le (rep n x) (rep n y)
  | 0 => Le.refl _
  | n + 1 => Le.bind h fun a => Le.bind (rep_le h n) fun as => Le.refl _

theorem rounds_le (L : Layer World) {m n : Nat} (h : m ≤ n) (f r : Ref) (k : Nat) : Le (rounds L m f r k) (rounds L n f r k) :=
  Le.bind (callN_le L h _ _ _) fun us => rep_le (Le.bind (Le.refl _) fun y => Le.bind (Le.refl _) fun g => callN_le L h _ _ _) k

theorem first_any {fuel : Nat} {s' : SSt World} {rows : List (List Ref)}
    (h : rounds (objects (std config)) fuel (place.lib N.makeIterator) (state.w.heap.length + 2) 1 (nanWorld state) = .ok s' rows) :
    ∃ row, rows = [0 :: row] := by
  have h3 := first_none
  unfold firstValue at h3
  generalize hx : rounds (objects (std config)) 3 (place.lib N.makeIterator) (state.w.heap.length + 2) 1 (nanWorld state) = x at h3
  have e : rounds (objects (std config)) fuel (place.lib N.makeIterator) (state.w.heap.length + 2) 1 (nanWorld state) = x := by
    rcases Nat.le_total fuel 3 with hle | hle
    · rw [← hx]
      exact (rounds_le _ hle _ _ _ _).resolve_left (by rw [h]; nofun)
    · rw [← hx]
      refine ((rounds_le _ hle _ _ _ _).resolve_left ?_).symm
      rw [hx]
      rintro rfl
      cases h3
  rw [h] at e
  subst e
  split at h3
  · rename_i heq
    cases heq
    cases h3
    exact ⟨_, rfl⟩
  · cases h3

theorem nan_items {B : Config} {s : SSt World} (hf : 0 < B.fuel) :
    Items B (nanWorld s).w.heap (.map [(s.w.heap.length, s.w.heap.length + 1)]) [s.w.heap.length + 1] := by
  have h0 : (nanWorld s).w.heap[s.w.heap.length]? = some nanObj := by
    rw [nan_heap, List.getElem?_append_right (Nat.le_refl _), Nat.sub_self]
    rfl
  refine .map [(s.w.heap.length, s.w.heap.length + 1)] ?_ ?_ ?_
  · intro i j e e' hi hj hij
    have := (List.getElem?_eq_some_iff.1 hi).1
    have := (List.getElem?_eq_some_iff.1 hj).1
    simp at *
    omega
  · intro e he
    rw [List.mem_singleton.1 he]
    obtain ⟨f, hf⟩ : ∃ f, B.fuel = f + 1 := ⟨B.fuel - 1, by omega⟩
    rw [hf, Graph.hash_succ h0]
    have h1 : (match Graph.hashBody (fun _ => .ub) nanObj with | .ok _ => true | _ => false) = true := by decide +kernel
    have h2 : Graph.hashBody (Graph.hash (nanWorld s).w.heap f) nanObj = Graph.hashBody (fun _ => .ub) nanObj := rfl
    rw [h2]
    revert h1
    cases Graph.hashBody (fun _ => .ub) nanObj with
    | ok z => exact fun _ => ⟨z, rfl⟩
    | _ => intro h; cases h
  · intro e he t ht
    rw [List.mem_singleton.1 he, h0] at ht
    cases ht

theorem nan_globals {B : Config} {P : Place} {s : SSt World} (g : Globals B P.env s) : Globals B P.env (nanWorld s) :=
  g.ext (nan_ext s) (by simp) (by simp) g.err

theorem nan_map (s : SSt World) :
    (nanWorld s).w.heap[s.w.heap.length + 2]? = some (.map [(s.w.heap.length, s.w.heap.length + 1)]) := by
  rw [nan_heap, List.getElem?_append_right (by omega), show s.w.heap.length + 2 - s.w.heap.length = 2 by omega]
  rfl

theorem nan_not {B : Config} {P : Place} {s : SSt World} {fuel : Nat}
    (h : ∀ s' rows, rounds (objects (std B)) fuel (P.lib N.makeIterator) (s.w.heap.length + 2) 1 (nanWorld s) = .ok s' rows →
      ∃ row, rows = [0 :: row]) :
    ¬ Visits B P (nanWorld s) (s.w.heap.length + 2) (.map [(s.w.heap.length, s.w.heap.length + 1)])
      [s.w.heap.length + 1] fuel 1 := by
  rintro ⟨s', rows, ks, hrun, -, -, -, hrows⟩
  obtain ⟨row, rfl⟩ := h s' rows hrun
  rcases hrows 0 _ rfl with ⟨v, key, ix, hv, -, -, he⟩ | ⟨hle, -⟩
  · simp only [List.getElem?_cons_zero, Option.some.injEq] at hv
    simp only [List.cons.injEq] at he
    rw [← hv] at he
    exact absurd he.1.symm (Nat.succ_ne_zero _)
  · exact absurd hle (by show ¬ 1 ≤ 0; decide)

/-- Violated: a map with a key that is not a number; `next` returns none instead of the value. -/
theorem C70_violated : ¬ C70Statement := by
  intro h
  obtain ⟨fuel, h⟩ := h config place (nanWorld state) _ _ _ conf (nan_globals globals) (nan_map state) (nan_items (by decide))
    (by show 1 < _; decide)
  exact nan_not (fun s' rows hr => first_any hr) (h 1)

/-! ## Examples -/

/-- Three more objects: an integer, a list of two items, and a map from the integer to itself. -/
def someWorld (s : SSt World) : SSt World :=
  ⟨{ s.w with dyn := s.w.dyn ++ [.int 5, .list [s.w.heap.length, 0], .map [(s.w.heap.length, s.w.heap.length)]] }, s.funs⟩

theorem some_case {B : Config} {P : Place} {s : SSt World} (hB : Conf B) (g : Globals B P.env s) :
    Globals B P.env (someWorld s) ∧
    (someWorld s).w.heap[s.w.heap.length + 1]? = some (.list [s.w.heap.length, 0]) ∧
    (someWorld s).w.heap[s.w.heap.length + 2]? = some (.map [(s.w.heap.length, s.w.heap.length)]) ∧
    Items B (someWorld s).w.heap (.list [s.w.heap.length, 0]) [s.w.heap.length, 0] ∧
    Items B (someWorld s).w.heap (.map [(s.w.heap.length, s.w.heap.length)]) [s.w.heap.length] ∧
    Graph.compare (someWorld s).w.heap s.w.heap.length s.w.heap.length = .ok true := by
  have e : (someWorld s).w.heap = s.w.heap ++ [.int 5, .list [s.w.heap.length, 0], .map [(s.w.heap.length, s.w.heap.length)]] := by
    show statics ++ (s.w.dyn ++ _) = statics ++ s.w.dyn ++ _
    rw [List.append_assoc]
  have h0 : (someWorld s).w.heap[s.w.heap.length]? = some (.int 5) := by
    rw [e, List.getElem?_append_right (Nat.le_refl _), Nat.sub_self]
    rfl
  refine ⟨g.ext (D := []) ?_ (by simp) (by simp) g.err, ?_, ?_, .list _, ?_, ?_⟩
  · exact
      { len := by rw [e]; simp
        heap := fun x hx _ => by rw [e, List.getElem?_append_left hx]
        dmap := nofun
        clos := fun _ _ => rfl
        fclo := fun _ _ => rfl
        nat := fun _ _ => rfl
        tab := fun _ _ => rfl
        funs := fun _ _ => rfl
        out := rfl }
  · rw [e, List.getElem?_append_right (by omega), show s.w.heap.length + 1 - s.w.heap.length = 1 by omega]
    rfl
  · rw [e, List.getElem?_append_right (by omega), show s.w.heap.length + 2 - s.w.heap.length = 2 by omega]
    rfl
  · refine .map [(s.w.heap.length, s.w.heap.length)] ?_ ?_ ?_
    · intro i j e e' hi hj hij
      have := (List.getElem?_eq_some_iff.1 hi).1
      have := (List.getElem?_eq_some_iff.1 hj).1
      simp at *
      omega
    · intro e he
      rw [List.mem_singleton.1 he]
      obtain ⟨f, hf⟩ : ∃ f, B.fuel = f + 1 := ⟨B.fuel - 1, by have := hB.fuel; omega⟩
      rw [hf, Graph.hash_succ h0]
      have h1 : (match IntKey.hash 5 with | .ok _ => true | _ => false) = true := by decide +kernel
      show ∃ z, IntKey.hash 5 = .ok z
      revert h1
      cases IntKey.hash 5 with
      | ok z => exact fun _ => ⟨z, rfl⟩
      | _ => intro h; cases h
    · intro e he t ht
      rw [List.mem_singleton.1 he, h0] at ht
      cases ht
  · unfold Graph.compare
    rw [rd_ok_iff.mpr h0, Exec.bind_ok, Exec.bind_ok]
    rfl

/-- A list and a map meant by `C70_partial`, after the start. -/
example : ∃ (s : SSt World) (r r' : Ref) (o o' : Obj) (vs vs' : List Ref), Conf config ∧ Globals config place.env s ∧
    s.w.heap[r]? = some o ∧ Items config s.w.heap o vs ∧ vs.length = 2 ∧
    s.w.heap[r']? = some o' ∧ Items config s.w.heap o' vs' ∧ o'.kind = .map := by
  obtain ⟨a, b, c, d, e, -⟩ := some_case conf globals
  exact ⟨_, _, _, _, _, _, _, conf, a, b, d, rfl, c, e, rfl⟩

/-- The scopes and maps of the iterators find their names in the real tables. -/
theorem iter_kept : [[N.T], [N.iter, N.index, N.key, N.val], [N.set], [N.can_use_method, N.set]].all (keeps (-1)) = true ∧
    keeps 4 [N.set, N.keys, N.index, N.next] = true := by
  constructor <;> decide +kernel

end Noja.VM.Start
