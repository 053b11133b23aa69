/-!
# `src/lib/utils/promise.c` and property C08
-/

namespace Noja.Promise

/-! ## Model

Memory is a map from locations to values of the promised type `V`; a callback
run is recorded by its user pointer.  All copies have the promise's size, as the
callers guarantee. -/

/-- promise.c:38-43 `struct Gap`: destination and user pointer (`none` without callback). -/
structure Gap where
  dest : Nat
  userp : Option Nat

/-- promise.c:45-51 `struct xPromise`, together with memory and the log of callback runs. -/
structure State (V : Type) where
  set : Bool
  body : Option V
  gaps : List Gap
  mem : Nat → Option V
  calls : List Nat

variable {V : Type}

/-- promise.c:52-67 `Promise_New` (in memory `mem`). -/
def new (mem : Nat → Option V) : State V :=
  { set := false, body := none, gaps := [], mem := mem, calls := [] }

/-- `memcpy(dest, v)` and, if there is one, the callback. -/
def deliver (s : State V) (v : Option V) (g : Gap) : State V :=
  { s with mem := fun i => if i = g.dest then v else s.mem i,
           calls := s.calls ++ g.userp.toList }

/-- promise.c:85-106 `Promise_Resolve`. -/
def resolve (s : State V) (v : V) : State V :=
  let s := { s with body := some v, set := true }
  let s := s.gaps.foldl (fun s g => deliver s (some v) g) s
  { s with gaps := [] }

/-- promise.c:115-142 `Promise_Subscribe2`; `alloc` says whether the arena has room for the
`Gap`.  Returns the C result. -/
def subscribe (s : State V) (dest : Nat) (userp : Option Nat) (alloc : Bool) : State V × Bool :=
  if s.set = false then
    if alloc then ({ s with gaps := ⟨dest, userp⟩ :: s.gaps }, true) else (s, false)
  else (deliver s s.body ⟨dest, userp⟩, true)

/-! ## Specification -/

/-- A subscription request: where, with what callback, and whether memory is available. -/
structure Sub where
  dest : Nat
  userp : Option Nat
  alloc : Bool

/-- Performs subscriptions in order; returns the state and the requests that were accepted. -/
def subscribeAll : State V → List Sub → State V × List Sub
  | s, [] => (s, [])
  | s, r :: rs =>
    let (s1, ok) := subscribe s r.dest r.userp r.alloc
    let (s2, acc) := subscribeAll s1 rs
    (s2, if ok then r :: acc else acc)

/-! ## Proof -/

theorem subscribeAll_unset (rs : List Sub) : ∀ (s : State V), s.set = false →
    (subscribeAll s rs).1.mem = s.mem ∧ (subscribeAll s rs).1.calls = s.calls ∧
    (subscribeAll s rs).1.set = false ∧
    (subscribeAll s rs).1.gaps =
      ((subscribeAll s rs).2.map fun r => ⟨r.dest, r.userp⟩).reverse ++ s.gaps := by
  induction rs with
  | nil => intro s h; simp [subscribeAll, h]
  | cons r rs ih =>
    intro s h
    simp only [subscribeAll, subscribe, h]
    cases ha : r.alloc with
    | true =>
      have := ih { s with gaps := ⟨r.dest, r.userp⟩ :: s.gaps } h
      simpa [h] using this
    | false =>
      have := ih s h
      simpa using this

theorem foldl_deliver (v : V) (gs : List Gap) : ∀ (s : State V),
    let t := gs.foldl (fun s g => deliver s (some v) g) s
    (∀ i, t.mem i = if i ∈ gs.map Gap.dest then some v else s.mem i) ∧
    t.calls = s.calls ++ gs.flatMap (fun g => g.userp.toList) ∧
    t.set = s.set ∧ t.body = s.body := by
  induction gs with
  | nil => intro s; simp
  | cons g gs ih =>
    intro s
    obtain ⟨h1, h2, h3, h4⟩ := ih (deliver s (some v) g)
    simp only [List.foldl_cons]
    refine ⟨?_, ?_, by rw [h3]; rfl, by rw [h4]; rfl⟩
    · intro i
      rw [h1 i]
      by_cases e : i ∈ gs.map Gap.dest
      · simp [e]
      · simp only [if_neg e, List.map_cons, List.mem_cons, deliver]
        by_cases f : i = g.dest
        · simp [f]
        · simp [f, e]
    · rw [h2]; simp [deliver]

theorem subscribeAll_set (v : V) (rs : List Sub) : ∀ (s : State V), s.set = true → s.body = some v →
    (subscribeAll s rs).2 = rs ∧
    (∀ i, (subscribeAll s rs).1.mem i =
      if i ∈ rs.map Sub.dest then some v else s.mem i) ∧
    (subscribeAll s rs).1.calls = s.calls ++ rs.flatMap (fun r => r.userp.toList) := by
  induction rs with
  | nil => intro s h; simp [subscribeAll]
  | cons r rs ih =>
    intro s h hb
    obtain ⟨h1, h2, h3⟩ := ih (deliver s s.body ⟨r.dest, r.userp⟩) h hb
    simp only [subscribeAll, subscribe, h]
    refine ⟨by simp [h1], ?_, ?_⟩
    · intro i
      simp only [Bool.true_eq_false, if_false]
      rw [h2 i]
      by_cases e : i ∈ rs.map Sub.dest
      · simp [e]
      · simp only [if_neg e, List.map_cons, List.mem_cons, deliver, hb]
        by_cases f : i = r.dest
        · simp [f]
        · simp [f, e]
    · simp only [Bool.true_eq_false, if_false]
      rw [h3]; simp [deliver]

/-- Location `i` is a destination of one of the subscriptions. -/
def Subscribed (rs : List Sub) (i : Nat) : Prop := ∃ r ∈ rs, r.dest = i

/-- How many of the subscriptions carry callback `u`. -/
def callbacks (rs : List Sub) (u : Nat) : Nat := rs.countP (fun r => r.userp == some u)

theorem count_userps (rs : List Sub) (u : Nat) :
    (rs.flatMap fun r => r.userp.toList).count u = callbacks rs u := by
  induction rs with
  | nil => rfl
  | cons r rs ih =>
    simp only [callbacks] at *
    simp only [List.flatMap_cons, List.count_append, ih, List.countP_cons]
    cases r.userp with
    | none => simp
    | some x =>
      by_cases e : x = u
      · simp [e]; omega
      · simp [e]

/-- **C08**: subscribe any number of locations (`before`), resolve the promise with `v`, then
subscribe more (`after`).  Nothing is written and no callback runs before the resolution; at
the end every accepted subscription's location holds `v`, all other locations are untouched,
and each callback has run exactly once per accepted subscription carrying it.  Subscriptions
after the resolution are always accepted. -/
theorem C08_delivery (mem : Nat → Option V) (before after : List Sub) (v : V) :
    let s1 := (subscribeAll (new mem) before).1
    let acc := (subscribeAll (new mem) before).2
    let s2 := resolve s1 v
    let s3 := (subscribeAll s2 after).1
    s1.mem = mem ∧ s1.calls = [] ∧
    (subscribeAll s2 after).2 = after ∧
    (∀ i, Subscribed (acc ++ after) i → s3.mem i = some v) ∧
    (∀ i, ¬ Subscribed (acc ++ after) i → s3.mem i = mem i) ∧
    (∀ u, s3.calls.count u = callbacks (acc ++ after) u) := by
  intro s1 acc s2 s3
  obtain ⟨h1, h2, h3, h4⟩ := subscribeAll_unset before (new mem) rfl
  have hg : s1.gaps = (acc.map fun r => (⟨r.dest, r.userp⟩ : Gap)).reverse := by
    show (subscribeAll (new mem) before).1.gaps = _
    rw [h4]; simp [new, acc]
  obtain ⟨f1, f2, f3, f4⟩ := foldl_deliver v s1.gaps { s1 with body := some v, set := true }
  have s2set : s2.set = true := f3
  have s2body : s2.body = some v := f4
  have hm : ∀ i, s2.mem i = if i ∈ s1.gaps.map Gap.dest then some v else mem i := by
    intro i; rw [show mem i = s1.mem i by rw [show s1.mem = mem from h1]]; exact f1 i
  have hc : s2.calls = s1.gaps.flatMap (fun g => g.userp.toList) := by
    have : s1.calls = [] := h2
    have e : s2.calls = s1.calls ++ s1.gaps.flatMap (fun g => g.userp.toList) := f2
    rw [e, this]; simp
  obtain ⟨g1, g2, g3⟩ := subscribeAll_set v after s2 s2set s2body
  have memiff : ∀ i, i ∈ s1.gaps.map Gap.dest ↔ Subscribed acc i := by
    intro i; rw [hg]; simp [Subscribed]
  refine ⟨h1, h2, g1, ?_, ?_, ?_⟩
  · rintro i ⟨r, hr, rfl⟩
    rw [g2]
    rcases List.mem_append.mp hr with hr | hr
    · by_cases e : r.dest ∈ after.map Sub.dest
      · simp [e]
      · rw [if_neg e, hm, if_pos ((memiff _).mpr ⟨r, hr, rfl⟩)]
    · rw [if_pos (List.mem_map.mpr ⟨r, hr, rfl⟩)]
  · intro i hi
    rw [g2, if_neg, hm, if_neg]
    · rw [memiff]; rintro ⟨r, hr, e⟩; exact hi ⟨r, by simp [hr], e⟩
    · intro h; obtain ⟨r, hr, e⟩ := List.mem_map.mp h
      exact hi ⟨r, by simp [hr], e⟩
  · intro u
    rw [g3, hc, hg, List.count_append, count_userps]
    have : (List.flatMap (fun g : Gap => g.userp.toList)
        (acc.map fun r => (⟨r.dest, r.userp⟩ : Gap)).reverse).count u = callbacks acc u := by
      rw [← count_userps, List.flatMap_reverse, List.count_reverse]
      simp [List.flatMap_map, List.count_flatMap, Function.comp_def]
    rw [this]
    simp [callbacks]

/-- Delivery happens once: resolving a promise a second time (the assertion against it is not
compiled in; a label defined twice does it) writes nowhere and runs no callback. -/
theorem C08_once (s : State V) (v w : V) (after : List Sub) :
    let s2 := (subscribeAll (resolve s v) after).1
    (resolve s2 w).mem = s2.mem ∧ (resolve s2 w).calls = s2.calls := by
  intro s2
  have set_of : ∀ (gs : List Gap) (t : State V),
      (gs.foldl (fun s g => deliver s (some v) g) t).set = t.set := by
    intro gs
    induction gs with
    | nil => intro t; rfl
    | cons g gs ih => intro t; rw [List.foldl_cons, ih]; rfl
  have key : ∀ (after : List Sub) (t : State V), t.set = true → t.gaps = [] →
      (subscribeAll t after).1.gaps = [] := by
    intro after
    induction after with
    | nil => intro t _ h; exact h
    | cons r rs ih =>
      intro t h1 h2
      simp only [subscribeAll, subscribe, h1]
      exact ih _ h1 h2
  have : s2.gaps = [] := key after (resolve s v) (by simp only [resolve]; rw [set_of]) rfl
  simp [resolve, this]

example : let s1 := (subscribeAll (new fun _ => none) [⟨1, some 7, true⟩, ⟨2, none, false⟩]).1
    let s3 := (subscribeAll (resolve s1 'x') [⟨3, some 7, false⟩]).1
    s1.mem 1 = none ∧ s3.mem 1 = some 'x' ∧ s3.mem 2 = none ∧ s3.mem 3 = some 'x' ∧
      s3.calls = [7, 7] := by decide

end Noja.Promise
