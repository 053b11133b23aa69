import Verif.Exec

/-!
# `src/lib/timing.c` and property C75

Durations are values of a type `T` with the addition the C code uses on doubles
(left abstract: no law of it is needed).  Memory exhaustion (`abort`) is not
modelled.
-/

namespace Noja.Timing

/-! ## Model -/

/-- `FunctionExecutionSummary` (timing.h); `name` stands for the function's name and source. -/
structure Entry (T : Type) where
  name : Nat
  calls : Nat
  time : T
deriving DecidableEq

/-- timing.c:6-9 `struct TimingTable`: the entries in use and the array size. -/
structure Table (T : Type) where
  entries : List (Entry T)
  size : Nat

variable {T : Type} (zero : T) (add : T → T → T)

/-- timing.c:11-20. -/
def new : Table T := ⟨[], 0⟩

/-- timing.c:38-39, the update of an entry. -/
def bump (time : T) (e : Entry T) : Entry T := { e with calls := e.calls + 1, time := add e.time time }

/-- timing.c:34-41 `TimingTable_sumCallTime`; `err` is `abort()`, `ub` an access outside of the entries. -/
def sumCallTime (t : Table T) (id : Int) (time : T) : Exec (Table T) :=
  if id < 0 ∨ id ≥ t.entries.length then .err
  else if 0 ≤ id ∧ id < t.entries.length then .ok { t with entries := t.entries.modify id.toNat (bump add time) }
  else .ub

/-- timing.c:43-68 `TimingTable_newEntry`; writing past the array is `ub`. -/
def newEntry (t : Table T) (name : Nat) : Exec (Table T × Int) :=
  let t := if t.size = t.entries.length then
      let n := 2 * t.size
      { t with size := if n = 0 then 8 else n }
    else t
  if t.entries.length < t.size then
    .ok ({ t with entries := t.entries ++ [⟨name, 0, zero⟩] }, t.entries.length)
  else .ub

/-! ## Specification -/

/-- An event: a function object is created, or a call of function number `f` (in creation
order) completes having taken `time`. -/
inductive Event (T : Type)
  | create (name : Nat)
  | call (f : Nat) (time : T)

/-- The durations of the calls of function `f`, in order. -/
def Spec.durations : List (Event T) → Nat → List T
  | [], _ => []
  | .create _ :: es, f => Spec.durations es f
  | .call g t :: es, f => if g = f then t :: Spec.durations es f else Spec.durations es f

/-- The names of the created functions, in order. -/
def Spec.names : List (Event T) → List Nat
  | [] => []
  | .create n :: es => n :: Spec.names es
  | .call _ _ :: es => Spec.names es

/-- Calls only name functions created before. -/
def Spec.WellFormed : (created : Nat) → List (Event T) → Prop
  | _, [] => True
  | k, .create _ :: es => Spec.WellFormed (k + 1) es
  | k, .call f _ :: es => f < k ∧ Spec.WellFormed k es

/-- run.c:92-111,188-194: how the runtime drives the table (a function object keeps the id its
entry got). -/
def run : Table T → (ids : List Int) → List (Event T) → Exec (Table T)
  | t, _, [] => .ok t
  | t, ids, .create n :: es => do
    let (t, id) ← newEntry zero t n
    run t (ids ++ [id]) es
  | t, ids, .call f time :: es =>
    match ids[f]? with
    | none => .ub
    | some id => do
      let t ← sumCallTime add t id time
      run t ids es

/-! ## Proof -/

theorem run_spec (es : List (Event T)) : ∀ (t : Table T) (ids : List Int),
    ids = (List.range t.entries.length).map Int.ofNat → t.entries.length ≤ t.size →
    Spec.WellFormed t.entries.length es →
    ∃ t', run zero add t ids es = .ok t' ∧
      t'.entries.length = t.entries.length + (Spec.names es).length ∧
      (∀ f (h : f < t.entries.length), t'.entries[f]? = some
        { name := t.entries[f].name
          calls := t.entries[f].calls + (Spec.durations es f).length
          time := (Spec.durations es f).foldl add t.entries[f].time }) ∧
      (∀ k n, (Spec.names es)[k]? = some n → t'.entries[t.entries.length + k]? = some
        { name := n, calls := (Spec.durations es (t.entries.length + k)).length
          time := (Spec.durations es (t.entries.length + k)).foldl add zero }) := by
  induction es with
  | nil =>
    intro t ids _ _ _
    refine ⟨t, rfl, by simp [Spec.names], ?_, by simp [Spec.names]⟩
    intro f h; simp [Spec.durations, h]
  | cons e es ih =>
    intro t ids hi hs hw
    cases e with
    | create n =>
      simp only [run]
      obtain ⟨t1, e1, h1, h1'⟩ : ∃ t1, newEntry zero t n = .ok (t1, t.entries.length) ∧
          t1.entries = t.entries ++ [⟨n, 0, zero⟩] ∧ t1.entries.length ≤ t1.size := by
        unfold newEntry
        by_cases hc : t.size = t.entries.length
        · simp only [if_pos hc]
          rw [if_pos (by split <;> omega)]
          refine ⟨_, rfl, rfl, ?_⟩
          simp only [List.length_append, List.length_cons, List.length_nil]
          split <;> omega
        · simp only [if_neg hc]
          rw [if_pos (by omega)]
          refine ⟨_, rfl, rfl, ?_⟩
          simp only [List.length_append, List.length_cons, List.length_nil]; omega
      rw [e1, Exec.bind_ok]
      have hl : t1.entries.length = t.entries.length + 1 := by rw [h1]; simp
      obtain ⟨t2, e2, l2, o2, n2⟩ := ih t1 (ids ++ [(t.entries.length : Int)])
        (by rw [hl, List.range_succ, hi]; simp) h1' (by rw [hl]; exact hw)
      refine ⟨t2, e2, by rw [l2, hl]; simp [Spec.names]; omega, ?_, ?_⟩
      · intro f h
        have := o2 f (by omega)
        simp only [h1, List.getElem_append_left h] at this
        exact this
      · intro k m hk
        cases k with
        | zero =>
          simp only [Spec.names, List.getElem?_cons_zero, Option.some.injEq] at hk
          subst hk
          have := o2 t.entries.length (by omega)
          simp only [h1, List.getElem_concat_length] at this
          simpa [Spec.durations] using this
        | succ k =>
          simp only [Spec.names, List.getElem?_cons_succ] at hk
          have := n2 k m hk
          rw [hl] at this
          rw [show t.entries.length + (k + 1) = t.entries.length + 1 + k by omega]
          exact this
    | call g time =>
      obtain ⟨hg, hw⟩ := hw
      have hid : ids[g]? = some (g : Int) := by rw [hi]; simp [hg]
      have e1 : sumCallTime add t g time = .ok
          { t with entries := t.entries.modify g (bump add time) } := by
        unfold sumCallTime
        rw [if_neg (by omega), if_pos (by omega)]
        simp
      simp only [run, hid, e1, Exec.bind_ok]
      obtain ⟨t2, e2, l2, o2, n2⟩ := ih { t with entries := t.entries.modify g (bump add time) } ids
        (by simpa using hi) (by simpa using hs) (by simpa using hw)
      simp only [List.length_modify] at l2 o2 n2
      refine ⟨t2, e2, by rw [l2]; simp [Spec.names], ?_, ?_⟩
      · intro f h
        rw [o2 f h]
        simp only [List.getElem_modify, Spec.durations, bump]
        by_cases hf : g = f
        · subst hf; simp; omega
        · simp [hf]
      · intro k m hk
        simp only [Spec.names] at hk
        rw [n2 k m hk]
        simp only [Spec.durations]
        rw [if_neg (by omega)]

/-- **C75**: after any run in which only created functions are called, the profile has one entry
per created function, in order, with the number of its completed calls and the sum of their
durations (added up in call order). -/
theorem C75_totals (es : List (Event T)) (h : Spec.WellFormed 0 es) :
    ∃ t, run zero add new [] es = .ok t ∧ t.entries.length = (Spec.names es).length ∧
      ∀ (k : Nat) (n : Nat), (Spec.names es)[k]? = some n → t.entries[k]? = some
        { name := n, calls := (Spec.durations es k).length
          time := (Spec.durations es k).foldl add zero } := by
  obtain ⟨t, h1, h2, -, h4⟩ := run_spec zero add es new [] rfl (by simp [new]) (by simpa [new] using h)
  refine ⟨t, h1, by simpa [new] using h2, ?_⟩
  intro k n hk
  have := h4 k n hk
  simpa [new] using this

/-! ## The text of the profile -/

/-- runtime.c:820-827, one line: `%20s - %s - %ld calls - %.2lfus`. `name` and `src` are the names of the
function and of its source, `time` what `printf` writes for the microseconds. -/
def line (name src : Nat → List UInt8) (count : Nat → List UInt8) (time : T → List UInt8) (e : Entry T) : List UInt8 :=
  List.replicate (20 - (name e.name).length) 32 ++ name e.name ++ [32, 45, 32] ++ src e.name ++ [32, 45, 32] ++
    count e.calls ++ [32, 99, 97, 108, 108, 115, 32, 45, 32] ++ time e.time ++ [117, 115, 10]

/-- runtime.c:811-829 `Runtime_SerializeProfilingResultsToStream`, for a runtime that profiles. -/
def serialize (name src count : Nat → List UInt8) (time : T → List UInt8) : List (Entry T) → List UInt8
  | [] => []
  | e :: es => (if e.calls > 0 then line name src count time e else []) ++ serialize name src count time es

/-- The functions that were called, from number `k` on: name, number of calls and time of each. -/
def Spec.called (es : List (Event T)) : Nat → List Nat → List (Nat × Nat × T)
  | _, [] => []
  | k, n :: ns =>
    match Spec.durations es k with
    | [] => Spec.called es (k + 1) ns
    | ts => (n, ts.length, ts.foldl add zero) :: Spec.called es (k + 1) ns

/-- What is written about a function. -/
def Spec.report (name src count : Nat → List UInt8) (time : T → List UInt8) (r : Nat × Nat × T) : List UInt8 :=
  List.replicate (20 - (name r.1).length) 32 ++ name r.1 ++ " - ".toUTF8.toList ++ src r.1 ++ " - ".toUTF8.toList ++ count r.2.1 ++
    " calls - ".toUTF8.toList ++ time r.2.2 ++ "us\n".toUTF8.toList

/-- **C75**: the text has a line for every function that was called, in the order in which the functions
were made, and for no others. -/
theorem C75_written (name src count : Nat → List UInt8) (time : T → List UInt8) (es : List (Event T)) (h : Spec.WellFormed 0 es) :
    ∃ t, run zero add new [] es = .ok t ∧ serialize name src count time t.entries =
      ((Spec.called zero add es 0 (Spec.names es)).map (Spec.report name src count time)).flatten := by
  obtain ⟨t, h1, h2, h3⟩ := C75_totals zero add es h
  refine ⟨t, h1, ?_⟩
  have c1 : " - ".toUTF8.toList = [32, 45, 32] := by decide +kernel
  have c2 : " calls - ".toUTF8.toList = [32, 99, 97, 108, 108, 115, 32, 45, 32] := by decide +kernel
  have c3 : "us\n".toUTF8.toList = [117, 115, 10] := by decide +kernel
  have key : ∀ (ns : List Nat) (en : List (Entry T)) (k : Nat), en.length = ns.length →
      (∀ (i n : Nat), ns[i]? = some n → en[i]? = some
        { name := n, calls := (Spec.durations es (k + i)).length, time := (Spec.durations es (k + i)).foldl add zero }) →
      serialize name src count time en = ((Spec.called zero add es k ns).map (Spec.report name src count time)).flatten := by
    intro ns
    induction ns with
    | nil =>
      intro en k hl _
      rw [List.eq_nil_of_length_eq_zero hl]
      rfl
    | cons n ns ih =>
      intro en k hl hn
      match en, hl with
      | e :: en, hl =>
        have he := hn 0 n rfl
        injection he with he
        have ih := ih en (k + 1) (by simpa using hl) fun i m hi => by
          have := hn (i + 1) m (by simpa using hi)
          rw [show k + (i + 1) = k + 1 + i by omega] at this
          simpa using this
        rw [Nat.add_zero] at he
        unfold serialize Spec.called
        rw [ih, he]
        cases hd : Spec.durations es k with
        | nil => rfl
        | cons a l =>
          rw [if_pos (show (a :: l).length > 0 from Nat.succ_pos _)]
          dsimp only
          rw [List.map_cons, List.flatten_cons]
          unfold Spec.report line
          rw [c1, c2, c3]
  exact key _ _ 0 h2 fun i n hi => by rw [Nat.zero_add]; exact h3 i n hi

/-- Two functions of which one is called: one line. -/
example : (run 0 (· + ·) new [] [.create 1, .call 0 5, .create 2, .call 0 3]).bind (fun t => .ok (serialize
      (fun _ => [102]) (fun _ => [115]) (fun n => [48 + n.toUInt8]) (fun n => [48 + n.toUInt8]) t.entries)) =
    .ok "                   f - s - 2 calls - 8us\n".toUTF8.toList := by decide +kernel

/-- Times of functions that are not in the table are counted nowhere: the program ends. -/
theorem C75_others (t : Table T) (id : Int) (time : T) (h : ∀ k : Nat, k < t.entries.length → id ≠ k) :
    sumCallTime add t id time = .err := by
  unfold sumCallTime
  by_cases h0 : id < 0
  · rw [if_pos (.inl h0)]
  · have := h id.toNat
    rw [if_pos (.inr (by omega))]

example : sumCallTime (· + ·) (⟨[⟨1, 2, 8⟩], 8⟩ : Table Nat) 1 5 = .err ∧ sumCallTime (· + ·) (⟨[⟨1, 2, 8⟩], 8⟩ : Table Nat) (-1) 5 = .err :=
  ⟨rfl, rfl⟩

example : Spec.WellFormed 0 [Event.create 1, .call 0 5, .create 2, .call 1 7, .call 0 3] ∧
    (run 0 (· + ·) new [] [.create 1, .call 0 5, .create 2, .call 1 7, .call 0 3]).bind
      (fun t => .ok t.entries) = .ok [⟨1, 2, 8⟩, ⟨2, 1, 7⟩] := by
  refine ⟨by simp [Spec.WellFormed], by decide⟩

end Noja.Timing
