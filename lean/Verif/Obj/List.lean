import Verif.Exec
import Verif.CInt

/-!
# `src/lib/objects/o_list.c` (select, insert, count, grow) and properties C13, C14 (lists)

Elements are values of any type `V`.  Heap exhaustion is not modelled.  Lists of
2^31 or more elements are not modelled (`capacity`, `count` are `Nat`).
-/

namespace Noja.LObj

/-! ## Model -/

/-- o_list.c:36-40 `ListObject`; `vals` is the allocated array (`none`: never written). -/
structure LObj (V : Type) where
  capacity : Nat
  count : Nat
  vals : List (Option V)

variable {V : Type}

/-- o_list.c:149-172 `Object_NewList`. -/
def new (capacity : Int) : LObj V :=
  let c := if capacity < 8 then 8 else capacity.toNat
  { capacity := c, count := 0, vals := List.replicate c none }

/-- o_list.c:223-229, the rest of `select_` once the index is an `int`.  Reading a slot outside
the array or never written is `ub`. -/
def selectAt (l : LObj V) (idx : Int) : Exec V :=
  if idx < 0 ∨ idx ≥ l.count then .err
  else do
    let v ← rd l.vals idx.toNat
    match v with
    | some v => .ok v
    | none => .ub

/-- o_list.c:204-230 `select_`; a key that is not an integer is `none`. -/
def select (l : LObj V) : (key : Option Int) → Exec V
  | none => .err
  | some key => selectAt l (toI32 key)

/-- Checked store into an array. -/
def wr {α} (a : List α) (i : Nat) (v : α) : Exec (List α) :=
  if i < a.length then .ok (a.set i v) else .ub

/-- o_list.c:243-246, copying the elements to the new array. -/
def copyVals (old : List (Option V)) : (n i : Nat) → List (Option V) → Exec (List (Option V))
  | 0, _, new => .ok new
  | n + 1, i, new => do
    let v ← rd old i
    let new ← wr new i v
    copyVals old n (i + 1) new

/-- o_list.c:237-254 `grow`. -/
def grow (l : LObj V) : Exec (LObj V) := do
  let cap := l.capacity * 2
  let vals ← copyVals l.vals l.count 0 (List.replicate cap none)
  .ok { l with vals := vals, capacity := cap }

/-- o_list.c:271-295, the rest of `insert` once the index is an `int`. -/
def insertAt (l : LObj V) (idx : Int) (val : V) : Exec (LObj V) :=
  if idx < 0 ∨ idx > l.count then .err
  else if idx = l.count then do
    let l ← (if l.count = l.capacity then grow l else .ok l)
    let vals ← wr l.vals l.count (some val)
    .ok { l with vals := vals, count := l.count + 1 }
  else do
    let vals ← wr l.vals idx.toNat (some val)
    .ok { l with vals := vals }

/-- o_list.c:256-296 `insert`. -/
def insert (l : LObj V) (key : Option Int) (val : V) : Exec (LObj V) :=
  match key with
  | none => .err
  | some key => insertAt l (toI32 key) val

/-! ## Specification: sequences -/

/-- What a program does with a list.  A key is `some i` for an integer and `none` for any other
value. -/
inductive Op (V : Type)
  | insert (key : Option Int) (val : V)
  | select (key : Option Int)
  | count

/-- The integer key of an operation, if it has one. -/
def Op.key : Op V → Option Int
  | .insert k _ => k
  | .select k => k
  | .count => none

/-- What the program sees. -/
inductive Res (V : Type)
  | done
  | error
  | value (v : V)
  | number (n : Nat)

namespace Spec

/-- One operation on a sequence. -/
def step (s : List V) : Op V → List V × Res V
  | .insert none _ => (s, .error)
  | .insert (some i) v =>
    if 0 ≤ i ∧ i < s.length then (s.set i.toNat v, .done)
    else if i = s.length then (s ++ [v], .done)
    else (s, .error)
  | .select none => (s, .error)
  | .select (some i) =>
    if h : 0 ≤ i ∧ i < s.length then (s, .value (s[i.toNat]'(by omega))) else (s, .error)
  | .count => (s, .number s.length)

/-- What a history of operations shows. -/
def run : List V → List (Op V) → List (Res V)
  | _, [] => []
  | s, o :: os => (step s o).2 :: run (step s o).1 os

end Spec

/-- One operation on a list object; on an error the object keeps the state the C code left it
in (which is the state before: the code reports errors before any store). -/
def step (l : LObj V) : Op V → Exec (LObj V × Res V)
  | .insert k v =>
    match insert l k v with
    | .ok l' => .ok (l', .done)
    | .err => .ok (l, .error)
    | .ub => .ub
    | .diverge => .diverge
  | .select k =>
    match select l k with
    | .ok v => .ok (l, .value v)
    | .err => .ok (l, .error)
    | .ub => .ub
    | .diverge => .diverge
  | .count => .ok (l, .number l.count)

/-- What a history of operations on a list object shows. -/
def run : LObj V → List (Op V) → Exec (List (Res V))
  | _, [] => .ok []
  | l, o :: os => do
    let (l, r) ← step l o
    let rs ← run l os
    .ok (r :: rs)

/-! ## Proof -/

/-- The object holds the sequence `s`. -/
structure Holds (l : LObj V) (s : List V) : Prop where
  count : l.count = s.length
  cap : l.count ≤ l.capacity
  len : l.vals.length = l.capacity
  pos : 0 < l.capacity
  vals : ∀ (i : Nat) (h : i < s.length), l.vals[i]? = some (some s[i])

theorem copyVals_spec (old : List (Option V)) : ∀ (n i : Nat) (new : List (Option V)),
    i + n ≤ old.length → i + n ≤ new.length →
    ∃ r, copyVals old n i new = .ok r ∧ r.length = new.length ∧
      ∀ j, j < i + n → r[j]? = if i ≤ j then old[j]? else new[j]? := by
  intro n
  induction n with
  | zero =>
    intro i new _ _
    refine ⟨new, rfl, rfl, ?_⟩
    intro j hj
    rw [if_neg (by omega)]
  | succ n ih =>
    intro i new h1 h2
    unfold copyVals
    rw [rd_of_lt (by omega), Exec.bind_ok]
    unfold wr
    rw [if_pos (by omega), Exec.bind_ok]
    obtain ⟨r, e, hl, hr⟩ := ih (i + 1) (new.set i old[i]) (by omega) (by simp; omega)
    refine ⟨r, e, by simpa using hl, ?_⟩
    intro j hj
    rw [hr j (by omega)]
    by_cases hij : i = j
    · subst hij
      rw [if_neg (by omega), if_pos (by omega)]
      simp [show i < new.length by omega, show i < old.length by omega]
    · by_cases h3 : i + 1 ≤ j
      · rw [if_pos h3, if_pos (by omega)]
      · rw [if_neg h3, if_neg (by omega)]
        simp [hij]

theorem grow_spec (l : LObj V) (s : List V) (h : Holds l s) :
    ∃ l', grow l = .ok l' ∧ Holds l' s ∧ l'.count < l'.capacity := by
  obtain ⟨h1, h2, h3, h4, h5⟩ := h
  unfold grow
  obtain ⟨r, e, hl, hr⟩ := copyVals_spec l.vals l.count 0 (List.replicate (l.capacity * 2) none)
    (by omega) (by simp; omega)
  simp only [e, Exec.bind_ok]
  refine ⟨_, rfl, ⟨h1, by show l.count ≤ l.capacity * 2; omega, by
    show r.length = l.capacity * 2; rw [hl]; simp, by show 0 < l.capacity * 2; omega, ?_⟩, by
    show l.count < l.capacity * 2; omega⟩
  intro i hi
  show r[i]? = _
  rw [hr i (by omega), if_pos (by omega)]
  exact h5 i hi

theorem insert_store (l : LObj V) (s : List V) (h : Holds l s) (i : Nat) (hi : i < s.length) (v : V) :
    Holds { l with vals := l.vals.set i (some v) } (s.set i v) := by
  obtain ⟨h1, h2, h3, h4, h5⟩ := h
  refine ⟨by simpa using h1, h2, by simpa using h3, h4, ?_⟩
  intro j hj
  simp only [List.length_set] at hj
  by_cases e : i = j
  · subst e
    simp [show i < l.vals.length by omega]
  · simp [e, h5 j hj]

theorem insert_append (l : LObj V) (s : List V) (h : Holds l s) (hc : l.count < l.capacity) (v : V) :
    Holds { l with vals := l.vals.set l.count (some v), count := l.count + 1 } (s ++ [v]) := by
  obtain ⟨h1, h2, h3, h4, h5⟩ := h
  refine ⟨by simp [h1], by show l.count + 1 ≤ l.capacity; omega, by simpa using h3, h4, ?_⟩
  intro j hj
  simp only [List.length_append, List.length_cons, List.length_nil] at hj
  by_cases e : j = s.length
  · subst e
    simp [h1, show s.length < l.vals.length by omega]
  · have : l.count ≠ j := by omega
    simp [this, h5 j (by omega), List.getElem_append_left (show j < s.length by omega)]

theorem select_eq (l : LObj V) {key : Int} (h : IsI32 key) :
    select l (some key) = selectAt l key := by
  simp only [select, toI32_of_isI32 h]

theorem insert_eq (l : LObj V) {key : Int} (h : IsI32 key) (val : V) :
    insert l (some key) val = insertAt l key val := by
  simp only [insert, toI32_of_isI32 h]

theorem step_spec (l : LObj V) (s : List V) (h : Holds l s) (o : Op V)
    (hk : ∀ k, o.key = some k → IsI32 k) :
    ∃ l', step l o = .ok (l', (Spec.step s o).2) ∧ Holds l' (Spec.step s o).1 ∧
      (Spec.step s o).1.length ≤ s.length + 1 := by
  have hc := h.count
  cases o with
  | count => exact ⟨l, by simp [step, Spec.step, hc], h, by simp [Spec.step]⟩
  | select key =>
    cases key with
    | none => exact ⟨l, rfl, h, by simp [Spec.step]⟩
    | some k =>
      have hk' := hk k rfl
      simp only [step, select_eq l hk', selectAt, Spec.step]
      by_cases hi : 0 ≤ k ∧ k < s.length
      · rw [if_neg (by omega), dif_pos hi]
        have hv := h.vals k.toNat (by omega)
        have hr : rd l.vals k.toNat = .ok (some s[k.toNat]) := by rw [rd_ok_iff]; exact hv
        simp only [hr, Exec.bind_ok]
        exact ⟨l, rfl, h, by simp⟩
      · rw [if_pos (by omega), dif_neg hi]
        exact ⟨l, rfl, h, by simp⟩
  | insert key v =>
    cases key with
    | none => exact ⟨l, rfl, h, by simp [Spec.step]⟩
    | some k =>
      have hk' := hk k rfl
      simp only [step, insert_eq l hk', insertAt, Spec.step]
      by_cases hi : 0 ≤ k ∧ k < s.length
      · rw [if_neg (by omega), if_neg (by omega), if_pos hi]
        simp only [wr]
        rw [if_pos (by rw [h.len]; have := h.cap; omega)]
        simp only [Exec.bind_ok]
        exact ⟨_, rfl, insert_store l s h k.toNat (by omega) v, by simp⟩
      · by_cases he : k = s.length
        · rw [if_neg (by omega), if_pos (by omega), if_neg hi, if_pos he]
          obtain ⟨l1, e1, h1, c1⟩ : ∃ l1, (if l.count = l.capacity then grow l else .ok l) = .ok l1 ∧
              Holds l1 s ∧ l1.count < l1.capacity := by
            by_cases hf : l.count = l.capacity
            · rw [if_pos hf]; exact grow_spec l s h
            · rw [if_neg hf]; exact ⟨l, rfl, h, by have := h.cap; omega⟩
          simp only [e1, Exec.bind_ok, wr]
          rw [if_pos (by rw [h1.len]; omega)]
          simp only [Exec.bind_ok]
          exact ⟨_, rfl, insert_append l1 s h1 c1 v, by simp⟩
        · rw [if_pos (by omega), if_neg hi, if_neg he]
          exact ⟨l, rfl, h, by simp⟩

theorem run_spec (ops : List (Op V)) : ∀ (l : LObj V) (s : List V), Holds l s →
    (∀ o ∈ ops, ∀ k, o.key = some k → IsI32 k) →
    run l ops = .ok (Spec.run s ops) := by
  induction ops with
  | nil => intros; rfl
  | cons o os ih =>
    intro l s h hk
    obtain ⟨l1, e, h1, hl⟩ := step_spec l s h o (hk o (by simp))
    simp only [run, e, Exec.bind_ok, Spec.run]
    rw [ih l1 _ h1 (fun o ho => hk o (by simp [ho]))]
    rfl

theorem holds_new (capacity : Int) : Holds (new capacity : LObj V) [] := by
  refine ⟨rfl, by simp [new], by simp [new], ?_, by simp⟩
  simp only [new]; split <;> omega

/-- C13, the full property: every history of operations on a new list shows what it would show
on a sequence. -/
def C13Statement : Prop :=
  ∀ (V : Type) (capacity : Int) (ops : List (Op V)), 
    (∀ o ∈ ops, ∀ k, o.key = some k → IsI64 k) → run (new capacity) ops = .ok (Spec.run [] ops)

/-- C14 for lists, the full property: reading or writing at an integer index succeeds only if
that integer is a valid index (or, for writing, the one just past the end). -/
def C14ListStatement : Prop :=
  ∀ (V : Type) (l : LObj V) (s : List V), Holds l s → ∀ key : Int, IsI64 key →
    ((∃ v, select l (some key) = .ok v) → 0 ≤ key ∧ key < s.length) ∧
    (∀ w, (∃ l', insert l (some key) w = .ok l') → 0 ≤ key ∧ key ≤ s.length)

/-- C13 and C14 are violated by truncation of indices to 32 bits (o_list.c:219,267): with
nothing stored, writing at index 2^32 is accepted as index 0. -/
theorem C14_list_violated : ¬ C14ListStatement := by
  intro h
  have := (h Nat (new 8) [] (holds_new 8) 4294967296 (by decide)).2 5 ⟨_, rfl⟩
  simp at this

theorem C13_violated : ¬ C13Statement := by
  intro h
  have := h Nat 8 [.insert (some 4294967296) 5] (by
    intro o ho k hk; simp at ho; subst ho; simp [Op.key] at hk; subst hk; decide)
  have e : run (new 8) [Op.insert (some 4294967296) 5] = .ok [.done] := by rfl
  rw [e] at this
  simp [Spec.run, Spec.step] at this

/-- **C13** for histories whose integer keys fit in 32 bits.  Missing: other keys (see
`C13_violated`). -/
theorem C13_sequence_partial (capacity : Int) (ops : List (Op V))
    (hk : ∀ o ∈ ops, ∀ k, o.key = some k → IsI32 k) :
    run (new capacity) ops = .ok (Spec.run [] ops) :=
  run_spec ops _ _ (holds_new capacity) hk

/-- **C14**, lists, for keys that fit in 32 bits. -/
theorem C14_list_partial (l : LObj V) (s : List V) (h : Holds l s) (key : Int) (hk : IsI32 key) :
    ((∃ v, select l (some key) = .ok v) ↔ 0 ≤ key ∧ key < s.length) ∧
    (∀ w, (∃ l', insert l (some key) w = .ok l') → 0 ≤ key ∧ key ≤ s.length) := by
  have hc := h.count
  constructor
  · constructor
    · rintro ⟨v, hv⟩
      rw [select_eq l hk] at hv
      unfold selectAt at hv
      split at hv
      · cases hv
      · omega
    · intro hi
      rw [select_eq l hk]
      unfold selectAt
      rw [if_neg (by omega)]
      have hv := h.vals key.toNat (by omega)
      have hr : rd l.vals key.toNat = .ok (some s[key.toNat]) := by rw [rd_ok_iff]; exact hv
      simp only [hr, Exec.bind_ok]
      exact ⟨_, rfl⟩
  · rintro w ⟨l', hl⟩
    rw [insert_eq l hk] at hl
    unfold insertAt at hl
    split at hl
    · cases hl
    · omega

example : (∀ o ∈ [Op.insert (some 0) 'a', .insert (some 1) 'b', .insert (some 0) 'c',
      .insert (some 5) 'd', .select (some 0), .select (some (-1)), .count],
      ∀ k, o.key = some k → IsI32 k) ∧
    run (new 0) [.insert (some 0) 'a', .insert (some 1) 'b', .insert (some 0) 'c',
      .insert (some 5) 'd', .select (some 0), .select (some (-1)), .count] =
      .ok [.done, .done, .done, .error, .value 'c', .error, .number 2] := by
  refine ⟨?_, rfl⟩
  intro o ho k hk
  simp at ho
  rcases ho with rfl | rfl | rfl | rfl | rfl | rfl | rfl <;> simp [Op.key] at hk <;> subst hk <;> decide

end Noja.LObj
