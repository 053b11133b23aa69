/-!
# `src/lib/utils/stack.c` and property C10

Items are values of any type `α`.  The `refs` counter is the subject of C74.
Capacities above 2^31-1 (which would wrap in `(int) s->used`) are not modelled.
-/

namespace Noja.Stack

/-! ## Model -/

/-- stack.c:36-41 `struct xStack`; `body i = none` is memory never written. -/
structure Stk (α : Type) where
  size : Nat
  used : Nat
  body : Nat → Option α

variable {α : Type}

/-- stack.c:43-59 `Stack_New`. -/
def new (size : Int) : Stk α :=
  { size := (if size < 0 then 1024 else size).toNat, used := 0, body := fun _ => none }

/-- stack.c:61-72 `Stack_Top(s, -k)`; `none` is NULL. -/
def top (s : Stk α) (k : Nat) : Option α :=
  if s.used = 0 then none
  else if (s.used : Int) - k - 1 < 0 then none
  else s.body (s.used - k - 1)

/-- stack.c:88-95 `Stack_Pop`. -/
def pop (s : Stk α) (n : Nat) : Stk α × Bool :=
  if s.used < n then (s, false) else ({ s with used := s.used - n }, true)

/-- stack.c:97-108 `Stack_Push`. -/
def push (s : Stk α) (item : α) : Stk α × Bool :=
  if s.used = s.size then (s, false)
  else ({ s with body := fun i => if i = s.used then some item else s.body i,
                 used := s.used + 1 }, true)

/-! ## Specification: a list (most recent first) with a capacity -/

/-- The operations of the API. -/
inductive Op (α : Type)
  | push (item : α)
  | pop (n : Nat)
  | peek (k : Nat)
  | count

/-- What an operation reports. -/
inductive Res (α : Type)
  | status (ok : Bool)
  | item (i : Option α)
  | num (n : Nat)

namespace Spec

/-- One operation on a bounded list. -/
def step (cap : Nat) (l : List α) : Op α → List α × Res α
  | .push a => if l.length = cap then (l, .status false) else (a :: l, .status true)
  | .pop n => if l.length < n then (l, .status false) else (l.drop n, .status true)
  | .peek k => (l, .item l[k]?)
  | .count => (l, .num l.length)

/-- The reports of a history of operations. -/
def run (cap : Nat) : List α → List (Op α) → List (Res α)
  | _, [] => []
  | l, o :: os => (step cap l o).2 :: run cap (step cap l o).1 os

end Spec

/-- One API call on the implementation. -/
def step (s : Stk α) : Op α → Stk α × Res α
  | .push a => ((push s a).1, .status (push s a).2)
  | .pop n => ((pop s n).1, .status (pop s n).2)
  | .peek k => (s, .item (top s k))
  | .count => (s, .num s.used)

/-- The reports of a history of API calls. -/
def run : Stk α → List (Op α) → List (Res α)
  | _, [] => []
  | s, o :: os => (step s o).2 :: run (step s o).1 os

/-! ## Proof -/

/-- The stack `s` holds the list `l`. -/
def Holds (s : Stk α) (l : List α) : Prop :=
  s.used = l.length ∧ l.length ≤ s.size ∧ ∀ k, k < l.length → s.body (s.used - k - 1) = l[k]?

theorem step_spec (s : Stk α) (l : List α) (h : Holds s l) (o : Op α) :
    (step s o).2 = (Spec.step s.size l o).2 ∧ Holds (step s o).1 (Spec.step s.size l o).1 ∧
      (step s o).1.size = s.size := by
  obtain ⟨h1, h2, h3⟩ := h
  cases o with
  | push a =>
    simp only [step, push, Spec.step, h1]
    by_cases e : l.length = s.size
    · simp only [if_pos e]
      exact ⟨by trivial, ⟨h1, h2, h3⟩, by trivial⟩
    · simp only [if_neg e]
      refine ⟨by trivial, ⟨by simp, by simp; omega, ?_⟩, by trivial⟩
      intro k hk
      simp only [List.length_cons] at hk
      cases k with
      | zero => simp
      | succ k =>
        simp only [List.getElem?_cons_succ]
        rw [← h3 k (by omega), if_neg (by omega), h1]
        congr 1; omega
  | pop n =>
    simp only [step, pop, Spec.step, h1]
    by_cases e : l.length < n
    · simp only [if_pos e]
      exact ⟨by trivial, ⟨h1, h2, h3⟩, by trivial⟩
    · simp only [if_neg e]
      refine ⟨by trivial, ⟨by simp, by simp; omega, ?_⟩, by trivial⟩
      intro k hk
      simp only [List.length_drop] at hk
      simp only [List.getElem?_drop]
      rw [← h3 (n + k) (by omega), h1]
      congr 1; omega
  | peek k =>
    refine ⟨?_, ⟨h1, h2, h3⟩, rfl⟩
    simp only [step, Spec.step, top]
    congr 1
    by_cases e : s.used = 0
    · rw [if_pos e]
      have : l = [] := List.eq_nil_of_length_eq_zero (by omega)
      simp [this]
    · rw [if_neg e]
      by_cases f : (s.used : Int) - k - 1 < 0
      · rw [if_pos f]
        exact (List.getElem?_eq_none (by omega)).symm
      · rw [if_neg f, h3 k (by omega)]
  | count => exact ⟨by simp [step, Spec.step, h1], ⟨h1, h2, h3⟩, rfl⟩

theorem run_spec (ops : List (Op α)) : ∀ (s : Stk α) (l : List α), Holds s l →
    run s ops = Spec.run s.size l ops := by
  induction ops with
  | nil => intros; rfl
  | cons o os ih =>
    intro s l h
    obtain ⟨e, hs, hz⟩ := step_spec s l h o
    simp only [run, Spec.run]
    rw [e, ih _ _ hs, hz]

/-- **C10**: every history of operations on a new stack reports exactly what a list of at most
`size` items would (1024 for a negative size). -/
theorem C10_bounded_lifo (size : Int) (ops : List (Op α)) :
    run (new size) ops = Spec.run (if size < 0 then 1024 else size.toNat) [] ops := by
  have := run_spec ops (new size : Stk α) [] ⟨rfl, by simp, by simp⟩
  rw [this]
  congr 1
  simp only [new]
  split <;> rfl

/-- Failed operations change nothing. -/
theorem C10_failure_changes_nothing (s : Stk α) :
    (∀ a, (push s a).2 = false → (push s a).1 = s) ∧
    (∀ n, (pop s n).2 = false → (pop s n).1 = s) := by
  constructor
  · intro a h
    unfold push at *
    split at h
    · rename_i e; simp [if_pos e]
    · cases h
  · intro n h
    unfold pop at *
    split at h
    · rename_i e; simp [if_pos e]
    · cases h

example : run (new 2) [.push 'a', .push 'b', .push 'c', .peek 1, .pop 3, .pop 1, .peek 0, .count] =
    [.status true, .status true, .status false, .item (some 'a'), .status false, .status true,
     .item (some 'a'), .num 1] := by rfl

end Noja.Stack
