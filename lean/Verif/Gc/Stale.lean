import Verif.Exec

/-!
# C76: references kept across a collection

A collection moves the objects and frees the memory they were in (heap.c:410-425), so a pointer that
the collector does not know of must not be followed afterwards.  A pointer to an object of the heap is
modelled by the number of collections before which it was valid; following an older one reads freed
memory.  Frames and stack are the places the collector updates (runtime.c:728-757); everything else is
left out.
-/

set_option linter.unusedVariables false
set_option linter.unusedSimpArgs false

namespace Noja.Gc.Stale

/-- A pointer to an object. -/
inductive P where
  | static
  | heap (gen : Nat)
deriving DecidableEq, Repr

/-- `gen` counts the collections; `frames` are locals and closure of every frame. -/
structure S where
  gen : Nat
  stack : List P
  frames : List (P × P)
deriving Repr

def ok (s : S) : P → Prop
  | .static => True
  | .heap g => g = s.gen

instance (s : S) (p : P) : Decidable (ok s p) := by
  cases p
  · exact isTrue trivial
  · exact inferInstanceAs (Decidable (_ = _))

/-- Following a pointer. -/
def use (p : P) (s : S) : Exec Unit := if ok s p then .ok () else .ub

/-- heap.c:452-530 for one root; it follows the pointer. -/
def root (s : S) (p : P) : Exec P := do
  use p s
  match p with
  | .static => .ok .static
  | .heap _ => .ok (.heap (s.gen + 1))

def each {α : Type} (f : α → Exec α) : List α → Exec (List α)
  | [] => .ok []
  | a :: l => do
    let a ← f a
    let l ← each f l
    .ok (a :: l)

/-- runtime.c:728-757. -/
def collectGarbage (s : S) : Exec S := do
  let frames ← each (fun fr => do
    let l ← root s fr.1
    let c ← root s fr.2
    .ok (l, c)) s.frames
  let stack ← each (root s) s.stack
  .ok ⟨s.gen + 1, stack, frames⟩

/-- What `runInstructionsUntilSomethingHappens` does to all this: it may collect, push and pop. -/
abbrev Run := S → Exec S

/-- run.c:1108-1131: a frame with new locals, the arguments on the stack, the results read from it. -/
def runExecutableAtIndex (run : Run) (closure : P) (argv : List P) (s : S) : Exec (List P × S) := do
  let s1 : S := { s with
    frames := (.heap s.gen, closure) :: s.frames
    stack := argv.reverse ++ s.stack }
  let s2 ← run s1
  let used := s2.stack.length - s.stack.length
  .ok ((s2.stack.take used).reverse, { s2 with
    frames := s2.frames.tail
    stack := s2.stack.drop used })

/-- run.c:41-118 `func_call`: `self` is followed for `argc`, `runtime`, `exe`, `index`, `closure`. -/
def func_call (run : Run) (self closure : P) (argc : Nat) (argv : List P) (s : S) : Exec (List P × S) := do
  use self s
  runExecutableAtIndex run closure (argv.take argc ++ List.replicate (argc - argv.length) .static) s

/-- run.c:207-289 `native_func_call`: `self` is followed before and, for `func->runtime`, after the
call of the native function. -/
def native_func_call (callback : List P → S → Exec (List P × S)) (self : P) (argv : List P) (s : S) : Exec (List P × S) := do
  use self s
  let (rets, s) ← callback argv s
  use self s
  .ok (rets, s)

/-- run.c:755-804 CALL: callable and arguments are taken from the stack, the results put on it. -/
def call (f : P → List P → S → Exec (List P × S)) (argc : Nat) (s : S) : Exec S :=
  match s.stack with
  | [] => .err
  | callable :: rest => do
    let (rets, s) ← f callable (rest.take argc) { s with stack := rest.drop argc }
    .ok { s with stack := rets.reverse ++ s.stack }

/-! ## The claim -/

/-- All pointers the collector knows of are valid. -/
def Good (s : S) : Prop := (∀ p ∈ s.stack, ok s p) ∧ ∀ fr ∈ s.frames, ok s fr.1 ∧ ok s fr.2

/-- No undefined behaviour, and `Q` of the result if there is one; errors and endless loops are allowed. -/
def Safe {α : Type} (e : Exec α) (Q : α → Prop) : Prop :=
  match e with
  | .ok a => Q a
  | .ub => False
  | _ => True

theorem Safe.bind {α β : Type} {e : Exec α} {f : α → Exec β} {Q : α → Prop} {R : β → Prop} (he : Safe e Q)
    (hf : ∀ a, Q a → Safe (f a) R) : Safe (e >>= f) R := by
  cases e with
  | ok a => exact hf a he
  | err => trivial
  | ub => exact he
  | diverge => trivial

/-- Running does not use stale pointers and leaves the frames of the callers in place. -/
def Fine (run : Run) : Prop :=
  ∀ s, Good s → Safe (run s) fun s' => Good s' ∧ s'.frames.length = s.frames.length

/-- What a call gives: valid results. -/
def Given (s : S) (r : List P × S) : Prop := Good r.2 ∧ (∀ p ∈ r.1, ok r.2 p) ∧ r.2.frames.length = s.frames.length

def FineNative (cb : List P → S → Exec (List P × S)) : Prop :=
  ∀ argv s, Good s → (∀ p ∈ argv, ok s p) → Safe (cb argv s) (Given s)

theorem use_ok {p : P} {s : S} (h : ok s p) : use p s = .ok () := if_pos h

theorem root_ok {p : P} {s s' : S} (h : ok s p) (hs : s'.gen = s.gen + 1) : ∃ q, root s p = .ok q ∧ ok s' q := by
  cases p with
  | static => exact ⟨.static, by simp [root, use_ok h], trivial⟩
  | heap g => exact ⟨.heap (s.gen + 1), by simp [root, use_ok h], hs.symm⟩

theorem each_ok {α : Type} {f : α → Exec α} {Q R : α → Prop} (hf : ∀ a, Q a → ∃ b, f a = .ok b ∧ R b) :
    ∀ l : List α, (∀ a ∈ l, Q a) → ∃ l', each f l = .ok l' ∧ (∀ b ∈ l', R b) ∧ l'.length = l.length
  | [], _ => ⟨[], rfl, by simp, rfl⟩
  | a :: l, h => by
    obtain ⟨b, hb, hR⟩ := hf a (h a List.mem_cons_self)
    obtain ⟨l', hl, hRl, hlen⟩ := each_ok hf l (fun x hx => h x (List.mem_cons_of_mem _ hx))
    refine ⟨b :: l', by simp [each, hb, hl], ?_, by simp [hlen]⟩
    intro x hx
    rcases List.mem_cons.1 hx with rfl | hx
    · exact hR
    · exact hRl x hx

/-- Collecting itself is fine: every root is updated. -/
theorem C76_collect : Fine collectGarbage := by
  intro s ⟨h1, h2⟩
  have hs : ∀ (st : List P) (fr : List (P × P)), (S.mk (s.gen + 1) st fr).gen = s.gen + 1 := fun _ _ => rfl
  obtain ⟨fr, e1, r1, l1⟩ := each_ok (Q := fun fr => ok s fr.1 ∧ ok s fr.2) (R := fun fr => ok ⟨s.gen + 1, [], []⟩ fr.1 ∧ ok ⟨s.gen + 1, [], []⟩ fr.2)
    (f := fun fr => do
      let l ← root s fr.1
      let c ← root s fr.2
      .ok (l, c)) (by
      intro a ⟨ha, hb⟩
      obtain ⟨x, hx, hx'⟩ := root_ok ha (hs [] [])
      obtain ⟨y, hy, hy'⟩ := root_ok hb (hs [] [])
      exact ⟨(x, y), by simp [hx, hy], hx', hy'⟩) s.frames h2
  obtain ⟨st, e2, r2, l2⟩ := each_ok (Q := ok s) (R := ok ⟨s.gen + 1, [], []⟩) (f := root s) (fun a ha => root_ok ha (hs [] [])) s.stack h1
  have hok : ∀ p, ok ⟨s.gen + 1, [], []⟩ p → ok ⟨s.gen + 1, st, fr⟩ p := by
    intro p hp; cases p <;> exact hp
  have he : collectGarbage s = .ok ⟨s.gen + 1, st, fr⟩ := by
    unfold collectGarbage
    rw [e1]
    simp only [Exec.bind_ok]
    rw [e2]
    rfl
  rw [he]
  exact ⟨⟨fun p hp => hok p (r2 p hp), fun f hf => ⟨hok _ (r1 f hf).1, hok _ (r1 f hf).2⟩⟩, l1⟩

theorem ok_of_gen {s t : S} (h : t.gen = s.gen) {p : P} (hp : ok s p) : ok t p := by
  cases p with
  | static => trivial
  | heap g => exact Eq.trans hp h.symm

/-- **C76** for functions of the language: a call uses no stale pointer, however often the callee's
code makes the collector run, and its results are valid. -/
theorem C76_func {run : Run} (hr : Fine run) {self closure : P} (argc : Nat) {argv : List P} {s : S} (hg : Good s)
    (hself : ok s self) (hcl : ok s closure) (hargv : ∀ p ∈ argv, ok s p) :
    Safe (func_call run self closure argc argv s) (Given s) := by
  unfold func_call runExecutableAtIndex
  rw [use_ok hself]
  simp only [Exec.bind_ok]
  refine (hr _ ⟨?_, ?_⟩).bind fun s2 ⟨⟨g1, g2⟩, l2⟩ => ⟨⟨?_, ?_⟩, ?_, ?_⟩
  · intro p hp
    refine ok_of_gen (s := s) rfl ?_
    simp only [List.mem_append, List.mem_reverse] at hp
    rcases hp with (hp | hp) | hp
    · exact hargv p (List.mem_of_mem_take hp)
    · rw [(List.mem_replicate.1 hp).2]; trivial
    · exact hg.1 p hp
  · intro fr hfr
    rcases List.mem_cons.1 hfr with rfl | hfr
    · exact ⟨rfl, ok_of_gen (s := s) rfl hcl⟩
    · exact ⟨ok_of_gen (s := s) rfl (hg.2 fr hfr).1, ok_of_gen (s := s) rfl (hg.2 fr hfr).2⟩
  · intro p hp
    exact ok_of_gen (s := s2) rfl (g1 p (List.mem_of_mem_drop hp))
  · intro fr hfr
    have := g2 fr (List.mem_of_mem_tail hfr)
    exact ⟨ok_of_gen (s := s2) rfl this.1, ok_of_gen (s := s2) rfl this.2⟩
  · intro p hp
    exact ok_of_gen (s := s2) rfl (g1 p (List.mem_of_mem_take (List.mem_reverse.1 hp)))
  · simp only [List.length_tail, l2, List.length_cons]
    omega

/-- Native functions that do not make the collector run are fine too.
What is missing: `import`, which runs a program. -/
theorem C76_native_partial {cb : List P → S → Exec (List P × S)} (hcb : FineNative cb) {self : P} {argv : List P} {s : S} (hg : Good s)
    (hself : ok s self) (hargv : ∀ p ∈ argv, ok s p) (hgen : ∀ rets s', cb argv s = .ok (rets, s') → s'.gen = s.gen) :
    Safe (native_func_call cb self argv s) (Given s) := by
  unfold native_func_call
  rw [use_ok hself]
  simp only [Exec.bind_ok]
  have h := hcb argv s hg hargv
  cases hc : cb argv s with
  | ok r =>
    obtain ⟨rets, s'⟩ := r
    rw [hc] at h
    have hs : ok s' self := ok_of_gen (hgen rets s' hc) hself
    simp only [Exec.bind_ok, use_ok hs]
    exact h
  | err => trivial
  | ub => rw [hc] at h; exact h
  | diverge => trivial

/-- The instruction CALL, for functions of the language. -/
theorem C76_call {run : Run} (hr : Fine run) (closure : P → P) (hcl : ∀ s p, ok s p → ok s (closure p)) (params argc : Nat) (s : S) (hg : Good s) :
    Safe (call (fun self => func_call run self (closure self) params) argc s) Good := by
  obtain ⟨gen, stack, frames⟩ := s
  match stack with
  | [] => trivial
  | callable :: rest =>
    have h0 : ∀ p, p ∈ callable :: rest → ok ⟨gen, rest.drop argc, frames⟩ p := fun p hp => ok_of_gen rfl (hg.1 p hp)
    unfold call
    dsimp only
    refine (C76_func hr (self := callable) (closure := closure callable) params (argv := rest.take argc)
      (s := ⟨gen, rest.drop argc, frames⟩)
      ⟨fun p hp => h0 p (List.mem_cons_of_mem _ (List.mem_of_mem_drop hp)),
        fun fr hfr => ⟨ok_of_gen rfl (hg.2 fr hfr).1, ok_of_gen rfl (hg.2 fr hfr).2⟩⟩
      (h0 _ List.mem_cons_self) (hcl _ _ (h0 _ List.mem_cons_self)) (fun p hp => h0 p (List.mem_cons_of_mem _ (List.mem_of_mem_take hp)))).bind ?_
    rintro ⟨rets, s'⟩ ⟨h1, h2, h3⟩
    constructor
    · intro p hp
      rcases List.mem_append.1 hp with hp | hp
      · exact ok_of_gen (s := s') rfl (h2 p (List.mem_reverse.1 hp))
      · exact ok_of_gen (s := s') rfl (h1.1 p hp)
    · intro fr hfr
      exact ⟨ok_of_gen (s := s') rfl (h1.2 fr hfr).1, ok_of_gen (s := s') rfl (h1.2 fr hfr).2⟩

/-- C76: calls of native functions use no stale pointer either. -/
def C76Statement : Prop :=
  ∀ (cb : List P → S → Exec (List P × S)), FineNative cb → ∀ (self : P) (argv : List P) (s : S), Good s → ok s self →
    (∀ p ∈ argv, ok s p) → Safe (native_func_call cb self argv s) (Given s)

/-- basic.c:122-137 `import` of a program that makes the collector run once: run.c:1108-1131 without
closure and arguments. -/
def import1 (argv : List P) (s : S) : Exec (List P × S) := runExecutableAtIndex collectGarbage .static [] s

theorem import1_fine : FineNative import1 := by
  intro argv s hg ha
  have h := C76_func C76_collect (self := .static) (closure := .static) 0 (argv := []) hg trivial trivial (by simp)
  have he : func_call collectGarbage .static .static 0 [] s = import1 argv s := by
    unfold func_call
    rw [use_ok (p := .static) (s := s) trivial]
    rfl
  rw [he] at h
  exact h

/-- C76 does not hold: after `import`, run.c:285 reads `func->runtime` from the memory the collection
has freed. -/
theorem C76_violated : ¬ C76Statement := by
  intro h
  have := h import1 import1_fine (.heap 3) [.heap 3] ⟨3, [], []⟩ ⟨by simp, by simp⟩ rfl (by simp [ok])
  exact this

/-- A call with a collection inside: two values below, one argument, one missing. -/
example : ∃ s', call (fun self => func_call collectGarbage self .static 2) 1
    ⟨5, [.heap 5, .heap 5, .static, .heap 5], [(.heap 5, .static)]⟩ = .ok s' ∧ s'.gen = 6 ∧
    s'.stack = [.static, .heap 6, .static, .heap 6] := ⟨_, rfl, rfl, rfl⟩

end Noja.Gc.Stale
