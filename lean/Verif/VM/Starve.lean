import Verif.Gc.Alloc
import Verif.VM.Move.Interrupt

/-!
# Programs that get no memory (C113)

When the heap is full, `Heap_RawMalloc` asks the C library for a block of its own, and if there is none it gives NULL without a report
(heap.c:303-306).  `Heap_Malloc`, the functions that make objects, and the instructions that use them hand the NULL on: the instruction
stops the loop of the function that is being run (run.c:1092), and since there is no error this looks like a return (run.c:1104, 1120-1131).

Simplifications: only the instructions that make objects are refused memory, not those that need it for a variable, an item of a
collection or a call, and no built-in functions; and a heap that is refused a block has the same objects as before.
-/

set_option linter.unusedVariables false

namespace Noja.Gc

/-! ## The allocator -/

/-- What `Heap_Malloc` gives: an address, NULL with a report, or NULL without one. -/
inductive Answer
  | got (addr : Nat)
  | reported
  | silent
deriving DecidableEq, Repr

/-- The array of objects with destructors (heap.c:96-99, 113-114): how many entries there are and how many there is room for. -/
structure Slots where
  size : Nat
  used : Nat
deriving DecidableEq, Repr

/-- heap.c:213-247: room for one more object with a destructor; `room` says whether `malloc` or `realloc` has memory. -/
def pendGrow (pend : Option Slots) (room : Bool) : Option (Option Slots) :=
  match pend with
  | none => if room then some (some ⟨8, 0⟩) else none
  | some q => if q.size = q.used then (if room then some (some ⟨2 * q.size, q.used⟩) else none) else some (some q)

/-- heap.c:209-276 `Heap_Malloc` of an object of `size` bytes, with a destructor or not; `p` is what the C library answers if it is asked for a
block.  No type has an `init`. -/
def heapMalloc (heap : Heap) (pend : Option Slots) (destruct : Bool) (size : Nat) (room : Bool) (p : Option Nat) :
    Exec (Answer × Heap × Option Slots) :=
  match (if destruct then pendGrow pend room else some pend) with
  | none => .ok (.reported, heap, pend)
  | some pend => do
    let (a, heap) ← rawMalloc heap size p
    match a with
    | none => .ok (.silent, heap, pend)
    | some a => .ok (.got a, heap, if destruct then pend.map fun q => { q with used := q.used + 1 } else pend)

/-- **C113, for the allocator**: whoever gets no memory finds a report. -/
def C113_allocatorStatement : Prop :=
  ∀ heap pend destruct size room p r, heapMalloc heap pend destruct size room p = .ok r → r.1 ≠ .silent

/-- There is no report exactly if the object does not fit into the heap and the C library has no block. -/
theorem C113_silent (heap : Heap) (pend : Option Slots) (destruct : Bool) (size : Nat) (room : Bool) (p : Option Nat)
    (r : Answer × Heap × Option Slots) (h : heapMalloc heap pend destruct size room p = .ok r) :
    r.1 = .silent ↔ (destruct = true → pendGrow pend room ≠ none) ∧ p = none ∧ ∃ u, u % 8 = 0 ∧ heap.used ≤ u ∧ u < heap.used + 8 ∧
      heap.size < u + size := by
  obtain ⟨u, h1, h2, h3, h4, h5⟩ := C29_defined heap size p
  have huniq : ∀ v, v % 8 = 0 → heap.used ≤ v → v < heap.used + 8 → v = u := fun v a b c => by omega
  unfold heapMalloc at h
  cases hq : (if destruct = true then pendGrow pend room else some pend) with
  | none =>
    rw [hq] at h
    cases h
    refine ⟨nofun, fun ⟨hd, _⟩ => ?_⟩
    by_cases d : destruct = true
    · rw [if_pos d] at hq
      exact absurd hq (hd d)
    · rw [if_neg d] at hq
      cases hq
  | some q =>
    have hd : destruct = true → pendGrow pend room ≠ none := fun d => by
      rw [if_pos d] at hq
      rw [hq]
      nofun
    rw [hq] at h
    dsimp only at h
    by_cases c : 2147483647 < u + size ∨ 2147483647 < heap.total + size + (u - heap.used)
    · rw [h4 c] at h
      cases h
    · obtain ⟨a, h', ha, hn⟩ := h5 (by omega) (by omega)
      rw [ha, Exec.bind_ok] at h
      cases a with
      | none =>
        dsimp only at h
        cases h
        obtain ⟨k1, k2⟩ := hn.1 rfl
        exact ⟨fun _ => ⟨hd, k2, u, h1, h2, h3, k1⟩, fun _ => rfl⟩
      | some a =>
        dsimp only at h
        cases h
        refine ⟨nofun, fun ⟨_, hp, v, v1, v2, v3, v4⟩ => ?_⟩
        cases huniq v v1 v2 v3
        cases hn.2 ⟨v4, hp⟩

/-- There is a report exactly if the object has a destructor, there are entries for as many objects as there is room for, and no memory for
more. -/
theorem C113_reported (heap : Heap) (pend : Option Slots) (destruct : Bool) (size : Nat) (room : Bool) (p : Option Nat)
    (r : Answer × Heap × Option Slots) (h : heapMalloc heap pend destruct size room p = .ok r) :
    r.1 = .reported ↔ destruct = true ∧ room = false ∧ ∀ q, pend = some q → q.size = q.used := by
  unfold heapMalloc at h
  cases hq : (if destruct = true then pendGrow pend room else some pend) with
  | none =>
    rw [hq] at h
    cases h
    refine ⟨fun _ => ?_, fun _ => rfl⟩
    by_cases d : destruct = true
    · rw [if_pos d] at hq
      unfold pendGrow at hq
      cases pend with
      | none =>
        cases room with
        | true => cases hq
        | false => exact ⟨d, rfl, nofun⟩
      | some q =>
        dsimp only at hq
        by_cases hf : q.size = q.used
        · rw [if_pos hf] at hq
          cases room with
          | true => cases hq
          | false => exact ⟨d, rfl, fun _ h => by cases h; exact hf⟩
        · rw [if_neg hf] at hq
          cases hq
    · rw [if_neg d] at hq
      cases hq
  | some q =>
    rw [hq] at h
    dsimp only at h
    obtain ⟨⟨a, h'⟩, ha, hr⟩ := Exec.bind_eq_ok.1 h
    refine ⟨fun hk => ?_, fun ⟨d, hroom, hall⟩ => ?_⟩
    · cases a with
      | none => cases hr; cases hk
      | some a => cases hr; cases hk
    · rw [if_pos d, hroom] at hq
      unfold pendGrow at hq
      cases pend with
      | none => cases hq
      | some q' =>
        dsimp only at hq
        rw [if_pos (hall q' rfl)] at hq
        cases hq

/-- A request: whether the object has a destructor, its size, and what the C library answers. -/
structure Request where
  destruct : Bool
  size : Nat
  room : Bool
  block : Option Nat

/-- Requests one after the other, and how many objects with destructors were made. -/
def requests : List Request → Heap → Option Slots → Exec (Nat × Heap × Option Slots)
  | [], heap, pend => .ok (0, heap, pend)
  | r :: rs, heap, pend => do
    let (a, heap, pend) ← heapMalloc heap pend r.destruct r.size r.room r.block
    let (n, x) ← requests rs heap pend
    match a with
    | .got _ => .ok (if r.destruct then n + 1 else n, x)
    | _ => .ok (n, x)

/-- The entries that are there and the room that there is. -/
def Slots.Are (n : Nat) (pend : Option Slots) : Prop := (pend = none ∧ n = 0) ∨ ∃ q, pend = some q ∧ q.used = n ∧ n ≤ q.size ∧ 0 < q.size

/-- One more if an object with a destructor was made. -/
def Answer.count (destruct : Bool) (n : Nat) : Answer → Nat
  | .got _ => if destruct then n + 1 else n
  | _ => n

theorem heapMalloc_slots {heap heap' : Heap} {pend pend' : Option Slots} {r : Request} {a : Answer} {n : Nat} (hp : Slots.Are n pend)
    (h : heapMalloc heap pend r.destruct r.size r.room r.block = .ok (a, heap', pend')) :
    Slots.Are (a.count r.destruct n) pend' := by
  unfold heapMalloc at h
  cases hd : r.destruct with
  | false =>
    rw [hd, if_neg nofun] at h
    dsimp only at h
    obtain ⟨⟨b, h'⟩, hb, hr⟩ := Exec.bind_eq_ok.1 h
    cases b with
    | none => cases hr; exact hp
    | some b => cases hr; exact hp
  | true =>
    rw [hd, if_pos rfl] at h
    cases hq : pendGrow pend r.room with
    | none => rw [hq] at h; cases h; exact hp
    | some g =>
      have hg : ∃ q, g = some q ∧ q.used = n ∧ n < q.size := by
        unfold pendGrow at hq
        rcases hp with ⟨rfl, rfl⟩ | ⟨q, rfl, h1, h2, h3⟩
        · dsimp only at hq
          cases hroom : r.room with
          | true => rw [hroom] at hq; cases hq; exact ⟨_, rfl, rfl, by decide⟩
          | false => rw [hroom] at hq; cases hq
        · dsimp only at hq
          by_cases hf : q.size = q.used
          · rw [if_pos hf] at hq
            cases hroom : r.room with
            | true => rw [hroom] at hq; cases hq; exact ⟨_, rfl, h1, by dsimp only; omega⟩
            | false => rw [hroom] at hq; cases hq
          · rw [if_neg hf] at hq
            cases hq
            exact ⟨q, rfl, h1, by omega⟩
      obtain ⟨q, rfl, h1, h2⟩ := hg
      rw [hq] at h
      dsimp only at h
      obtain ⟨⟨b, h'⟩, hb, hr⟩ := Exec.bind_eq_ok.1 h
      cases b with
      | none => cases hr; exact .inr ⟨q, rfl, h1, Nat.le_of_lt h2, by omega⟩
      | some b =>
        cases hr
        exact .inr ⟨_, rfl, by show q.used + 1 = n + 1; omega, by show n + 1 ≤ q.size; omega, by show 0 < q.size; omega⟩

theorem requests_slots : ∀ (rs : List Request) (heap : Heap) (pend : Option Slots) (n k : Nat) (heap' : Heap) (pend' : Option Slots),
    Slots.Are n pend → requests rs heap pend = .ok (k, heap', pend') → Slots.Are (n + k) pend'
  | [], heap, pend, n, k, heap', pend', hp, h => by cases h; exact hp
  | r :: rs, heap, pend, n, k, heap', pend', hp, h => by
    obtain ⟨⟨a, h1, p1⟩, ha, h⟩ := Exec.bind_eq_ok.1 h
    obtain ⟨⟨m, h2, p2⟩, hm, h⟩ := Exec.bind_eq_ok.1 h
    have hs := heapMalloc_slots hp ha
    have hi := requests_slots rs h1 p1 _ m h2 p2 hs hm
    cases a with
    | got b =>
      cases h
      cases hd : r.destruct with
      | true => rw [hd] at hi; rw [if_pos rfl]; rw [show n + (m + 1) = n + 1 + m by omega]; exact hi
      | false => rw [hd] at hi; rw [if_neg nofun]; exact hi
    | reported => cases h; exact hi
    | silent => cases h; exact hi

/-- Whatever is asked for, and whatever the C library answers: each object with a destructor that was made has an entry, and no entry is outside
of the array. -/
theorem C113_slots (rs : List Request) (heap heap' : Heap) (n : Nat) (pend : Option Slots) (h : requests rs heap none = .ok (n, heap', pend)) :
    (pend = none → n = 0) ∧ ∀ q, pend = some q → q.used = n ∧ n ≤ q.size := by
  have := requests_slots rs heap none 0 n heap' pend (.inl ⟨rfl, rfl⟩) h
  rw [Nat.zero_add] at this
  rcases this with ⟨rfl, h0⟩ | ⟨q, rfl, h1, h2, -⟩
  · exact ⟨fun _ => h0, nofun⟩
  · exact ⟨nofun, fun q' hq => by cases hq; exact ⟨h1, h2⟩⟩

/-- Nine objects with destructors and one that is refused: the array has grown. -/
example : ∃ heap, requests (⟨true, 24, true, none⟩ :: List.replicate 9 ⟨true, 24, true, some 64⟩) (newHeap 8 16) none = .ok (9, heap, some ⟨16, 9⟩) :=
  ⟨_, rfl⟩

/-- **C113 does not hold** for the allocator. -/
theorem C113_allocator_violated : ¬ C113_allocatorStatement := fun h =>
  h (newHeap 8 16) none false 24 true none _ rfl rfl

/-- An object with a destructor, of 24 bytes in a heap of 16: with a block at 64 (whose header has 8 bytes), without one, and
without room for the list of destructors. -/
example : (∃ h q, heapMalloc (newHeap 8 16) none true 24 true (some 64) = .ok (.got 72, h, q)) ∧
    (∃ h q, heapMalloc (newHeap 8 16) none true 24 true none = .ok (.silent, h, q)) ∧
    ∃ h q, heapMalloc (newHeap 8 16) none true 24 false none = .ok (.reported, h, q) :=
  ⟨⟨_, _, rfl⟩, ⟨_, _, rfl⟩, _, _, rfl⟩

end Noja.Gc

namespace Noja.VM

/-! ## The interpreter -/

variable {W : Type} {L : Layer W} {cap : Nat}

/-- The instructions that make objects, and how many operands they take from the stack before (run.c:536-563, 588-651, 875-909, 955-997). -/
def makes : Instr → Option Nat
  | .un .neg => some 1
  | .un .nlb => some 1
  | .bin .sum => some 2
  | .bin .add => some 2
  | .bin .sub => some 2
  | .bin .mul => some 2
  | .bin .div => some 2
  | .bin .mod => some 2
  | .pushInt _ => some 0
  | .pushFlt _ => some 0
  | .pushStr _ => some 0
  | .pushFun _ _ _ => some 0
  | .pushLst _ => some 0
  | .pushMap _ => some 0
  | _ => none

/-- An instruction that is refused the memory for what it makes, without a report.  If it fails before it asks for the memory (an
operand of a wrong type, for example), it fails as ever. -/
def refused (L : Layer W) (cap : Nat) (i : Instr) (s : St W) : Status W :=
  match makes i with
  | none => execI L cap i s
  | some n =>
    match execI L cap i s with
    | .err t => .err t
    | .ub => .ub
    | _ => s.pop n fun _ s => leave L cap s

/-- `step`, without memory. -/
def refusedStep (L : Layer W) (cap : Nat) (s : St W) : Status W :=
  match s.frames with
  | .normal f :: fs =>
    match fetch s.exes f.exe f.idx with
    | none => .err s
    | some i => refused L cap i { s with frames := .normal { f with idx := f.idx + 1 } :: fs }
  | _ => .err s

/-- At most `n` steps; `full t` says that there is no memory in step `t`. -/
def runM (L : Layer W) (cap : Nat) (full : Nat → Bool) : (n t : Nat) → St W → Status W
  | 0, _, s => .run s
  | n + 1, t, s =>
    match (if full t then refusedStep L cap s else step L cap s) with
    | .run s => runM L cap full n (t + 1) s
    | x => x

/-- The instruction that is next. -/
def next (s : St W) : Option Instr :=
  match s.frames with
  | .normal f :: _ => fetch s.exes f.exe f.idx
  | _ => none

/-- An instruction that makes no object does not notice. -/
theorem refusedStep_other {s : St W} (h : ∀ i, next s = some i → makes i = none) : refusedStep L cap s = step L cap s := by
  unfold refusedStep step
  cases hf : s.frames with
  | nil => rfl
  | cons g fs =>
    cases g with
    | native k => rfl
    | normal f =>
      dsimp only
      cases hi : fetch s.exes f.exe f.idx with
      | none => rfl
      | some i =>
        dsimp only
        unfold refused
        rw [h i (by unfold next; rw [hf]; exact hi)]

/-- C113: as long as no instruction that makes an object is refused memory, all is as ever. -/
theorem C113_same (full : Nat → Bool) : ∀ (n t : Nat) (s : St W), runM L cap full n t s = runN L cap n s ∨
    ∃ k u i, k < n ∧ full (t + k) = true ∧ runN L cap k s = .run u ∧ next u = some i ∧ makes i ≠ none
  | 0, _, _ => .inl rfl
  | n + 1, t, s => by
    by_cases hq : full t = true ∧ ∃ i, next s = some i ∧ makes i ≠ none
    · obtain ⟨h1, i, h2, h3⟩ := hq
      exact .inr ⟨0, s, i, by omega, h1, rfl, h2, h3⟩
    · have hs : (if full t = true then refusedStep L cap s else step L cap s) = step L cap s := by
        by_cases hf : full t = true
        · rw [if_pos hf]
          refine refusedStep_other fun i hi => ?_
          cases hm : makes i with
          | none => rfl
          | some n => exact absurd ⟨hf, i, hi, by rw [hm]; nofun⟩ hq
        · rw [if_neg hf]
      unfold runM
      rw [hs, runN_succ]
      cases hst : step L cap s with
      | run v =>
        rcases C113_same full n (t + 1) v with h | ⟨k, u, i, h1, h2, h3, h4, h5⟩
        · exact .inl h
        · refine .inr ⟨k + 1, u, i, by omega, ?_, ?_, h4, h5⟩
          · rw [← h2]
            congr 1
            omega
          · rw [runN_succ, hst]
            exact h3
      | _ => exact .inl rfl

/-- What a refused instruction comes to: if it would not have failed anyway, the function that is run returns what is on its stack. -/
theorem refused_leaves {i : Instr} {n : Nat} (hm : makes i = some n) {s : St W} {f : NFrame} {fs : List Frame} (hf : s.frames = .normal f :: fs)
    (h1 : ∀ t, execI L cap i s ≠ .err t) (h2 : execI L cap i s ≠ .ub) :
    refused L cap i s = leave L cap { s with stack := s.stack.drop n, frames := .normal { f with used := f.used - n } :: fs } := by
  have hu : ¬ f.used < n := by
    intro hu
    have hp : ∀ k, s.pop n k = .err s := fun k => by
      unfold St.pop
      rw [hf]
      dsimp only
      rw [if_pos hu]
    cases i with
    | un op =>
      cases op <;> first | cases hm; done | (cases hm; exact h1 s (by unfold execI; exact hp _))
    | bin op =>
      cases op <;> first | cases hm; done | (cases hm; exact h1 s (by unfold execI; exact hp _))
    | _ => first | cases hm; done | (cases hm; omega)
  have hp : (s.pop n fun _ s => leave L cap s) =
      leave L cap { s with stack := s.stack.drop n, frames := .normal { f with used := f.used - n } :: fs } := by
    unfold St.pop
    rw [hf]
    dsimp only
    rw [if_neg hu]
  unfold refused
  rw [hm]
  dsimp only
  cases hx : execI L cap i s with
  | err t => exact absurd hx (h1 t)
  | ub => exact absurd hx h2
  | _ => exact hp

theorem pushAll_not_err : ∀ (vs : List Ref) (s : St W) {f : NFrame} {fs : List Frame}, s.frames = .normal f :: fs → ∀ t, s.pushAll cap vs ≠ .err t
  | [], s, f, fs, hf, t => nofun
  | v :: vs, s, f, fs, hf, t => by
    show (match s.push cap v with | .run s => s.pushAll cap vs | x => x) ≠ .err t
    unfold St.push
    rw [hf]
    dsimp only
    by_cases h1 : f.used = maxFrameStack
    · rw [if_pos h1]; nofun
    · rw [if_neg h1]
      by_cases h2 : cap ≤ s.stack.length
      · rw [if_pos h2]; nofun
      · rw [if_neg h2]
        exact pushAll_not_err vs _ rfl t

/-- **C113 never holds**: whatever the instruction, and wherever it is, being refused memory is no error.  Either the program has ended, and well,
or it goes on in the function that called.  (Calls are made by functions, or by built-in functions that functions call.) -/
theorem C113_never {i : Instr} {n : Nat} (hm : makes i = some n) {s : St W} {f : NFrame} {fs : List Frame} (hf : s.frames = .normal f :: fs)
    (hn : fs = [] ∨ (∃ g gs, fs = .normal g :: gs) ∨ ∃ k g gs, fs = .native k :: .normal g :: gs)
    (h1 : ∀ t, execI L cap i s ≠ .err t) (h2 : execI L cap i s ≠ .ub) (hp : L.pending s.w = false) (t : St W) :
    refused L cap i s ≠ .err t := by
  rw [refused_leaves hm hf h1 h2]
  unfold leave
  dsimp only
  rw [if_neg (by rw [hp]; decide)]
  have hd : ∀ want rets (s' : St W) {g : NFrame} {gs : List Frame}, s'.frames = .normal g :: gs → deliver L cap want rets s' ≠ .err t := by
    intro want rets s' g gs hg
    unfold deliver
    by_cases hr : maxRets < min rets.length want
    · rw [if_pos hr]; nofun
    · rw [if_neg hr]
      exact pushAll_not_err _ _ hg t
  rcases hn with rfl | ⟨g, gs, rfl⟩ | ⟨k, g, gs, rfl⟩
  · nofun
  · exact hd _ _ _ rfl
  · exact hd _ _ _ rfl

/-- In the outermost function the program has ended, and well. -/
theorem C113_outermost {s : St W} {f : NFrame} (hf : s.frames = [.normal f]) {i : Instr} (hi : next s = some i) {n : Nat} (hm : makes i = some n)
    (h1 : ∀ t, step L cap s ≠ .err t) (h2 : step L cap s ≠ .ub) (hp : L.pending s.w = false) :
    ∃ rets t, refusedStep L cap s = .done rets t ∧ t.w = s.w := by
  unfold next at hi
  rw [hf] at hi
  have hi : fetch s.exes f.exe f.idx = some i := hi
  have hs : step L cap s = execI L cap i { s with frames := [.normal { f with idx := f.idx + 1 }] } := by
    unfold step
    rw [hf]
    dsimp only
    rw [hi]
  unfold refusedStep
  rw [hf]
  dsimp only
  rw [hi]
  dsimp only
  rw [refused_leaves hm rfl (fun t => by rw [← hs]; exact h1 t) (by rw [← hs]; exact h2)]
  unfold leave
  dsimp only
  rw [if_neg (by rw [hp]; decide)]
  exact ⟨_, _, rfl, rfl⟩

/-! ## Programs -/

open Noja.VM.Book (bare bareStatus bootT clientT)

/-- `clientT`, with no memory in the steps that `full` says. -/
def clientM (fl : Book.Floats) (cap : Nat) (u : St TWorld) (code : List Instr) (full : Nat → Bool) (k : Nat) : Status TWorld :=
  match boot (tables (std (Book.printing fl Start.config)) false) cap u.exes.length
      ⟨Book.pluggedT u.w, u.funcs, u.exes ++ [code], [], []⟩ with
  | .run t => runM (tables (std (Book.printing fl Start.config)) false) cap full k 0 t
  | x => x

/-- **C113**: a program that ends well has written what it writes if there is memory. -/
def C113Statement : Prop :=
  ∀ (fl : Book.Floats) (cap n : Nat) (vs : List Ref) (u : St TWorld), bootT fl cap n = .done vs u → ∀ p : Stmts, p.wf false = true →
    ∀ full k rs t, clientM fl cap u (compile p) full k = .done rs t →
      ∃ m rs' t', clientT fl cap u (compile p) m = .done rs' t' ∧ t'.w.w.out = t.w.w.out

/-- C113 holds as far as it goes: if no instruction that makes objects is refused memory. -/
theorem C113_partial (fl : Book.Floats) (cap : Nat) (u : St TWorld) (code : List Instr) (full : Nat → Bool) (k : Nat) :
    clientM fl cap u code full k = clientT fl cap u code k ∨
    ∃ T s i, T < k ∧ full T = true ∧ clientT fl cap u code T = .run s ∧ next s = some i ∧ makes i ≠ none := by
  unfold clientM clientT start
  cases boot (tables (std (Book.printing fl Start.config)) false) cap u.exes.length
      ⟨Book.pluggedT u.w, u.funcs, u.exes ++ [code], [], []⟩ with
  | run t =>
    rcases C113_same (L := tables (std (Book.printing fl Start.config)) false) (cap := cap) full k 0 t with h | ⟨T, s, i, h1, h2, h3, h4, h5⟩
    · exact .inl h
    · exact .inr ⟨T, s, i, h1, by rw [Nat.zero_add] at h2; exact h2, h3, h4, h5⟩
  | _ => exact .inl rfl

theorem runM_succ (full : Nat → Bool) (n t : Nat) (s : St W) : runM L cap full (n + 1) t s =
    match (if full t then refusedStep L cap s else step L cap s) with
    | .run s => runM L cap full n (t + 1) s
    | x => x := rfl

theorem runM_add (full : Nat → Bool) : ∀ (n m t : Nat) (s : St W), runM L cap full (n + m) t s =
    match runM L cap full n t s with
    | .run s => runM L cap full m (t + n) s
    | x => x
  | 0, m, t, s => by rw [Nat.zero_add]; rfl
  | n + 1, m, t, s => by
    rw [show n + 1 + m = (n + m) + 1 by omega, runM_succ, runM_succ]
    cases (if full t = true then refusedStep L cap s else step L cap s) with
    | run v =>
      dsimp only
      rw [runM_add full n m (t + 1) v, show t + 1 + n = t + (n + 1) by omega]
    | _ => rfl

theorem runM_quiet (full : Nat → Bool) : ∀ (n t : Nat) (s : St W), (∀ j, j < n → full (t + j) = false) → runM L cap full n t s = runN L cap n s
  | 0, _, _, _ => rfl
  | n + 1, t, s, h => by
    unfold runM
    rw [if_neg (by rw [show full t = false from h 0 (by omega)]; decide), runN_succ]
    cases step L cap s with
    | run v => exact runM_quiet full n (t + 1) v fun j hj => by rw [show t + 1 + j = t + (j + 1) by omega]; exact h (j + 1) (by omega)
    | _ => rfl

/-- The first refusal, in the outermost function: the program ends well, with what it has written so far. -/
theorem C113_ends (fl : Book.Floats) (cap : Nat) (u : St TWorld) (code : List Instr) {full : Nat → Bool} {T k : Nat} (hk : T < k)
    (hT : full T = true) (hq : ∀ j, j < T → full j = false) {s : St TWorld} (hs : clientT fl cap u code T = .run s) {f : NFrame}
    (hf : s.frames = [.normal f]) {i : Instr} (hi : next s = some i) (hm : makes i ≠ none) (h1 : ∀ t, clientT fl cap u code (T + 1) ≠ .err t)
    (h2 : clientT fl cap u code (T + 1) ≠ .ub) (hp : s.w.w.err = false) :
    ∃ rs t, clientM fl cap u code full k = .done rs t ∧ t.w.w.out = s.w.w.out := by
  unfold clientT start at hs h1 h2
  unfold clientM
  cases hb : boot (tables (std (Book.printing fl Start.config)) false) cap u.exes.length
      ⟨Book.pluggedT u.w, u.funcs, u.exes ++ [code], [], []⟩ with
  | run t =>
    rw [hb] at hs h1 h2
    dsimp only at hs h1 h2 ⊢
    have hone : runN (tables (std (Book.printing fl Start.config)) false) cap (T + 1) t =
        (match step (tables (std (Book.printing fl Start.config)) false) cap s with | .run v => .run v | x => x) := by
      rw [runN_add, hs]
      dsimp only
      rw [runN_succ]
      cases step (tables (std (Book.printing fl Start.config)) false) cap s <;> rfl
    cases hn : makes i with
    | none => exact absurd hn hm
    | some n =>
      obtain ⟨rets, v, hv, hw⟩ := C113_outermost (L := tables (std (Book.printing fl Start.config)) false) (cap := cap) hf hi hn
        (fun w hw => h1 w (by rw [hone, hw])) (fun hw => h2 (by rw [hone, hw])) hp
      refine ⟨rets, v, ?_, by rw [hw]⟩
      obtain ⟨d, rfl⟩ : ∃ d, k = T + (d + 1) := ⟨k - T - 1, by omega⟩
      rw [runM_add, runM_quiet full T 0 t fun j hj => by rw [Nat.zero_add]; exact hq j hj, hs]
      dsimp only
      unfold runM
      rw [Nat.zero_add, if_pos hT, hv]
  | _ => rw [hb] at hs; cases hs

/-- `fun f(x) return x + 1; print(f(4));` -/
def inc : Stmts :=
  .cons (.func [102] (.mk (.cons [120] .no .no .nil) (.ret (.cons (.bin .add (.ident [120]) (.int 1)) .nil)))) <|
  .cons (.expr (.call (.fn (.ident [112, 114, 105, 110, 116]) (.cons (.call (.fn (.ident [102]) (.cons (.int 4) .nil))) .nil)))) .nil

/-- With memory it writes `5`.  If there is none for the `1`, it writes `4`; if there is none for the sum, it writes `none`; and all is well. -/
theorem inc_writes : ∃ vs u, bootT Book.toy 1024 1000 = .done vs u ∧
    Book.outOfT (clientT Book.toy 1024 u (compile inc) 100) = some (true, [53]) ∧
    Book.outOfT (clientM Book.toy 1024 u (compile inc) (fun t => t == 10) 100) = some (true, [52]) ∧
    Book.outOfT (clientM Book.toy 1024 u (compile inc) (fun t => t == 11) 100) = some (true, [110, 111, 110, 101]) := by
  have h1 : (Book.afterBootT fun u => Book.outOfT (clientT Book.toy 1024 u (compile inc) 100)) = some (true, [53]) := by decide +kernel
  have h2 : (Book.afterBootT fun u => Book.outOfT (clientM Book.toy 1024 u (compile inc) (fun t => t == 10) 100)) = some (true, [52]) := by
    decide +kernel
  have h3 : (Book.afterBootT fun u => Book.outOfT (clientM Book.toy 1024 u (compile inc) (fun t => t == 11) 100)) =
      some (true, [110, 111, 110, 101]) := by decide +kernel
  obtain ⟨vs, u, hs⟩ := Book.bootT_ends
  unfold Book.afterBootT at h1 h2 h3
  rw [hs] at h1 h2 h3
  exact ⟨vs, u, hs, h1, h2, h3⟩

/-- **C113 does not hold**: a program whose function is refused memory goes on with a wrong result, and ends well. -/
theorem C113_violated : ¬ C113Statement := by
  intro h
  obtain ⟨vs, u, hs, h1, h2, -⟩ := inc_writes
  cases hm : clientM Book.toy 1024 u (compile inc) (fun t => t == 10) 100 with
  | done rs t =>
    rw [hm] at h2
    have h2 : t.w.w.out = [52] := congrArg Prod.snd (Option.some.inj h2)
    obtain ⟨m, rs', t', h3, h4⟩ := h Book.toy 1024 1000 vs u hs inc (by decide) _ _ rs t hm
    cases hc : clientT Book.toy 1024 u (compile inc) 100 with
    | done r v =>
      rw [hc] at h1
      have h5 : v.w.w.out = [53] := congrArg Prod.snd (Option.some.inj h1)
      cases start_stable (show start _ _ _ _ 100 = _ from hc) (show start _ _ _ _ m = _ from h3) nofun nofun
      rw [h4, h2] at h5
      cases h5
    | err v => rw [hc] at h1; cases h1
    | _ => rw [hc] at h1; cases h1
  | err t => rw [hm] at h2; cases h2
  | _ => rw [hm] at h2; cases h2

/-- Where `C113_never` and `C113_outermost` have something to say: the first instruction of `inc` is in the outermost function, and the
instruction for the `1` is in another one. -/
example : ∃ vs u, bootT Book.toy 1024 1000 = .done vs u ∧
    (∃ s f i n, clientT Book.toy 1024 u (compile inc) 0 = .run s ∧ s.frames = [.normal f] ∧ next s = some i ∧ makes i = some n) ∧
    ∃ s f g i n, clientT Book.toy 1024 u (compile inc) 10 = .run s ∧ s.frames = [.normal f, .normal g] ∧ next s = some i ∧ makes i = some n ∧
      s.w.w.err = false := by
  have h1 : (Book.afterBootT fun u => match clientT Book.toy 1024 u (compile inc) 0 with
      | .run s => some (match s.frames, next s with | [.normal f], some i => (makes i).isSome | _, _ => false)
      | _ => none) = some true := by decide +kernel
  have h2 : (Book.afterBootT fun u => match clientT Book.toy 1024 u (compile inc) 10 with
      | .run s => some (match s.frames, next s with | [.normal f, .normal g], some i => (makes i).isSome && !s.w.w.err | _, _ => false)
      | _ => none) = some true := by decide +kernel
  obtain ⟨vs, u, hs⟩ := Book.bootT_ends
  unfold Book.afterBootT at h1 h2
  rw [hs] at h1 h2
  dsimp only at h1 h2
  refine ⟨vs, u, hs, ?_, ?_⟩
  · split at h1
    · rename_i s hr
      have h1 := Option.some.inj h1
      split at h1
      · rename_i f i hf hi
        obtain ⟨n, hn⟩ := Option.isSome_iff_exists.1 h1
        exact ⟨s, f, i, n, hr, hf, hi, hn⟩
      · cases h1
    · cases h1
  · split at h2
    · rename_i s hr
      have h2 := Option.some.inj h2
      split at h2
      · rename_i f g i hf hi
        rw [Bool.and_eq_true] at h2
        obtain ⟨n, hn⟩ := Option.isSome_iff_exists.1 h2.1
        exact ⟨s, f, g, i, n, hr, hf, hi, hn, by simpa using h2.2⟩
      · cases h2
    · cases h2

end Noja.VM

namespace Noja.Cli

open Noja.VM
open Noja.VM.Book (bare bareStatus bootT clientT roomy runIf)

/-! ## The command -/

/-- The machine does with this code what comes of it if there is no memory in the steps that `full` says. -/
def Host.Starved (H : Host) (u : St TWorld) (full : Nat → Bool) (k : Nat) (code : List Instr) (M : Machine) : Prop :=
  M code = H.ends (bareStatus (clientM H.fl H.cap u code full k))

/-- **C113, for the command**: if there is no memory, in the outermost function, the command says nothing, the status is 0, and what is on the
stream is a beginning of what the program writes if there is memory. -/
theorem C113_command (H : Host) (name : List UInt8) (os : List Opt) (args : List Arg) (file : Arg) (rest : List Arg) (hw : WritesAll os args)
    (hf : file ∉ words) (hs : ∀ n, Opt.heap n ∈ os → n < 2 ^ 31) {assembly inline : Bool} {heap : Nat}
    (ha : want os file = .run assembly inline false file none heap) (hm : H.made heap false = true)
    {vs : List Ref} {u : St TWorld} (hb : bootT H.fl H.cap H.n = .done vs u) {src : List UInt8} (hg : H.Gives src inline file) {p : Stmts}
    (ht : H.Means assembly src p) {full : Nat → Bool} {T k : Nat} (hk : T < k) (hT : full T = true) (hq : ∀ j, j < T → full j = false)
    {s : St TWorld} (hr : clientT H.fl H.cap u (compile p) T = .run s) {f : NFrame} (hfr : s.frames = [.normal f]) {i : Instr}
    (hi : next s = some i) (hmk : makes i ≠ none) (h1 : ∀ t, clientT H.fl H.cap u (compile p) (T + 1) ≠ .err t)
    (h2 : clientT H.fl H.cap u (compile p) (T + 1) ≠ .ub) (hp : s.w.w.err = false) {M : Machine} (hM : H.Starved u full k (compile p) M) :
    command (H.libT M) name (args ++ file :: rest) = .ok ⟨s.w.w.out, [], [], 0⟩ ∧
    ∀ m rs t, T ≤ m → clientT H.fl H.cap u (compile p) m = .done rs t → s.w.w.out <+: t.w.w.out := by
  obtain ⟨rs, t, hd, ho⟩ := C113_ends H.fl H.cap u (compile p) hk hT hq hr hfr hi hmk h1 h2 hp
  refine ⟨?_, fun m rs' t' hle hd' => ?_⟩
  · rw [result_of H name os args file rest hw hf hs ha hm hb hg ht hM, hd, ← ho]
    rfl
  · exact Move.clientT_grows H.fl H.cap u (compile p) hle (by rw [hr]; rfl) (by rw [hd']; rfl)

/-- `noja -i 'print(7);'` with no memory for the `7`: nothing is written, nothing is said, and the status is 0. -/
example : ∃ vs u, bootT Book.toy 1024 1000 = .done vs u ∧ ∀ M, toyHost.Starved u (fun _ => true) 100 (compile TestRun.seven) M →
    command (toyHost.libT M) [110] [W.iS, sevenText] = .ok ⟨[], [], [], 0⟩ := by
  have hw : WritesAll [.inline] [W.iS] := by
    have := WritesAll.cons (.inlineS) .nil
    exact this
  have h1 : (Book.afterBootT fun u => match clientT Book.toy 1024 u (compile TestRun.seven) 0 with
      | .run s => some (match s.frames, next s with | [.normal f], some i => (makes i).isSome && !s.w.w.err && s.w.w.out.isEmpty | _, _ => false)
      | _ => none) = some true := by decide +kernel
  have h2 : (Book.afterBootT fun u => match clientT Book.toy 1024 u (compile TestRun.seven) 1 with
      | .run s => some true
      | _ => none) = some true := by decide +kernel
  obtain ⟨vs, u, hs⟩ := Book.bootT_ends
  unfold Book.afterBootT at h1 h2
  rw [hs] at h1 h2
  dsimp only at h1 h2
  refine ⟨vs, u, hs, fun M hM => ?_⟩
  split at h1
  · rename_i s hr
    have h1 := Option.some.inj h1
    split at h1
    · rename_i f i hf hi
      simp only [Bool.and_eq_true] at h1
      obtain ⟨⟨a, b⟩, c⟩ := h1
      have hone : ∃ v, clientT Book.toy 1024 u (compile TestRun.seven) 1 = .run v := by
        split at h2
        · rename_i v hv
          exact ⟨v, hv⟩
        · cases h2
      obtain ⟨v, hv⟩ := hone
      have hc := (C113_command toyHost [110] [.inline] [W.iS] sevenText [] hw (by decide) (by simp) rfl rfl hs
        (.inline (by decide) (by decide)) (p := TestRun.seven) seven_means (T := 0) (k := 100) (full := fun _ => true) (by omega) rfl
        (fun j hj => by omega) hr hf hi (fun hn => by rw [hn] at a; cases a) (fun t q => by cases hv.symm.trans q)
        (fun q => by cases hv.symm.trans q) (by simpa using b) hM).1
      rw [List.isEmpty_iff.1 c] at hc
      exact hc
    · cases h1
  · cases h1

end Noja.Cli
