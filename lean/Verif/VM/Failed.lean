import Verif.Exec

/-!
# C39: stack traces after failed compilations

The list of frames of a runtime, as linked cells (runtime.c:36-90).  Cell 0 is
`runtime->failed_frame`, which is part of the runtime; the others are allocated and freed.  Of a
frame only `prev` and the source of the failed frame are modelled; of a source only the reference
count.  Allocation does not fail.
-/

namespace Noja.VM.Failed

/-- runtime.h: `MAX_FRAMES`. -/
def maxFrames : Nat := 16

structure RT where
  /-- `frame->prev`, by address -/
  prev : Nat → Option Nat
  /-- allocated and not freed -/
  live : Nat → Bool
  /-- the next address `malloc` returns -/
  next : Nat
  /-- `runtime->frame` -/
  frame : Option Nat
  depth : Nat
  /-- `failed_frame.source` -/
  src : Nat
  /-- reference counts of sources; 0 means freed -/
  refs : Nat → Nat
  /-- the next source -/
  nextSrc : Nat

/-- runtime.c:326-368 `Runtime_New`. -/
def new : RT := ⟨fun _ => none, fun _ => false, 1, none, 0, 0, fun _ => 0, 0⟩

def upd {α : Type} (f : Nat → α) (a : Nat) (v : α) : Nat → α := fun x => if x = a then v else f x

/-- runtime.c:633-686 `Runtime_PushNativeFrame`, `Runtime_PushFrame` with runtime.c:599-610
`appendFrame`.  Nothing changes if there are too many frames. -/
def push (r : RT) : RT :=
  if r.depth = maxFrames then r
  else
    { r with
      prev := upd r.prev r.next r.frame
      live := upd r.live r.next true
      next := r.next + 1
      frame := some r.next
      depth := r.depth + 1 }

/-- source.c `Source_Copy`. -/
def copySource (i : Nat) (r : RT) : RT := { r with refs := upd r.refs i (r.refs i + 1) }

/-- source.c `Source_Free`. -/
def freeSource (i : Nat) (r : RT) : Exec RT :=
  if r.refs i = 0 then .ub else .ok { r with refs := upd r.refs i (r.refs i - 1) }

/-- runtime.c:611-631 `Runtime_PushFailedFrame`. -/
def pushFailed (i : Nat) (r : RT) : Exec RT :=
  let r := copySource i r
  let r := { r with prev := upd r.prev 0 none, src := i }
  if r.depth = maxFrames then freeSource i r
  else .ok { r with prev := upd r.prev 0 r.frame, frame := some 0, depth := r.depth + 1 }

/-- run.c:1134-1150 `runSource` when `compile` fails, with the creation and the release of the
source around it (run.c:1170-1194). -/
def compileFails (r : RT) : Exec RT := do
  let i := r.nextSrc
  let r ← pushFailed i { r with nextSrc := i + 1, refs := upd r.refs i 1 }
  freeSource i r

/-- Reading a frame. -/
def readFrame (a : Nat) (r : RT) : Exec Unit :=
  if a = 0 ∨ r.live a = true then .ok () else .ub

/-- runtime.c:688-716 `Runtime_PopFrame` on a list that is not empty. -/
def pop (a : Nat) (r : RT) : Exec RT := do
  readFrame a r
  let r := { r with frame := r.prev a, depth := r.depth - 1 }
  if a = 0 then freeSource r.src r
  else .ok { r with live := upd r.live a false }

/-- runtime.c:370-379 `Runtime_Free`: the loop. -/
def free : Nat → RT → Exec RT
  | 0, _ => .diverge
  | fuel + 1, r =>
    match r.frame with
    | none => .ok r
    | some a => do free fuel (← pop a r)

/-- runtime.c:170-212 `printFrame`: the source of a failed frame is looked at. -/
def printFrame (a : Nat) (r : RT) : Exec Unit := do
  readFrame a r
  if a = 0 ∧ r.refs r.src = 0 then .ub else .ok ()

/-- runtime.c:214-228 `Runtime_PrintStackTrace`: the frames in the order in which they are printed. -/
def traceFrom (r : RT) : Nat → Option Nat → Exec (List Nat)
  | _, none => .ok []
  | 0, some _ => .diverge
  | fuel + 1, some a => do
    printFrame a r
    let l ← traceFrom r fuel (r.prev a)
    .ok (a :: l)

def trace (fuel : Nat) (r : RT) : Exec (List Nat) := traceFrom r fuel r.frame

/-- What happens to the frames of a runtime. -/
inductive Op where
  /-- a function of the language or a native one is called -/
  | call
  /-- one returns -/
  | ret
  /-- a program, or a file given to `import`, does not compile -/
  | bad
deriving DecidableEq

/-- A frame is popped only when the function it belongs to has returned: it is the newest frame
and not the failed one.  (After a failure no frames are popped: run.c:1108-1131.) -/
def Op.run (r : RT) : Op → Exec RT
  | .call => .ok (push r)
  | .ret =>
    match r.frame with
    | some (a + 1) => pop (a + 1) r
    | _ => .ok r
  | .bad => compileFails r

def runs (r : RT) : List Op → Exec RT
  | [] => .ok r
  | o :: os => do runs (← o.run r) os

/-- C39. -/
def C39Statement : Prop :=
  ∀ ops r, runs new ops = .ok r →
    (∃ fuel l, trace fuel r = .ok l) ∧ (∃ fuel r', free fuel r = .ok r')

/-! ## Finite lists -/

/-- The list of frames is `l`, which ends. -/
inductive Linked (r : RT) : Option Nat → List Nat → Prop
  | nil : Linked r none []
  | cons {a l} : Linked r (r.prev a) l → Linked r (some a) (a :: l)

structure Good (r : RT) (l : List Nat) : Prop where
  linked : Linked r r.frame l
  nodup : l.Nodup
  live : ∀ a ∈ l, a = 0 ∨ (r.live a = true ∧ a < r.next)
  pos : 0 < r.next
  src : 0 ∈ l → 0 < r.refs r.src ∧ r.src < r.nextSrc
  fresh : ∀ i, r.nextSrc ≤ i → r.refs i = 0

theorem Linked.mono {r r' : RT} {o : Option Nat} {l : List Nat} (h : Linked r o l)
    (hp : ∀ a ∈ l, r'.prev a = r.prev a) : Linked r' o l := by
  induction h with
  | nil => exact .nil
  | cons h ih =>
    refine .cons ?_
    rw [hp _ (by simp)]
    exact ih fun a m => hp a (by simp [m])

theorem good_new : Good new [] :=
  ⟨.nil, by simp, by simp, by decide, by simp, fun _ _ => rfl⟩

theorem good_push {r : RT} {l : List Nat} (h : Good r l) : ∃ l', Good (push r) l' ∧ (0 ∈ l' ↔ 0 ∈ l) := by
  unfold push
  by_cases q : r.depth = maxFrames
  · rw [if_pos q]; exact ⟨l, h, Iff.rfl⟩
  · rw [if_neg q]
    have hn : r.next ∉ l := by
      intro m
      have := h.pos
      rcases h.live _ m with e | ⟨_, e⟩ <;> omega
    have hne : ∀ a ∈ l, a ≠ r.next := fun a m e => hn (e ▸ m)
    have hp := h.pos
    refine ⟨r.next :: l, ⟨.cons ?_, ?_, ?_, Nat.succ_pos _, ?_, h.fresh⟩, ?_⟩
    · show Linked _ (upd r.prev r.next r.frame r.next) l
      have : upd r.prev r.next r.frame r.next = r.frame := by simp [upd]
      rw [this]
      refine h.linked.mono fun a m => ?_
      simp [upd, hne a m]
    · exact List.nodup_cons.2 ⟨hn, h.nodup⟩
    · intro a m
      rcases List.mem_cons.1 m with e | m
      · subst e
        exact .inr ⟨by simp [upd], Nat.lt_succ_self _⟩
      · rcases h.live a m with e | ⟨e1, e2⟩
        · exact .inl e
        · exact .inr ⟨by simp [upd, hne a m, e1], Nat.lt_succ_of_lt e2⟩
    · intro m
      rcases List.mem_cons.1 m with e | m
      · omega
      · exact h.src m
    · simp; omega

theorem pop_failed {r : RT} (h : 0 < r.refs r.src) : pop 0 r =
    .ok { r with frame := r.prev 0, depth := r.depth - 1, refs := upd r.refs r.src (r.refs r.src - 1) } := by
  unfold pop readFrame
  have h' : ¬ r.refs r.src = 0 := by omega
  simp [freeSource, bind, Exec.bind, h']

theorem pop_other {r : RT} {a : Nat} (h : r.live a = true) (h0 : a ≠ 0) : pop a r =
    .ok { r with frame := r.prev a, depth := r.depth - 1, live := upd r.live a false } := by
  unfold pop readFrame
  rw [if_pos (.inr h)]
  show (if a = 0 then freeSource r.src _ else _) = _
  rw [if_neg h0]

theorem compileFails_eq (r : RT) : compileFails r =
    .ok (if r.depth = maxFrames then
      { r with
        prev := upd r.prev 0 none
        src := r.nextSrc
        nextSrc := r.nextSrc + 1
        refs := upd r.refs r.nextSrc 0 }
    else
      { r with
        prev := upd r.prev 0 r.frame
        src := r.nextSrc
        nextSrc := r.nextSrc + 1
        refs := upd r.refs r.nextSrc 1
        frame := some 0
        depth := r.depth + 1 }) := by
  have u : ∀ {α : Type} (f : Nat → α) (a : Nat) (v w : α), upd (upd f a v) a w = upd f a w := by
    intro α f a v w
    funext x
    simp only [upd]
    by_cases h : x = a
    · rw [if_pos h, if_pos h]
    · rw [if_neg h, if_neg h, if_neg h]
  have v : ∀ {α : Type} (f : Nat → α) (a : Nat) (v : α), upd f a v a = v := fun f a v => if_pos rfl
  by_cases q : r.depth = maxFrames
  · rw [if_pos q]
    simp only [compileFails, pushFailed, copySource, freeSource, q, if_true, u, v, bind, Exec.bind]
    simp [u, v]
  · rw [if_neg q]
    simp only [compileFails, pushFailed, copySource, freeSource, q, if_false, u, v, bind, Exec.bind]
    simp [u, v]

theorem good_pop {r : RT} {l : List Nat} {a : Nat} (h : Good r l) (hf : r.frame = some a) :
    ∃ r', pop a r = .ok r' ∧ Good r' l.tail ∧ l = a :: l.tail := by
  have hl := h.linked
  rw [hf] at hl
  cases hl with
  | cons hl =>
    rename_i l
    obtain ⟨hnm, hnd⟩ := List.nodup_cons.1 h.nodup
    by_cases q : a = 0
    · subst q
      have hs := h.src (by simp)
      refine ⟨_, pop_failed hs.1, ⟨hl.mono fun _ _ => rfl, hnd, ?_, h.pos, ?_, ?_⟩, rfl⟩
      · exact fun b m => h.live b (List.mem_cons_of_mem _ m)
      · exact fun m => absurd m hnm
      · intro i hi
        have hi' : r.nextSrc ≤ i := hi
        show upd r.refs r.src _ i = 0
        have : i ≠ r.src := by intro e; have := hs.2; omega
        simp [upd, this, h.fresh i hi']
    · have hlive : r.live a = true := by
        rcases h.live a (by simp) with e | e
        · exact absurd e q
        · exact e.1
      refine ⟨_, pop_other hlive q, ⟨hl.mono fun _ _ => rfl, hnd, ?_, h.pos, ?_, h.fresh⟩, rfl⟩
      · intro b m
        have hb : b ≠ a := fun e => hnm (e ▸ m)
        rcases h.live b (List.mem_cons_of_mem _ m) with e | e
        · exact .inl e
        · exact .inr ⟨by simp [upd, hb, e.1], e.2⟩
      · exact fun m => h.src (List.mem_cons_of_mem _ m)

theorem good_bad {r : RT} {l : List Nat} (h : Good r l) (h0 : 0 ∉ l) :
    ∃ r' l', compileFails r = .ok r' ∧ Good r' l' ∧ (r.depth < maxFrames → 0 ∈ l') := by
  rw [compileFails_eq]
  have hne : ∀ a ∈ l, a ≠ 0 := fun a m e => h0 (e ▸ m)
  by_cases q : r.depth = maxFrames
  · rw [if_pos q]
    refine ⟨_, l, rfl, ⟨?_, h.nodup, h.live, h.pos, fun m => absurd m h0, ?_⟩, fun hd => by omega⟩
    · refine h.linked.mono fun a m => ?_
      simp [upd, hne a m]
    · intro i hi
      have hi' : r.nextSrc + 1 ≤ i := hi
      have : i ≠ r.nextSrc := by omega
      simp [upd, this, h.fresh i (by omega)]
  · rw [if_neg q]
    refine ⟨_, 0 :: l, rfl, ⟨.cons ?_, List.nodup_cons.2 ⟨h0, h.nodup⟩, ?_, h.pos, ?_, ?_⟩, fun _ => by simp⟩
    · show Linked _ (upd r.prev 0 r.frame 0) l
      rw [show upd r.prev 0 r.frame 0 = r.frame from if_pos rfl]
      refine h.linked.mono fun a m => ?_
      simp [upd, hne a m]
    · intro a m
      rcases List.mem_cons.1 m with e | m
      · exact .inl e
      · exact h.live a m
    · intro _
      simp [upd]
    · intro i hi
      have hi' : r.nextSrc + 1 ≤ i := hi
      have : i ≠ r.nextSrc := by omega
      simp [upd, this, h.fresh i (by omega)]

/-- The number of failed compilations. -/
def bads (ops : List Op) : Nat := ops.count .bad

theorem good_runs : ∀ (ops : List Op) {r : RT} {l : List Nat}, Good r l →
    bads ops + (if 0 ∈ l then 1 else 0) ≤ 1 → ∃ r' l', runs r ops = .ok r' ∧ Good r' l'
  | [], r, l, h, _ => ⟨r, l, rfl, h⟩
  | o :: os, r, l, h, hb => by
    cases o with
    | call =>
      obtain ⟨l', h', he⟩ := good_push h
      have hb' : bads os + (if 0 ∈ l' then 1 else 0) ≤ 1 := by
        simp only [he]
        simpa [bads] using hb
      obtain ⟨r2, l2, e2, g2⟩ := good_runs os h' hb'
      exact ⟨r2, l2, e2, g2⟩
    | ret =>
      have hb0 : bads os + (if 0 ∈ l then 1 else 0) ≤ 1 := by simpa [bads] using hb
      cases hf : r.frame with
      | none =>
        obtain ⟨r2, l2, e2, g2⟩ := good_runs os h hb0
        refine ⟨r2, l2, ?_, g2⟩
        simp only [runs, Op.run, hf]
        exact e2
      | some a =>
        cases a with
        | zero =>
          obtain ⟨r2, l2, e2, g2⟩ := good_runs os h hb0
          refine ⟨r2, l2, ?_, g2⟩
          simp only [runs, Op.run, hf]
          exact e2
        | succ a =>
          obtain ⟨r1, e1, g1, hl⟩ := good_pop h hf
          have hb' : bads os + (if 0 ∈ l.tail then 1 else 0) ≤ 1 := by
            by_cases m : 0 ∈ l.tail
            · have : 0 ∈ l := by rw [hl]; exact List.mem_cons_of_mem _ m
              simp [m, this] at hb0 ⊢
              omega
            · simp [m]
              split at hb0 <;> omega
          obtain ⟨r2, l2, e2, g2⟩ := good_runs os g1 hb'
          refine ⟨r2, l2, ?_, g2⟩
          simp only [runs, Op.run, hf, e1]
          exact e2
    | bad =>
      have hc : bads (.bad :: os) = bads os + 1 := by simp [bads]
      rw [hc] at hb
      have h0 : 0 ∉ l := by
        intro m
        rw [if_pos m] at hb
        omega
      rw [if_neg h0] at hb
      obtain ⟨r1, l1, e1, g1, -⟩ := good_bad h h0
      by_cases m : 0 ∈ l1
      · have hz : bads os = 0 := by omega
        obtain ⟨r2, l2, e2, g2⟩ := good_runs os g1 (by rw [hz]; split <;> omega)
        refine ⟨r2, l2, ?_, g2⟩
        simp only [runs, Op.run, e1]
        exact e2
      · obtain ⟨r2, l2, e2, g2⟩ := good_runs os g1 (by rw [if_neg m]; omega)
        refine ⟨r2, l2, ?_, g2⟩
        simp only [runs, Op.run, e1]
        exact e2

theorem good_trace {r : RT} {L : List Nat} (h : Good r L) : ∀ {o : Option Nat} {l : List Nat}, Linked r o l →
    (∀ a ∈ l, a ∈ L) → traceFrom r l.length o = .ok l := by
  intro o l hl
  induction hl with
  | nil => intro _; rfl
  | cons hl ih =>
    rename_i a l
    intro hm
    show (do printFrame a r; let l ← traceFrom r l.length (r.prev a); Exec.ok (a :: l)) = _
    have hp : printFrame a r = .ok () := by
      unfold printFrame readFrame
      rcases h.live a (hm a (by simp)) with e | e
      · subst e
        have := (h.src (hm 0 (by simp))).1
        rw [if_pos (.inl rfl)]
        show (if _ then _ else _) = _
        rw [if_neg (by omega)]
      · rw [if_pos (.inr e.1)]
        show (if _ then _ else _) = _
        by_cases q : a = 0
        · subst q
          have := (h.src (hm 0 (by simp))).1
          rw [if_neg (by omega)]
        · rw [if_neg (by simp [q])]
    rw [hp, ih fun b m => hm b (by simp [m])]
    rfl

theorem good_free : ∀ (l : List Nat) {r : RT}, Good r l → ∃ r', free (l.length + 1) r = .ok r'
  | [], r, h => by
    have hl := h.linked
    cases hf : r.frame with
    | none => exact ⟨r, by simp [free, hf]⟩
    | some a => rw [hf] at hl; cases hl
  | a :: l, r, h => by
    have hl := h.linked
    cases hf : r.frame with
    | none => rw [hf] at hl; cases hl
    | some b =>
      obtain ⟨r1, e1, g1, hb⟩ := good_pop h hf
      obtain ⟨r2, e2⟩ := good_free l g1
      refine ⟨r2, ?_⟩
      show free (l.length + 1 + 1) r = _
      unfold free
      rw [hf]
      show (pop b r).bind (free (l.length + 1)) = _
      rw [e1]
      exact e2

/-- C39 holds as long as at most one compilation fails: the stack trace ends, with each frame once,
and so does freeing the runtime. -/
theorem C39_partial (ops : List Op) (h : bads ops ≤ 1) :
    ∃ r, runs new ops = .ok r ∧ (∃ l, trace l.length r = .ok l ∧ l.Nodup) ∧ (∃ fuel r', free fuel r = .ok r') := by
  obtain ⟨r, l, e, g⟩ := good_runs ops good_new (by simpa using h)
  exact ⟨r, e, ⟨l, good_trace g g.linked fun _ m => m, g.nodup⟩, _, good_free l g⟩

example : bads [.call, .call, .ret, .call, .bad, .call] ≤ 1 := by decide

/-! ## Lists that do not end -/

/-- The frames from `o` on lead to the failed frame, through frames that can be read. -/
inductive Leads (r : RT) : Option Nat → Prop
  | here : Leads r (some 0)
  | next {a} : r.live a = true → Leads r (r.prev a) → Leads r (some a)

/-- Once the list leads from the failed frame back to it, printing it never ends. -/
theorem trace_cycle {r : RT} (h0 : Leads r (r.prev 0)) (hs : 0 < r.refs r.src) :
    ∀ (fuel : Nat) (o : Option Nat), Leads r o → traceFrom r fuel o = .diverge := by
  intro fuel
  induction fuel with
  | zero => intro o h; cases h <;> rfl
  | succ n ih =>
    intro o h
    have step : ∀ a, (a = 0 ∨ r.live a = true) → Leads r (r.prev a) → traceFrom r (n + 1) (some a) = .diverge := by
      intro a ha hl
      show (do printFrame a r; let l ← traceFrom r n (r.prev a); Exec.ok (a :: l)) = _
      have hp : printFrame a r = .ok () := by
        unfold printFrame readFrame
        rw [if_pos ha]
        show (if _ then _ else _) = _
        rw [if_neg (by omega)]
      rw [hp, ih _ hl]
      rfl
    cases h with
    | here => exact step 0 (.inl rfl) h0
    | next hl h => exact step _ (.inr hl) h

theorem Linked.leads {r : RT} {o : Option Nat} {l : List Nat} (h : Linked r o l)
    (hl : ∀ a ∈ l, a = 0 ∨ (r.live a = true ∧ a < r.next)) (h0 : 0 ∈ l) : Leads r o := by
  induction h with
  | nil => cases h0
  | cons h ih =>
    rename_i a l
    by_cases q : a = 0
    · subst q; exact .here
    · have hm : 0 ∈ l := by
        rcases List.mem_cons.1 h0 with e | m
        · exact absurd e.symm q
        · exact m
      rcases hl a (by simp) with e | e
      · exact absurd e q
      · exact .next e.1 (ih (fun b m => hl b (by simp [m])) hm)

theorem Leads.mono {r r' : RT} {o : Option Nat} (h : Leads r o) (hp : ∀ a, a ≠ 0 → r'.prev a = r.prev a)
    (hl : r'.live = r.live) : Leads r' o := by
  induction h with
  | here => exact .here
  | next h1 _ ih =>
    rename_i a _
    by_cases q : a = 0
    · subst q; exact .here
    · exact .next (by rw [hl]; exact h1) (by rw [hp a q]; exact ih)

/-- Calls and returns keep the failed frame in the list. -/
theorem good_keeps : ∀ (ops : List Op) {r r' : RT} {l : List Nat}, Good r l → 0 ∈ l → Op.bad ∉ ops →
    runs r ops = .ok r' → ∃ l', Good r' l' ∧ 0 ∈ l'
  | [], r, r', l, h, h0, _, e => by
    cases e
    exact ⟨l, h, h0⟩
  | o :: os, r, r', l, h, h0, hb, e => by
    have hb' : Op.bad ∉ os := fun m => hb (List.mem_cons_of_mem _ m)
    cases o with
    | call =>
      obtain ⟨l1, g1, i1⟩ := good_push h
      exact good_keeps os g1 (i1.2 h0) hb' e
    | ret =>
      cases hf : r.frame with
      | none =>
        simp only [runs, Op.run, hf] at e
        exact good_keeps os h h0 hb' e
      | some a =>
        cases a with
        | zero =>
          simp only [runs, Op.run, hf] at e
          exact good_keeps os h h0 hb' e
        | succ a =>
          obtain ⟨r1, e1, g1, hl⟩ := good_pop h hf
          simp only [runs, Op.run, hf, e1] at e
          have : 0 ∈ l.tail := by
            rw [hl] at h0
            rcases List.mem_cons.1 h0 with e | m
            · omega
            · exact m
          exact good_keeps os g1 this hb' e
    | bad => exact absurd (by simp) hb

/-- If a second compilation fails on the same runtime, whatever ran before and between, the stack
trace never ends (with `MAX_FRAMES` frames already there, the second one is not recorded). -/
theorem C39_hangs (before between : List Op) (hb : bads before = 0) (hb' : bads between = 0)
    (r₁ r₂ r₃ r₄ : RT) (h₁ : runs new before = .ok r₁) (d₁ : r₁.depth < maxFrames)
    (h₂ : compileFails r₁ = .ok r₂) (h₃ : runs r₂ between = .ok r₃) (d₃ : r₃.depth < maxFrames)
    (h₄ : compileFails r₃ = .ok r₄) : ∀ fuel, trace fuel r₄ = .diverge := by
  obtain ⟨r, l, e, g⟩ := good_runs before good_new (by rw [hb]; simp)
  rw [h₁] at e
  cases e
  have h0 : 0 ∉ l := by
    intro m
    -- without a failed compilation the failed frame is not in the list
    have : ∀ (ops : List Op) {r r' : RT} {l : List Nat}, Good r l → 0 ∉ l → Op.bad ∉ ops →
        runs r ops = .ok r' → ∃ l', Good r' l' ∧ 0 ∉ l' := by
      intro ops
      induction ops with
      | nil =>
        intro r r' l g h0 _ e
        cases e
        exact ⟨l, g, h0⟩
      | cons o os ih =>
        intro r r' l g h0 hb e
        have hb' : Op.bad ∉ os := fun m => hb (List.mem_cons_of_mem _ m)
        cases o with
        | call =>
          obtain ⟨l1, g1, i1⟩ := good_push g
          exact ih g1 (fun m => h0 (i1.1 m)) hb' e
        | ret =>
          cases hf : r.frame with
          | none =>
            simp only [runs, Op.run, hf] at e
            exact ih g h0 hb' e
          | some a =>
            cases a with
            | zero =>
              simp only [runs, Op.run, hf] at e
              exact ih g h0 hb' e
            | succ a =>
              obtain ⟨r1, e1, g1, hl⟩ := good_pop g hf
              simp only [runs, Op.run, hf, e1] at e
              exact ih g1 (fun m => h0 (List.mem_of_mem_tail m)) hb' e
        | bad => exact absurd (by simp) hb
    obtain ⟨l', g', h0'⟩ := this before good_new (by simp) (List.count_eq_zero.1 hb) h₁
    have uniq : ∀ {o : Option Nat} {a b : List Nat}, Linked r₁ o a → Linked r₁ o b → a = b := by
      intro o a b ha
      induction ha generalizing b with
      | nil => intro hb; cases hb; rfl
      | cons _ ih => intro hb; cases hb with | cons hb => rw [ih hb]
    exact h0' (uniq g.linked g'.linked ▸ m)
  obtain ⟨r, l2, e, g2, i2⟩ := good_bad g h0
  rw [h₂] at e
  cases e
  obtain ⟨l3, g3, i3⟩ := good_keeps between g2 (i2 d₁) (List.count_eq_zero.1 hb') h₃
  have hl := g3.linked.leads g3.live i3
  rw [compileFails_eq, if_neg (by omega)] at h₄
  cases h₄
  intro fuel
  refine trace_cycle ?_ ?_ fuel _ .here
  · refine hl.mono (fun a ha => by simp [upd, ha]) rfl
  · simp [upd]

/-- Two files that do not compile. -/
def twice : RT :=
  match runs new [.bad, .bad] with
  | .ok r => r
  | _ => new

/-- C39 is violated: both frames are the one embedded in the runtime, which becomes its own
predecessor.  The stack trace does not end, and freeing the runtime releases the same source again. -/
theorem C39_violated : ¬ C39Statement ∧ (∀ fuel, trace fuel twice = .diverge) ∧ free 3 twice = .ub := by
  have hr : runs new [.bad, .bad] = .ok twice := rfl
  have ht : ∀ fuel, trace fuel twice = .diverge :=
    C39_hangs [] [] rfl rfl new _ _ twice rfl (by decide) rfl rfl (by decide) rfl
  refine ⟨fun h => ?_, ht, rfl⟩
  obtain ⟨⟨fuel, l, hl⟩, -⟩ := h _ _ hr
  rw [ht fuel] at hl
  cases hl

end Noja.VM.Failed
