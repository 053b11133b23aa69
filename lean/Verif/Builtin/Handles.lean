import Verif.Gc.Destruct
import Verif.CInt

/-!
# Streams, directories and sockets (builtins/files.c, builtins/net.c, o_file.c, o_dir.c): C96

Streams and directories belong to objects whose finalizers close them (`Gc/Destruct.lean`); sockets are
numbers, which belong to the program once it has them.

Simplifications: arguments are of the right kind (C63 is about the others).  Whether the operating system
opens something, and whether the heap has room for an object, is part of the call. What the program does with
sockets it was given is not considered.
-/

set_option linter.unusedVariables false
set_option linter.unusedSimpArgs false

namespace Noja.Handles

open Gc (HS Obj Op)

/-! ## Model -/

/-- Handles are numbered in the order in which they are opened.  `owner` says which handle is in the object
of an allocation, `closed` are those closed by builtins, `given` those returned as numbers. -/
structure St where
  heap : HS
  next : Nat
  owner : Nat → Option Nat
  closed : List Nat
  given : List Nat

/-- What happens. -/
inductive Call where
  /-- anything else on the heap -/
  | heap (p : Op)
  /-- `mode` is the argument; `os`: `fopen` succeeds; `room`: `Heap_Malloc` does -/
  | openFile (mode : Int) (os room : Bool)
  | openDir (os room : Bool)
  /-- `reuse` is the argument; `opt`: `setsockopt` succeeds -/
  | socket (reuse os opt room : Bool)
  | accept (os room : Bool)

/-- `Object_FromStream` (o_file.c:70-80), `Object_FromDIR` (o_dir.c:58-68): the handle opened last is in the new object. -/
def wrap (o : Nat → Obj) (s : St) : Exec St := do
  let h ← Gc.op (.alloc (o s.next) []) s.heap
  .ok { s with
    heap := h
    owner := fun n => if n = s.heap.num then some s.next else s.owner n
    next := s.next + 1 }

/-- files.c:42-101 `bin_openFile`: the mode is an `int`, and `mode2` is null for those that are not listed. -/
def openFile (mode : Int) (os room : Bool) (s : St) : Exec St :=
  if toI32 mode = 0 ∨ toI32 mode = 1 ∨ toI32 mode = 2 ∨ toI32 mode = 3 then
    if os then
      if room then wrap .file s else .ok { s with next := s.next + 1 }
    else .ok s
  else .ub

/-- files.c:175-208 `bin_openDir`. -/
def openDir (os room : Bool) (s : St) : Exec St :=
  if os then
    if room then wrap .dir s else .ok { s with next := s.next + 1, closed := s.closed ++ [s.next] }
  else .ok s

/-- net.c:10-34 `bin_socket`. -/
def socket (reuse os opt room : Bool) (s : St) : Exec St :=
  if os then
    if reuse && !opt then .ok { s with next := s.next + 1 }
    else if room then .ok { s with next := s.next + 1, given := s.given ++ [s.next] }
    else .ok { s with next := s.next + 1 }
  else .ok s

/-- net.c:154-174 `bin_accept`. -/
def accept (os room : Bool) (s : St) : Exec St :=
  if os then
    if room then .ok { s with next := s.next + 1, given := s.given ++ [s.next] }
    else .ok { s with next := s.next + 1 }
  else .ok s

def call : Call → St → Exec St
  | .heap p, s => (Gc.op p s.heap).bind fun h => .ok { s with heap := h }
  | .openFile mode os room, s => openFile mode os room s
  | .openDir os room, s => openDir os room s
  | .socket reuse os opt room, s => socket reuse os opt room s
  | .accept os room, s => accept os room s

def calls : List Call → St → Exec St
  | [], s => .ok s
  | c :: cs, s => (call c s).bind (calls cs)

def start : St := ⟨Gc.empty, 0, fun _ => none, [], []⟩

/-- What has been closed when the heap is gone (o_file.c:82-90, o_dir.c:83-91: the finalizers close). -/
def closedInTheEnd (s : St) : List Nat := s.closed ++ (Gc.freeHeap s.heap).filterMap s.owner

/-! ## C96 -/

/-- **C96**: files can be opened whatever the mode, and every handle that is opened is closed once in the end or was given to the
program.  (Collections that fail are C27.) -/
def C96Statement : Prop :=
  (∀ (mode : Int) (os room : Bool) (s : St), openFile mode os room s ≠ .ub) ∧
  ∀ (cs : List Call) (s : St), calls cs start = .ok s → s.heap.bad = false → (closedInTheEnd s ++ s.given).Perm (List.range s.next)

/-- The modes of files.c:36-40 and their combinations. -/
def Call.listed : Call → Prop
  | .openFile mode _ _ => 0 ≤ toI32 mode ∧ toI32 mode ≤ 3
  | _ => True

/-- No handle is lost because of a failure after it was opened. -/
def Call.smooth : Call → Prop
  | .openFile _ os room => os = true → room = true
  | .socket reuse os opt room => os = true → (reuse = true → opt = true) ∧ room = true
  | .accept os room => os = true → room = true
  | _ => True

structure Inv (s : St) : Prop where
  fresh : ∀ n, s.heap.num ≤ n → s.owner n = none
  old : ∀ n ∈ Gc.freeHeap s.heap, n < s.heap.num
  all : (closedInTheEnd s ++ s.given).Perm (List.range s.next)

theorem start_inv : Inv start := ⟨fun _ _ => rfl, nofun, List.Perm.refl _⟩

theorem filterMap_same {f g : Nat → Option Nat} : ∀ {l : List Nat}, (∀ n ∈ l, f n = g n) → l.filterMap f = l.filterMap g
  | [], _ => rfl
  | n :: l, h => by
    rw [List.filterMap_cons, List.filterMap_cons, h n (List.mem_cons_self ..), filterMap_same fun m q => h m (List.mem_cons_of_mem _ q)]

/-- The finalizers still to run and those that have run, after an allocation. -/
theorem freeHeap_alloc {o : Obj} {rooms : List Nat} {s s' : HS} (h : Gc.op (.alloc o rooms) s = .ok s') :
    s'.num = s.num + 1 ∧ Gc.freeHeap s' = Gc.freeHeap s ++ (if o.finalizer then [s.num] else []) := by
  cases h
  refine ⟨rfl, ?_⟩
  by_cases hf : o.finalizer = true
  · simp [Gc.freeHeap, hf]
  · simp [Gc.freeHeap, hf]

theorem op_bad {p : Op} {s s' : HS} (h : Gc.op p s = .ok s') (hb : s'.bad = false) : s.bad = false := by
  cases p with
  | alloc => cases h; exact hb
  | write => cases h; exact hb
  | gc size roots rooms errs =>
    have h : (if s.bad then Exec.ok s else Gc.gc size roots rooms errs s) = .ok s' := h
    by_cases q : s.bad = true
    · rw [if_pos q] at h
      cases h
      exact hb
    · exact Bool.not_eq_true _ ▸ q

/-- Anything on the heap keeps the finalizers, but for those of new objects. -/
theorem op_free {p : Op} {s s' : HS} (h : Gc.op p s = .ok s') (hb : s'.bad = false) :
    s.num ≤ s'.num ∧ ∃ new, (Gc.freeHeap s').Perm (Gc.freeHeap s ++ new) ∧ ∀ n ∈ new, s.num ≤ n ∧ n < s'.num := by
  cases p with
  | alloc o rooms =>
    obtain ⟨h1, h2⟩ := freeHeap_alloc h
    refine ⟨by omega, _, by rw [h2], ?_⟩
    intro n hn
    by_cases hf : o.finalizer = true
    · rw [if_pos hf, List.mem_singleton] at hn
      omega
    · rw [if_neg hf] at hn
      cases hn
  | write => cases h; exact ⟨Nat.le_refl _, [], by simp [Gc.freeHeap], nofun⟩
  | gc size roots rooms errs =>
    have hs := op_bad h hb
    have h : (if s.bad then Exec.ok s else Gc.gc size roots rooms errs s) = .ok s' := h
    rw [hs, if_neg (by simp)] at h
    obtain ⟨h1, h2, h3⟩ := Gc.gc_perm h hb
    exact ⟨by omega, [], by rw [List.append_nil]; exact h1, nofun⟩

theorem heap_inv {p : Op} {s : St} {h : HS} (hi : Inv s) (e : Gc.op p s.heap = .ok h) (hb : h.bad = false) : Inv { s with heap := h } := by
  obtain ⟨h1, new, h2, h3⟩ := op_free e hb
  have hnew : new.filterMap s.owner = [] := by
    rw [List.filterMap_eq_nil_iff]
    intro n hn
    exact hi.fresh n (h3 n hn).1
  refine ⟨fun n hn => hi.fresh n (Nat.le_trans h1 hn), fun n hn => ?_, ?_⟩
  · rcases List.mem_append.1 (h2.mem_iff.1 hn) with q | q
    · exact Nat.lt_of_lt_of_le (hi.old n q) h1
    · exact (h3 n q).2
  · refine List.Perm.trans ?_ hi.all
    refine List.Perm.append_right _ (List.Perm.append_left _ ?_)
    have := h2.filterMap s.owner
    rw [List.filterMap_append, hnew, List.append_nil] at this
    exact this

/-- One more handle. -/
theorem range_perm {l : List Nat} {n : Nat} (h : l.Perm (List.range n)) {l' : List Nat} (h' : l'.Perm (l ++ [n])) : l'.Perm (List.range (n + 1)) := by
  rw [List.range_succ]
  exact h'.trans (h.append_right _)

theorem wrap_inv {o : Nat → Obj} (ho : ∀ n, (o n).finalizer = true) {s : St} (hi : Inv s) : ∃ s', wrap o s = .ok s' ∧ Inv s' ∧ s'.heap.bad = s.heap.bad := by
  refine ⟨_, rfl, ⟨fun n hn => ?_, fun n hn => ?_, ?_⟩, rfl⟩
  · have hn : s.heap.num + 1 ≤ n := hn
    show (if n = s.heap.num then some s.next else s.owner n) = none
    rw [if_neg (by omega)]
    exact hi.fresh n (by omega)
  · obtain ⟨h1, h2⟩ := freeHeap_alloc (o := o s.next) (rooms := []) (s := s.heap) rfl
    rw [h2, if_pos (ho _)] at hn
    show n < s.heap.num + 1
    rcases List.mem_append.1 hn with q | q
    · exact Nat.lt_succ_of_lt (hi.old n q)
    · rw [List.mem_singleton.1 q]
      exact Nat.lt_succ_self _
  · obtain ⟨h1, h2⟩ := freeHeap_alloc (o := o s.next) (rooms := []) (s := s.heap) rfl
    refine range_perm hi.all ?_
    unfold closedInTheEnd
    dsimp only
    rw [h2, if_pos (ho _), List.filterMap_append, filterMap_same (g := s.owner) fun n hn => if_neg (Nat.ne_of_lt (hi.old n hn)),
      List.filterMap_cons, if_pos rfl, List.filterMap_nil, List.append_assoc, List.append_assoc, List.append_assoc, List.append_assoc]
    exact List.Perm.append_left _ (List.Perm.append_left _ List.perm_append_comm)

theorem call_inv {c : Call} {s s' : St} (hi : Inv s) (hs : c.smooth) (e : call c s = .ok s') (hb : s'.heap.bad = false) : Inv s' ∧ s.heap.bad = false := by
  have more : ∀ {t : St}, t.heap = s.heap → t.owner = s.owner → t.next = s.next + 1 →
      (t.closed = s.closed ++ [s.next] ∧ t.given = s.given ∨ t.closed = s.closed ∧ t.given = s.given ++ [s.next]) → Inv t := by
    intro t h1 h2 h3 h4
    refine ⟨by rw [h1, h2]; exact hi.fresh, by rw [h1]; exact hi.old, ?_⟩
    rw [h3]
    refine range_perm hi.all ?_
    unfold closedInTheEnd
    rw [h1, h2]
    rcases h4 with ⟨h4, h5⟩ | ⟨h4, h5⟩
    · rw [h4, h5, List.append_assoc, List.append_assoc, List.append_assoc, List.append_assoc]
      refine List.Perm.append_left _ ?_
      have := List.perm_append_comm (l₁ := [s.next]) (l₂ := (Gc.freeHeap s.heap).filterMap s.owner ++ s.given)
      rw [List.append_assoc ((Gc.freeHeap s.heap).filterMap s.owner)] at this
      exact this
    · rw [h4, h5, List.append_assoc, List.append_assoc]
      simp
  cases c with
  | heap p =>
    replace e : (Gc.op p s.heap).bind (fun h => .ok { s with heap := h }) = .ok s' := e
    cases q : Gc.op p s.heap with
    | ok h =>
      rw [q] at e
      cases e
      exact ⟨heap_inv hi q hb, op_bad q hb⟩
    | err => rw [q] at e; cases e
    | ub => rw [q] at e; cases e
    | diverge => rw [q] at e; cases e
  | openFile mode os room =>
    replace e : openFile mode os room s = .ok s' := e
    unfold openFile at e
    by_cases hm : toI32 mode = 0 ∨ toI32 mode = 1 ∨ toI32 mode = 2 ∨ toI32 mode = 3
    · rw [if_pos hm] at e
      cases os with
      | false => cases e; exact ⟨hi, hb⟩
      | true =>
        rw [hs rfl] at e
        obtain ⟨t, h1, h2, h3⟩ := wrap_inv (o := .file) (fun _ => rfl) hi
        rw [if_pos rfl, if_pos rfl, h1] at e
        cases e
        exact ⟨h2, h3.symm.trans hb⟩
    · rw [if_neg hm] at e
      cases e
  | openDir os room =>
    replace e : openDir os room s = .ok s' := e
    unfold openDir at e
    cases os with
    | false => cases e; exact ⟨hi, hb⟩
    | true =>
      cases room with
      | true =>
        obtain ⟨t, h1, h2, h3⟩ := wrap_inv (o := .dir) (fun _ => rfl) hi
        rw [if_pos rfl, if_pos rfl, h1] at e
        cases e
        exact ⟨h2, h3.symm.trans hb⟩
      | false => cases e; exact ⟨more rfl rfl rfl (.inl ⟨rfl, rfl⟩), hb⟩
  | socket reuse os opt room =>
    replace e : socket reuse os opt room s = .ok s' := e
    unfold socket at e
    cases os with
    | false => cases e; exact ⟨hi, hb⟩
    | true =>
      obtain ⟨h1, h2⟩ := hs rfl
      have h3 : (reuse && !opt) = false := by
        cases reuse with
        | false => rfl
        | true => rw [h1 rfl]; rfl
      rw [h3, h2] at e
      cases e
      exact ⟨more rfl rfl rfl (.inr ⟨rfl, rfl⟩), hb⟩
  | accept os room =>
    replace e : accept os room s = .ok s' := e
    unfold accept at e
    cases os with
    | false => cases e; exact ⟨hi, hb⟩
    | true =>
      rw [hs rfl] at e
      cases e
      exact ⟨more rfl rfl rfl (.inr ⟨rfl, rfl⟩), hb⟩

theorem calls_inv : ∀ {cs : List Call} {s s' : St}, (∀ c ∈ cs, c.smooth) → calls cs s = .ok s' → s'.heap.bad = false →
    (Inv s → Inv s') ∧ s.heap.bad = false
  | [], s, s', _, e, hb => by cases e; exact ⟨id, hb⟩
  | c :: cs, s, s', hs, e, hb => by
    unfold calls at e
    cases q : call c s with
    | ok t =>
      rw [q] at e
      obtain ⟨h1, h2⟩ := calls_inv (fun d hd => hs d (List.mem_cons_of_mem _ hd)) e hb
      refine ⟨fun hi => h1 (call_inv hi (hs c (List.mem_cons_self ..)) q h2).1, ?_⟩
      cases c with
      | heap p =>
        replace q : (Gc.op p s.heap).bind (fun h => .ok { s with heap := h }) = .ok t := q
        cases r : Gc.op p s.heap with
        | ok h => rw [r] at q; cases q; exact op_bad r h2
        | err => rw [r] at q; cases q
        | ub => rw [r] at q; cases q
        | diverge => rw [r] at q; cases q
      | openFile mode os room =>
        replace q : openFile mode os room s = .ok t := q
        unfold openFile at q
        by_cases hm : toI32 mode = 0 ∨ toI32 mode = 1 ∨ toI32 mode = 2 ∨ toI32 mode = 3
        · rw [if_pos hm] at q
          cases os <;> cases room <;> cases q <;> exact h2
        · rw [if_neg hm] at q
          cases q
      | openDir os room => cases os <;> cases room <;> cases q <;> exact h2
      | socket reuse os opt room => cases reuse <;> cases os <;> cases opt <;> cases room <;> cases q <;> exact h2
      | accept os room => cases os <;> cases room <;> cases q <;> exact h2
    | err => rw [q] at e; cases e
    | ub => rw [q] at e; cases e
    | diverge => rw [q] at e; cases e

/-- **C96, partial**: every handle is closed once in the end or was given to the program, if all collections succeed and nothing
fails after a stream or socket was opened.  (`C96_violated`: otherwise it is lost; directories are not.) -/
theorem C96_partial (cs : List Call) (hs : ∀ c ∈ cs, c.smooth) (s : St) (h : calls cs start = .ok s) (hb : s.heap.bad = false) :
    (closedInTheEnd s ++ s.given).Perm (List.range s.next) :=
  ((calls_inv hs h hb).1 start_inv).all

/-- The calls themselves are defined exactly for the modes that are listed. -/
theorem C96_mode (mode : Int) (os room : Bool) (s : St) : (∃ s', openFile mode os room s = .ok s') ↔ (Call.openFile mode os room).listed := by
  unfold openFile Call.listed
  by_cases hm : toI32 mode = 0 ∨ toI32 mode = 1 ∨ toI32 mode = 2 ∨ toI32 mode = 3
  · rw [if_pos hm]
    refine ⟨fun _ => by omega, fun _ => ?_⟩
    cases os with
    | false => exact ⟨_, rfl⟩
    | true => cases room <;> exact ⟨_, rfl⟩
  · rw [if_neg hm]
    refine ⟨fun q => ?_, fun q => absurd q ?_⟩
    · obtain ⟨_, q⟩ := q
      cases q
    · omega

/-- The operating system opens something. -/
def Call.opens : Call → Bool
  | .heap _ => false
  | .openFile _ os _ => os
  | .openDir os _ => os
  | .socket _ os _ _ => os
  | .accept os _ => os

theorem call_next {c : Call} {s s' : St} (e : call c s = .ok s') : s'.next = s.next + c.opens.toNat := by
  cases c with
  | heap p =>
    replace e : (Gc.op p s.heap).bind (fun h => .ok { s with heap := h }) = .ok s' := e
    cases q : Gc.op p s.heap with
    | ok h => rw [q] at e; cases e; rfl
    | err => rw [q] at e; cases e
    | ub => rw [q] at e; cases e
    | diverge => rw [q] at e; cases e
  | openFile mode os room =>
    replace e : openFile mode os room s = .ok s' := e
    unfold openFile at e
    by_cases hm : toI32 mode = 0 ∨ toI32 mode = 1 ∨ toI32 mode = 2 ∨ toI32 mode = 3
    · rw [if_pos hm] at e
      cases os <;> cases room <;> cases e <;> rfl
    · rw [if_neg hm] at e
      cases e
  | openDir os room => cases os <;> cases room <;> cases e <;> rfl
  | socket reuse os opt room => cases reuse <;> cases os <;> cases opt <;> cases room <;> cases e <;> rfl
  | accept os room => cases os <;> cases room <;> cases e <;> rfl

theorem calls_next : ∀ {cs : List Call} {s s' : St}, calls cs s = .ok s' → s'.next = s.next + cs.countP Call.opens
  | [], s, s', e => by cases e; rfl
  | c :: cs, s, s', e => by
    unfold calls at e
    cases q : call c s with
    | ok t =>
      rw [q] at e
      have h1 := call_next q
      have h2 := calls_next e
      rw [List.countP_cons]
      cases h : c.opens <;> rw [h] at h1 <;> simp at h1 ⊢ <;> omega
    | err => rw [q] at e; cases e
    | ub => rw [q] at e; cases e
    | diverge => rw [q] at e; cases e

/-- C96: the handles accounted for are as many as were opened, whether or not something failed after that. -/
theorem C96_opened (cs : List Call) (s : St) (h : calls cs start = .ok s) : s.next = cs.countP Call.opens := by
  rw [calls_next h]
  exact Nat.zero_add _

theorem not_lost {s : St} (h : (closedInTheEnd s ++ s.given).Perm (List.range s.next)) (h1 : closedInTheEnd s = []) (h2 : s.given = []) : s.next = 0 := by
  have := h.length_eq
  rw [h1, h2, List.length_range] at this
  exact this.symm

/-- C96 does not hold: a stream is lost if there is no room for its object. -/
theorem C96_violated : ¬ C96Statement := fun h =>
  absurd (not_lost (h.2 [.openFile 0 true false] ⟨Gc.empty, 1, fun _ => none, [], []⟩ rfl rfl) rfl rfl) (by decide)

/-- … a socket if its option cannot be set … -/
theorem C96_violated_socket : ¬ C96Statement := fun h =>
  absurd (not_lost (h.2 [.socket true true false true] ⟨Gc.empty, 1, fun _ => none, [], []⟩ rfl rfl) rfl rfl) (by decide)

/-- … and other modes are undefined. -/
theorem C96_violated_mode : ¬ C96Statement := fun h => h.1 4 true true start rfl

/-- A file and a directory, of which the first is collected, another directory without room for its object, and a socket. -/
example : ∃ s, calls [.openFile 1 true true, .openDir true true, .heap (.gc 400 [some (.old 1)] [] fun _ => false), .openDir true false,
      .socket true true true true] start = .ok s ∧ s.heap.bad = false ∧ closedInTheEnd s = [2, 0, 1] ∧ s.given = [3] ∧ s.next = 4 :=
  ⟨_, rfl, rfl, rfl, rfl, rfl⟩

end Noja.Handles
