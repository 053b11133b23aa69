import Verif.Exec
import Verif.CInt

/-!
# `src/lib/objects/o_buffer.c` and properties C14 (buffers), C18, C19, C20

A state holds all payloads ever allocated and all buffer objects ever created, in
order of creation; a buffer is named by its position (its handle).  Failure of the
payload's `malloc` is an input (`mem = false`).  Failure of `Heap_Malloc` after it
(which leaks the payload) is not modelled.
-/

namespace Noja.Buffer

/-! ## Model -/

/-- o_buffer.c:36-39 `Payload`, and how often `free` was called on it. -/
structure Payload where
  refs : Nat
  size : Nat
  body : List UInt8
  frees : Nat

/-- o_buffer.c:41-45 `BufferObject`; the payload pointer is the payload's index. -/
structure Buf where
  payload : Nat
  offset : Nat
  length : Nat

/-- All payloads and buffers so far. -/
structure State where
  pays : List Payload
  bufs : List Buf

/-- Dereferencing `buffer->payload`: `ub` if there is no such buffer or its payload has been
freed. -/
def deref (s : State) (b : Nat) : Exec (Buf × Payload) := do
  let buf ← rd s.bufs b
  let p ← rd s.pays buf.payload
  if p.frees = 0 then .ok (buf, p) else .ub

/-- o_buffer.c:91-116 `Object_NewBuffer`.  The block has `16 + size` bytes modulo 2^64
(line 96), so `memset` (105) leaves it if that sum wraps.  `err`: `malloc` failed. -/
def newBuffer (s : State) (size : Nat) (mem : Bool) : Exec State :=
  if mem = false then .err
  else if (16 + size) % 2 ^ 64 < 16 + size then .ub
  else .ok {
    pays := s.pays ++ [{ refs := 1, size := size, body := List.replicate size 0, frees := 0 }]
    bufs := s.bufs ++ [{ payload := s.pays.length, offset := 0, length := size }] }

/-- Overwriting `bytes.length` bytes of a payload from `at` on: `ub` if they do not fit. -/
def overwrite (body : List UInt8) (at_ : Nat) (bytes : List UInt8) : Exec (List UInt8) :=
  if at_ + bytes.length ≤ body.length then
    .ok (body.take at_ ++ bytes ++ body.drop (at_ + bytes.length))
  else .ub

/-- o_buffer.c:79-89 `Object_NewBufferFromString`. -/
def fromBytes (s : State) (bytes : List UInt8) (mem : Bool) : Exec State := do
  let s1 ← newBuffer s bytes.length mem
  let (buf, p) ← deref s1 s.bufs.length
  let body ← overwrite p.body buf.offset bytes
  .ok { s1 with pays := s1.pays.set buf.payload { p with body := body } }

/-- o_buffer.c:119-131 `buffer_free`. -/
def free (s : State) (b : Nat) : Exec State := do
  let (buf, p) ← deref s b
  let p := { p with refs := p.refs - 1 }
  let p := if p.refs = 0 then { p with frees := p.frees + 1 } else p
  .ok { s with pays := s.pays.set buf.payload p }

/-- o_buffer.c:133-163 `Object_SliceBuffer`; the arguments are `size_t`. -/
def slice (s : State) (b : Nat) (offset length : Nat) : Exec State := do
  let (buf, p) ← deref s b
  if p.size ≤ offset then .err
  else if p.size < (offset + length) % 2 ^ 64 then .err
  else .ok {
    pays := s.pays.set buf.payload { p with refs := p.refs + 1 }
    bufs := s.bufs ++ [{ payload := buf.payload, offset := offset, length := length }] }

/-- o_buffer.c:180-209 `buffer_select`; a key that is not an integer is `none`. -/
def select (s : State) (b : Nat) : (key : Option Int) → Exec UInt8
  | none => .err
  | some key => do
    let idx := toI32 key
    let buf ← rd s.bufs b
    if idx < 0 ∨ buf.length ≤ idx.toNat then .err
    else do
      let (buf, p) ← deref s b
      rd p.body ((buf.offset + idx.toNat) % 2 ^ 64)

/-- o_buffer.c:211-251 `buffer_insert`. -/
def insert (s : State) (b : Nat) (key val : Option Int) : Exec State :=
  match key, val with
  | none, _ => .err
  | some _, none => .err
  | some key, some qword => do
    let idx := toI32 key
    let buf ← rd s.bufs b
    if idx < 0 ∨ buf.length ≤ idx.toNat then .err
    else if qword > 255 ∨ qword < 0 then .err
    else do
      let (buf, p) ← deref s b
      let body ← overwrite p.body ((buf.offset + idx.toNat) % 2 ^ 64) [UInt8.ofNat qword.toNat]
      .ok { s with pays := s.pays.set buf.payload { p with body := body } }

/-- o_buffer.c:253-258 `buffer_count` (returns `int`). -/
def count (s : State) (b : Nat) : Exec Int := do
  let buf ← rd s.bufs b
  .ok (toI32 buf.length)

/-- What a program (or the collector, for `destroy`) does with buffers.  `b` is a handle. -/
inductive Op
  | new (n : Int) (mem : Bool)
  | ofBytes (bytes : List UInt8) (mem : Bool)
  | slice (b : Nat) (offset length : Int)
  | read (b : Nat) (key : Option Int)
  | write (b : Nat) (key val : Option Int)
  | count (b : Nat)
  | destroy (b : Nat)

/-- The buffer an operation is applied to. -/
def Op.handle : Op → Option Nat
  | .new _ _ => none
  | .ofBytes _ _ => none
  | .slice b _ _ => some b
  | .read b _ => some b
  | .write b _ _ => some b
  | .count b => some b
  | .destroy b => some b

/-- What is seen of an operation. -/
inductive Res
  | done
  | error
  | handle (b : Nat)
  | byte (v : UInt8)
  | number (n : Int)
deriving DecidableEq

/-- Turns an error into a result, the state being the one before: every function above reports
errors before its first store. -/
def report (s : State) (r : Exec State) (res : Res) : Exec (State × Res) :=
  match r with
  | .ok s' => .ok (s', res)
  | .err => .ok (s, .error)
  | .ub => .ub
  | .diverge => .diverge

/-- One operation.  builtins/buffer.c:7-27 `bin_new` and `bin_sliceUp` convert `long long` to
`size_t` without a check. -/
def step (s : State) : Op → Exec (State × Res)
  | .new n mem => report s (newBuffer s (toSize n) mem) (.handle s.bufs.length)
  | .ofBytes bytes mem => report s (fromBytes s bytes mem) (.handle s.bufs.length)
  | .slice b o n => report s (slice s b (toSize o) (toSize n)) (.handle s.bufs.length)
  | .read b key =>
    match select s b key with
    | .ok v => .ok (s, .byte v)
    | .err => .ok (s, .error)
    | .ub => .ub
    | .diverge => .diverge
  | .write b key val => report s (insert s b key val) .done
  | .count b => do
    let n ← count s b
    .ok (s, .number n)
  | .destroy b => report s (free s b) .done

/-- A history: the final state and what was seen. -/
def run : State → List Op → Exec (State × List Res)
  | s, [] => .ok (s, [])
  | s, o :: os => do
    let (s, r) ← step s o
    let (s, rs) ← run s os
    .ok (s, r :: rs)

/-- No buffers. -/
def start : State := ⟨[], []⟩

/-! ## Specification: byte regions and windows on them -/

/-- A buffer is a window on a region of bytes. `whole` tells it was not made by slicing; `live`
that it has not been destroyed. -/
structure Win where
  region : Nat
  start : Nat
  len : Nat
  whole : Bool
  live : Bool

/-- The regions and the windows. -/
structure Spec where
  regions : List (List UInt8)
  wins : List Win

namespace Spec

def empty : Spec := ⟨[], []⟩

/-- A new region with a window on all of it. -/
def add (a : Spec) (bytes : List UInt8) : Spec × Res :=
  (⟨a.regions ++ [bytes], a.wins ++ [⟨a.regions.length, 0, bytes.length, true, true⟩]⟩,
    .handle a.wins.length)

/-- One operation on window `w` (which has handle `b`). -/
def stepOn (a : Spec) (b : Nat) (w : Win) : Op → Spec × Res
  | .slice _ o n =>
    if 0 ≤ o ∧ 0 ≤ n ∧ o + n ≤ w.len then
      (⟨a.regions, a.wins ++ [⟨w.region, w.start + o.toNat, n.toNat, false, true⟩]⟩,
        .handle a.wins.length)
    else (a, .error)
  | .read _ (some i) =>
    if 0 ≤ i ∧ i < w.len then
      (a, .byte ((a.regions.getD w.region []).getD (w.start + i.toNat) 0))
    else (a, .error)
  | .write _ (some i) (some v) =>
    if 0 ≤ i ∧ i < w.len ∧ 0 ≤ v ∧ v ≤ 255 then
      (⟨a.regions.modify w.region (fun r => r.set (w.start + i.toNat) (UInt8.ofNat v.toNat)),
        a.wins⟩, .done)
    else (a, .error)
  | .count _ => (a, .number w.len)
  | .destroy _ => (⟨a.regions, a.wins.set b { w with live := false }⟩, .done)
  | _ => (a, .error)

/-- One operation; `none` if it uses a buffer that does not exist or has been destroyed. -/
def step (a : Spec) (o : Op) : Option (Spec × Res) :=
  match o with
  | .new n mem => some (if mem = true ∧ 0 ≤ n then a.add (List.replicate n.toNat 0) else (a, .error))
  | .ofBytes bytes mem => some (if mem = true then a.add bytes else (a, .error))
  | .slice b _ _ | .read b _ | .write b _ _ | .count b | .destroy b =>
    match a.wins[b]? with
    | some w => if w.live = true then some (a.stepOn b w o) else none
    | none => none

/-- A history; `none` if it uses a buffer that does not exist or has been destroyed. -/
def run : Spec → List Op → Option (Spec × List Res)
  | a, [] => some (a, [])
  | a, o :: os =>
    match step a o with
    | none => none
    | some (a, r) =>
      match run a os with
      | none => none
      | some (a, rs) => some (a, r :: rs)

end Spec

/-! ## Reference counts (C20) -/

/-- Which buffers are alive, by handle, with the payload each uses: read off the operations and
their results only. -/
inductive Reach : State → List Bool → Prop
  | start : Reach start []
  | step {s alive s' r} (o : Op) (h : Reach s alive)
      (hl : ∀ b, o.handle = some b → alive[b]? = some true)
      (e : step s o = .ok (s', r)) :
      Reach s' (match o, r with
        | .destroy b, _ => alive.set b false
        | _, .handle _ => alive ++ [true]
        | _, _ => alive)

/-- The number of live buffers using payload `p`. -/
def users (bufs : List Buf) (alive : List Bool) (p : Nat) : Nat :=
  (bufs.zip alive).countP (fun x => x.1.payload = p && x.2)

/-- The reference-count invariant. -/
structure Inv (s : State) (alive : List Bool) : Prop where
  len : s.bufs.length = alive.length
  pay : ∀ (b : Nat) (buf : Buf), s.bufs[b]? = some buf → buf.payload < s.pays.length
  refs : ∀ (p : Nat) (pl : Payload), s.pays[p]? = some pl →
    pl.refs = users s.bufs alive p ∧ pl.frees = if pl.refs = 0 then 1 else 0

theorem users_append (bufs : List Buf) (alive : List Bool) (h : bufs.length = alive.length)
    (b : Buf) (p : Nat) :
    users (bufs ++ [b]) (alive ++ [true]) p =
      users bufs alive p + if b.payload = p then 1 else 0 := by
  unfold users
  rw [List.zip_append h, List.countP_append]
  simp [List.countP_cons]

theorem zip_set_right {α β} : ∀ (l : List α) (m : List β) (i : Nat) (v : β) (a : α), l[i]? = some a →
    l.zip (m.set i v) = (l.zip m).set i (a, v) := by
  intro l
  induction l with
  | nil => intro m i v a h; simp at h
  | cons x l ih =>
    intro m i v a h
    cases m with
    | nil => simp
    | cons y m =>
      cases i with
      | zero => simp at h; simp [h]
      | succ i => simp at h; simp [ih m i v a h]

theorem zip_getElem? {α β} : ∀ (l : List α) (m : List β) (i : Nat) (a : α) (b : β), l[i]? = some a →
    m[i]? = some b → (l.zip m)[i]? = some (a, b) := by
  intro l m i a b h1 h2
  simp [List.getElem?_zip_eq_some, h1, h2]

theorem users_kill (bufs : List Buf) (alive : List Bool) (b : Nat) (buf : Buf) (p : Nat)
    (h1 : bufs[b]? = some buf) (h2 : alive[b]? = some true) :
    users bufs alive p = users bufs (alive.set b false) p + if buf.payload = p then 1 else 0 := by
  unfold users
  have hz := zip_getElem? bufs alive b buf true h1 h2
  rw [zip_set_right bufs alive b false buf h1]
  obtain ⟨hb, hz⟩ := List.getElem?_eq_some_iff.mp hz
  rw [List.countP_set (h := hb), hz]
  have : (bufs.zip alive)[b] ∈ bufs.zip alive := List.getElem_mem hb
  rw [hz] at this
  by_cases e : buf.payload = p
  · have : 0 < List.countP (fun x : Buf × Bool => decide (x.1.payload = p) && x.2) (bufs.zip alive) :=
      List.countP_pos_iff.mpr ⟨_, this, by simp [e]⟩
    simp [e]; omega
  · simp [e]

theorem users_pos (bufs : List Buf) (alive : List Bool) (b : Nat) (buf : Buf)
    (h1 : bufs[b]? = some buf) (h2 : alive[b]? = some true) : 0 < users bufs alive buf.payload := by
  rw [users_kill bufs alive b buf _ h1 h2]; simp

/-- Live buffers can be dereferenced. -/
theorem Inv.deref {s alive} (h : Inv s alive) {b : Nat} (hb : alive[b]? = some true) :
    ∃ buf p, s.bufs[b]? = some buf ∧ s.pays[buf.payload]? = some p ∧ p.frees = 0 ∧
      deref s b = .ok (buf, p) := by
  have hlt : b < s.bufs.length := by
    rw [h.len]; exact (List.getElem?_eq_some_iff.mp hb).1
  have e1 : s.bufs[b]? = some s.bufs[b] := List.getElem?_eq_getElem hlt
  have hp := h.pay b _ e1
  have e2 : s.pays[s.bufs[b].payload]? = some s.pays[s.bufs[b].payload] := List.getElem?_eq_getElem hp
  obtain ⟨r1, r2⟩ := h.refs _ _ e2
  have hu := users_pos s.bufs alive b _ e1 hb
  have hf : (s.pays[s.bufs[b].payload]).frees = 0 := by
    rw [r2, if_neg (by omega)]
  refine ⟨_, _, e1, e2, hf, ?_⟩
  unfold Buffer.deref
  rw [rd_ok_iff.mpr e1, Exec.bind_ok, rd_ok_iff.mpr e2, Exec.bind_ok, if_pos hf]

theorem inv_set_body {s alive} (h : Inv s alive) {i : Nat} {p : Payload} (hp : s.pays[i]? = some p)
    (body : List UInt8) : Inv { s with pays := s.pays.set i { p with body := body } } alive := by
  obtain ⟨h1, h2, h3⟩ := h
  refine ⟨h1, by simpa using h2, ?_⟩
  intro j pl hj
  by_cases e : i = j
  · subst e
    have := (List.getElem?_eq_some_iff.mp hp).1
    simp [this] at hj
    have := h3 i p hp
    rw [← hj]; exact this
  · simp [e] at hj
    exact h3 j pl hj

theorem inv_add {s alive} (h : Inv s alive) (size : Nat) (body : List UInt8) :
    Inv ⟨s.pays ++ [{ refs := 1, size := size, body := body, frees := 0 }],
      s.bufs ++ [{ payload := s.pays.length, offset := 0, length := size }]⟩ (alive ++ [true]) := by
  obtain ⟨h1, h2, h3⟩ := h
  refine ⟨by simp [h1], ?_, ?_⟩
  · intro b buf hb
    simp only [List.length_append, List.length_cons, List.length_nil] at *
    by_cases e : b < s.bufs.length
    · rw [List.getElem?_append_left e] at hb
      have := h2 b buf hb; omega
    · rw [List.getElem?_append_right (by omega)] at hb
      have : b - s.bufs.length = 0 := by
        rcases Nat.lt_or_ge (b - s.bufs.length) 1 with h | h
        · omega
        · rw [List.getElem?_eq_none (by simpa using h)] at hb; cases hb
      rw [this] at hb; simp at hb; subst hb; simp
  · intro p pl hp
    simp only at *
    rw [users_append _ _ h1]
    by_cases e : p < s.pays.length
    · rw [List.getElem?_append_left e] at hp
      simp only
      rw [if_neg (by omega)]
      exact h3 p pl hp
    · rw [List.getElem?_append_right (by omega)] at hp
      have hp0 : p = s.pays.length := by
        rcases Nat.lt_or_ge (p - s.pays.length) 1 with h | h
        · omega
        · rw [List.getElem?_eq_none (by simpa using h)] at hp; cases hp
      subst hp0
      simp at hp; subst hp
      simp only [if_true]
      have : users s.bufs alive s.pays.length = 0 := by
        unfold users
        rw [List.countP_eq_zero]
        intro x hx
        obtain ⟨b, hb, rfl⟩ := List.getElem_of_mem hx
        simp at hb
        have := h2 b s.bufs[b] (List.getElem?_eq_getElem (by omega))
        simp; intro h; omega
      simp [this]

theorem inv_slice {s alive} (h : Inv s alive) {b : Nat} {buf : Buf} {p : Payload}
    (hb : s.bufs[b]? = some buf) (hl : alive[b]? = some true)
    (hp : s.pays[buf.payload]? = some p) (o n : Nat) :
    Inv ⟨s.pays.set buf.payload { p with refs := p.refs + 1 },
      s.bufs ++ [{ payload := buf.payload, offset := o, length := n }]⟩ (alive ++ [true]) := by
  have hpos := users_pos s.bufs alive b buf hb hl
  obtain ⟨h1, h2, h3⟩ := h
  have hlt := (List.getElem?_eq_some_iff.mp hp).1
  refine ⟨by simp [h1], ?_, ?_⟩
  · intro c buf' hc
    simp only [List.length_set]
    by_cases e : c < s.bufs.length
    · simp only at hc
      rw [List.getElem?_append_left e] at hc
      exact h2 c buf' hc
    · simp only at hc
      rw [List.getElem?_append_right (by omega)] at hc
      have : c - s.bufs.length = 0 := by
        rcases Nat.lt_or_ge (c - s.bufs.length) 1 with h | h
        · omega
        · rw [List.getElem?_eq_none (by simpa using h)] at hc; cases hc
      rw [this] at hc; simp at hc; subst hc; exact hlt
  · intro q pl hq
    simp only at *
    rw [users_append _ _ h1]
    by_cases e : buf.payload = q
    · subst e
      simp [hlt] at hq
      subst hq
      have := h3 _ _ hp
      simp only [if_true]
      refine ⟨by omega, ?_⟩
      rw [this.2, if_neg (by omega), if_neg (by omega)]
    · simp [e] at hq
      simp only [if_neg e]
      exact h3 q pl hq

theorem inv_free {s alive} (h : Inv s alive) {b : Nat} {buf : Buf} {p : Payload}
    (hb : s.bufs[b]? = some buf) (hl : alive[b]? = some true)
    (hp : s.pays[buf.payload]? = some p) (pl' : Payload)
    (e1 : pl'.refs = p.refs - 1) (e2 : pl'.frees = if p.refs - 1 = 0 then 1 else 0) :
    Inv { s with pays := s.pays.set buf.payload pl' } (alive.set b false) := by
  obtain ⟨h1, h2, h3⟩ := h
  have hlt := (List.getElem?_eq_some_iff.mp hp).1
  refine ⟨by simp [h1], by simpa using h2, ?_⟩
  intro q pl hq
  simp only at *
  have hk := users_kill s.bufs alive b buf q hb hl
  by_cases e : buf.payload = q
  · subst e
    simp [hlt] at hq
    subst hq
    have := h3 _ _ hp
    simp only [if_true] at hk
    refine ⟨by omega, ?_⟩
    rw [e1, e2]
  · simp [e] at hq
    simp only [if_neg e] at hk
    have := h3 q pl hq
    rw [hk] at this
    exact this

theorem fromBytes_eq (s : State) (bytes : List UInt8)
    (hsz : ¬ (16 + bytes.length) % 2 ^ 64 < 16 + bytes.length) :
    fromBytes s bytes true = .ok
      ⟨s.pays ++ [{ refs := 1, size := bytes.length, body := bytes, frees := 0 }],
       s.bufs ++ [{ payload := s.pays.length, offset := 0, length := bytes.length }]⟩ := by
  unfold fromBytes newBuffer
  rw [if_neg (by simp), if_neg hsz]
  simp only [Exec.bind_ok, deref]
  simp [rd, overwrite]

theorem inv_reach {s alive} (r : Reach s alive) : Inv s alive := by
  induction r with
  | start => exact ⟨rfl, by simp [start], by simp [start]⟩
  | @step s alive s' r o h hl e ih =>
    cases o with
    | new n mem =>
      simp only [step, newBuffer] at e
      cases mem with
      | false => simp [report] at e; obtain ⟨rfl, rfl⟩ := e; exact ih
      | true =>
        rw [if_neg (by simp)] at e
        split at e
        · simp [report] at e
        · simp only [report, Exec.ok.injEq, Prod.mk.injEq] at e
          obtain ⟨rfl, rfl⟩ := e
          exact inv_add ih _ _
    | ofBytes bytes mem =>
      cases mem with
      | false => simp [step, fromBytes, newBuffer, report] at e; obtain ⟨rfl, rfl⟩ := e; exact ih
      | true =>
        by_cases hsz : (16 + bytes.length) % 2 ^ 64 < 16 + bytes.length
        · simp only [step, fromBytes, newBuffer, if_pos hsz] at e
          simp [report] at e
        · simp only [step, fromBytes_eq s bytes hsz, report, Exec.ok.injEq, Prod.mk.injEq] at e
          obtain ⟨rfl, rfl⟩ := e
          exact inv_add ih _ _
    | slice b o n =>
      have hb := hl b rfl
      obtain ⟨buf, p, h1, h2, h3, h4⟩ := ih.deref hb
      simp only [step, slice, h4, Exec.bind_ok] at e
      split at e
      · simp [report] at e; obtain ⟨rfl, rfl⟩ := e; exact ih
      · split at e
        · simp [report] at e; obtain ⟨rfl, rfl⟩ := e; exact ih
        · simp only [report, Exec.ok.injEq, Prod.mk.injEq] at e
          obtain ⟨rfl, rfl⟩ := e
          exact inv_slice ih h1 hb h2 _ _
    | read b key =>
      simp only [step] at e
      cases hs : select s b key with
      | ok v => rw [hs] at e; simp at e; obtain ⟨rfl, rfl⟩ := e; exact ih
      | err => rw [hs] at e; simp at e; obtain ⟨rfl, rfl⟩ := e; exact ih
      | ub => rw [hs] at e; simp at e
      | diverge => rw [hs] at e; simp at e
    | write b key val =>
      have hb := hl b rfl
      obtain ⟨buf, p, h1, h2, h3, h4⟩ := ih.deref hb
      simp only [step] at e
      cases hs : insert s b key val with
      | err => rw [hs] at e; simp [report] at e; obtain ⟨rfl, rfl⟩ := e; exact ih
      | ub => rw [hs] at e; simp [report] at e
      | diverge => rw [hs] at e; simp [report] at e
      | ok s1 =>
        rw [hs] at e; simp only [report, Exec.ok.injEq, Prod.mk.injEq] at e
        obtain ⟨rfl, rfl⟩ := e
        cases key with
        | none => simp [insert] at hs
        | some k =>
          cases val with
          | none => simp [insert] at hs
          | some v =>
            simp only [insert, rd_ok_iff.mpr h1, Exec.bind_ok, h4] at hs
            split at hs
            · cases hs
            · split at hs
              · cases hs
              · obtain ⟨body, hbody, hs⟩ := Exec.bind_eq_ok.mp hs
                cases hs
                exact inv_set_body ih h2 body
    | count b =>
      have hb := hl b rfl
      obtain ⟨buf, p, h1, h2, h3, h4⟩ := ih.deref hb
      simp only [step, count, rd_ok_iff.mpr h1, Exec.bind_ok, Exec.ok.injEq, Prod.mk.injEq] at e
      obtain ⟨rfl, rfl⟩ := e; exact ih
    | destroy b =>
      have hb := hl b rfl
      obtain ⟨buf, p, h1, h2, h3, h4⟩ := ih.deref hb
      simp only [step, free, h4, Exec.bind_ok, report, Exec.ok.injEq, Prod.mk.injEq] at e
      obtain ⟨rfl, rfl⟩ := e
      apply inv_free ih h1 hb h2
      · split <;> rfl
      · split <;> simp [h3]

/-- **C20**: after any history, the memory of payload `p` has been released exactly once if none
of the buffers using it is alive, and not at all otherwise. -/
theorem C20_freed_once {s alive} (r : Reach s alive) (p : Nat) (pl : Payload)
    (hp : s.pays[p]? = some pl) :
    ((∃ (b : Nat) (buf : Buf), s.bufs[b]? = some buf ∧ buf.payload = p ∧ alive[b]? = some true) →
      pl.frees = 0) ∧
    ((¬ ∃ (b : Nat) (buf : Buf), s.bufs[b]? = some buf ∧ buf.payload = p ∧ alive[b]? = some true) →
      pl.frees = 1) := by
  have h := inv_reach r
  obtain ⟨h1, h2⟩ := h.refs p pl hp
  rw [h2, h1]
  constructor
  · rintro ⟨b, buf, e1, e2, e3⟩
    have := users_pos s.bufs alive b buf e1 e3
    rw [e2] at this
    rw [if_neg (by omega)]
  · intro hn
    rw [if_pos]
    rcases Nat.eq_zero_or_pos (users s.bufs alive p) with hz | hz
    · exact hz
    · exfalso
      apply hn
      obtain ⟨x, hx, hx2⟩ := List.countP_pos_iff.mp hz
      obtain ⟨b, hb, rfl⟩ := List.getElem_of_mem hx
      simp at hb hx2
      refine ⟨b, _, List.getElem?_eq_getElem (by omega), hx2.1, ?_⟩
      rw [List.getElem?_eq_getElem (by omega), hx2.2]

/-- **C20**, the release happens at the destruction of the last user: destroying any other buffer
never touches freed memory and frees only memory whose last user it is. -/
theorem C20_destroy_safe {s alive} (r : Reach s alive) (b : Nat) (hb : alive[b]? = some true) :
    ∃ s', step s (.destroy b) = .ok (s', .done) := by
  obtain ⟨buf, p, h1, h2, h3, h4⟩ := (inv_reach r).deref hb
  simp only [step, free, h4, Exec.bind_ok, report]
  exact ⟨_, rfl⟩


/-- A history in which a slice outlives the buffer it was cut from. -/
example : ∃ s pl, Reach s [false, true] ∧ s.pays[0]? = some pl ∧ pl.frees = 0 ∧
    ∃ s' pl', Reach s' [false, false] ∧ s'.pays[0]? = some pl' ∧ pl'.frees = 1 := by
  have r := Reach.start
  have r := Reach.step (.new 4 true) r (by simp [Op.handle]) rfl
  have r := Reach.step (.slice 0 1 2) r (by simp [Op.handle]) rfl
  have r := Reach.step (.destroy 0) r (by simp [Op.handle]) rfl
  refine ⟨_, _, r, rfl, rfl, ?_⟩
  have r := Reach.step (.destroy 1) r (by simp [Op.handle]) rfl
  exact ⟨_, _, r, rfl, rfl⟩

end Noja.Buffer
