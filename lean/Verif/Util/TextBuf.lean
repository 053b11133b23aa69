import Verif.Exec

/-!
# The text of a diagram (C100)

compiler/graphviz.c:54-182, 524-544: the two growing buffers the diagram of `--diagram-ast` is written
to, and how they become one string.  `VM/Diagram.lean` says which lines are written; here they are any
texts.

A buffer is its block of memory, byte by byte (`none`: never written).  `room` is the size of the largest
block the system hands out; asking for more fails.  What `vsnprintf` makes of the format and the
arguments is a parameter (`t`), how it stores it is modelled.
-/

set_option linter.unusedVariables false

namespace Noja.TextBuf

/-! ## Model -/

/-- graphviz.c:54-58 `Buffer`; `size` is the length of `mem`, `data` is NULL when it is 0. -/
structure Buf where
  mem : List (Option UInt8)
  used : Nat
  deriving DecidableEq, Repr

/-- graphviz.c:65-70 -/
def Buf.init : Buf := ⟨[], 0⟩

/-- Arithmetic of `size_t`. -/
def sz (n : Nat) : Nat := n % 2 ^ 64

/-- graphviz.c:90-113 `Buffer_EnsureFreeSpace` -/
def ensure (room : Nat) (b : Buf) (num : Nat) : Exec Buf :=
  if sz (b.used + num) > b.mem.length then
    let new := sz (b.mem.length * 2)
    let new := if new < sz (b.mem.length + num) then sz (b.mem.length + num) else new
    if new ≤ room then .ok { b with mem := b.mem.take new ++ List.replicate (new - b.mem.length) none }
    else .err
  else .ok b

/-- Stores bytes; outside the block is `ub`. -/
def store (mem : List (Option UInt8)) (off : Nat) (bs : List UInt8) : Exec (List (Option UInt8)) :=
  if off + bs.length ≤ mem.length then .ok (mem.take off ++ bs.map some ++ mem.drop (off + bs.length))
  else .ub

/-- `vsnprintf(mem + off, n, …)` of the text `t`: cut to `n - 1` bytes and ended by a zero. -/
def vsnprintf (mem : List (Option UInt8)) (off n : Nat) (t : List UInt8) : Exec (List (Option UInt8)) :=
  if n = 0 then .ok mem else store mem off (t.take (n - 1) ++ [0])

/-- graphviz.c:115-137 `Buffer_VAppendF`.  A text longer than INT_MAX makes `vsnprintf` fail; with one
of just that length `required+1` overflows. -/
def append (room : Nat) (b : Buf) (t : List UInt8) : Exec Buf :=
  if t.length > 2147483647 then .err
  else if t.length = 2147483647 then .ub
  else do
    let b ← ensure room b (t.length + 1)
    let mem ← vsnprintf b.mem b.used (b.mem.length - b.used) t
    .ok ⟨mem, sz (b.used + t.length)⟩

/-- graphviz.c:60-63 `GraphViz`; `failed` is `error->occurred`. -/
structure GV where
  failed : Bool
  head : Buf
  body : Buf
  deriving DecidableEq, Repr

/-- graphviz.c:77-83 -/
def GV.init : GV := ⟨false, .init, .init⟩

/-- A line for the head or the body. -/
inductive Line where
  | head (t : List UInt8)
  | body (t : List UInt8)
  deriving DecidableEq, Repr

/-- graphviz.c:139-159 `GraphViz_AppendHead`, `GraphViz_AppendBody` -/
def write (room : Nat) (g : GV) : Line → Exec GV
  | .head t =>
    if g.failed then .ok g
    else match append room g.head t with
      | .ok b => .ok { g with head := b }
      | .err => .ok { g with failed := true }
      | .ub => .ub
      | .diverge => .diverge
  | .body t =>
    if g.failed then .ok g
    else match append room g.body t with
      | .ok b => .ok { g with body := b }
      | .err => .ok { g with failed := true }
      | .ub => .ub
      | .diverge => .diverge

def writeAll (room : Nat) (g : GV) : List Line → Exec GV
  | [] => .ok g
  | l :: ls => do
    let g ← write room g l
    writeAll room g ls

/-- Reads `n` bytes for `memcpy`.  Of NULL it is undefined even for no bytes; unwritten bytes are
counted as undefined. -/
def load (b : Buf) (n : Nat) : Exec (List UInt8) :=
  if b.mem = [] then .ub
  else if n ≤ b.mem.length then
    match (b.mem.take n).mapM id with
    | some bs => .ok bs
    | none => .ub
  else .ub

/-- graphviz.c:161-182 `GraphViz_Complete`: the string with its final zero, and `*len`. -/
def complete (room : Nat) (g : GV) : Exec (List UInt8 × Nat) :=
  if g.failed then .err
  else
    let len := sz (g.head.used + g.body.used)
    if sz (len + 1) ≤ room then do
      let h ← load g.head g.head.used
      let b ← load g.body g.body.used
      if h.length + b.length ≤ len then .ok (h ++ b ++ [0], len) else .ub
    else .err

def bytes (s : String) : List UInt8 := s.toList.map fun c => UInt8.ofNat c.toNat

/-- graphviz.c:524-544 `graphviz`; `ls` is what `nodeToGraphViz` writes. -/
def graphviz (room : Nat) (ls : List Line) : Exec (List UInt8 × Nat) := do
  let g ← write room .init (.head (bytes "digraph G {\n"))
  let g ← writeAll room g ls
  let g ← write room g (.head (bytes "\n"))
  let g ← write room g (.body (bytes "}\n"))
  complete room g

/-! ## Specification -/

def Line.text : Line → List UInt8
  | .head t => t
  | .body t => t

/-- The lines of the head, in order. -/
def heads (ls : List Line) : List UInt8 := (ls.map fun | .head t => t | .body _ => []).flatten

def bodies (ls : List Line) : List UInt8 := (ls.map fun | .head _ => [] | .body t => t).flatten

/-- The text of a diagram: all the labels, then all the arrows. -/
def wanted (ls : List Line) : List UInt8 :=
  bytes "digraph G {\n" ++ heads ls ++ bytes "\n" ++ bodies ls ++ bytes "}\n"

/-! ## Proof -/

/-- The buffer holds the text `t`. -/
structure Holds (room : Nat) (b : Buf) (t : List UInt8) : Prop where
  used : b.used = t.length
  size : b.mem.length ≤ room
  data : b.mem.take t.length = t.map some
  fits : t.length ≤ b.mem.length
  tight : b.mem.length ≤ 2 * (t.length + 1)

theorem holds_init (room : Nat) : Holds room .init [] := ⟨rfl, Nat.zero_le _, rfl, Nat.le_refl _, Nat.zero_le _⟩

theorem sz_lt {n : Nat} (h : n < 2 ^ 64) : sz n = n := Nat.mod_eq_of_lt h

theorem ensure_holds (room : Nat) (hr : room < 2 ^ 63) (b : Buf) (t : List UInt8) (h : Holds room b t)
    (num : Nat) (hn : num ≤ 2147483647) (h1 : 1 ≤ num) :
    (∃ b', ensure room b num = .ok b' ∧ b'.used = t.length ∧ b'.mem.length ≤ room ∧
      b'.mem.take t.length = t.map some ∧ t.length + num ≤ b'.mem.length ∧
      b'.mem.length ≤ 2 * (t.length + num)) ∨
    (ensure room b num = .err ∧ room < 2 * (t.length + num)) := by
  obtain ⟨hu, hs, hd, hf, ht⟩ := h
  obtain ⟨mem, used⟩ := b
  dsimp only at hu hs hd hf ht
  subst hu
  unfold ensure
  dsimp only
  rw [sz_lt (n := t.length + num) (by omega), sz_lt (n := mem.length * 2) (by omega),
    sz_lt (n := mem.length + num) (by omega)]
  by_cases c : t.length + num > mem.length
  · rw [if_pos c]
    have key : ∀ new, mem.length + num ≤ new → new ≤ 2 * (t.length + num) →
        (∃ b', (if new ≤ room then (.ok (Buf.mk (mem.take new ++ List.replicate (new - mem.length) none)
            t.length) : Exec Buf) else .err) = .ok b' ∧ b'.used = t.length ∧
          b'.mem.length ≤ room ∧ b'.mem.take t.length = t.map some ∧ t.length + num ≤ b'.mem.length ∧
          b'.mem.length ≤ 2 * (t.length + num)) ∨
        ((if new ≤ room then (.ok (Buf.mk (mem.take new ++ List.replicate (new - mem.length) none)
            t.length) : Exec Buf) else .err) = .err ∧ room < 2 * (t.length + num)) := by
      intro new g1 g2
      by_cases d : new ≤ room
      · left
        rw [if_pos d]
        have hl : (mem.take new ++ List.replicate (new - mem.length) (none : Option UInt8)).length = new := by
          rw [List.length_append, List.length_take, List.length_replicate]; omega
        refine ⟨_, rfl, rfl, ?_, ?_, ?_, ?_⟩
        · rw [hl]; exact d
        · show (mem.take new ++ _).take t.length = _
          rw [List.take_append_of_le_length (by rw [List.length_take]; omega), List.take_take,
            Nat.min_eq_left (by omega)]
          exact hd
        · rw [hl]; omega
        · rw [hl]; exact g2
      · right
        rw [if_neg d]
        exact ⟨rfl, by omega⟩
    by_cases e : mem.length * 2 < mem.length + num
    · rw [if_pos e]; exact key _ (Nat.le_refl _) (by omega)
    · rw [if_neg e]; exact key _ (by omega) (by omega)
  · rw [if_neg c]
    left
    exact ⟨_, rfl, rfl, hs, hd, by dsimp only; omega, by dsimp only; omega⟩

theorem append_holds (room : Nat) (hr : room < 2 ^ 63) (b : Buf) (t u : List UInt8) (h : Holds room b t)
    (hu : u.length < 2147483647) :
    (∃ b', append room b u = .ok b' ∧ Holds room b' (t ++ u) ∧ b'.mem ≠ []) ∨
    (append room b u = .err ∧ room < 2 * ((t ++ u).length + 1)) := by
  unfold append
  rw [if_neg (by omega), if_neg (by omega)]
  rcases ensure_holds room hr b t h (u.length + 1) (by omega) (by omega) with
    ⟨b', e, h1, h2, h3, h4, h5⟩ | ⟨e, h1⟩
  · left
    obtain ⟨mem, used⟩ := b'
    dsimp only at h1 h2 h3 h4 h5
    subst h1
    rw [e, Exec.bind_ok]
    unfold vsnprintf store
    dsimp only
    rw [if_neg (by omega), List.take_of_length_le (by omega)]
    rw [if_pos (by rw [List.length_append, List.length_singleton]; omega), Exec.bind_ok,
      sz_lt (by omega)]
    refine ⟨_, rfl, ⟨?_, ?_, ?_, ?_, ?_⟩, ?_⟩
    · simp
    · simp; omega
    · show (mem.take t.length ++ (u ++ [0]).map some ++ _).take (t ++ u).length = _
      rw [h3]
      simp only [List.map_append, List.length_append, List.append_assoc]
      rw [← List.append_assoc]
      have : (t.map some ++ u.map some).length = t.length + u.length := by simp
      rw [← this, List.take_left]
    · simp; omega
    · simp; omega
    · have : (mem.take t.length ++ (u ++ [(0 : UInt8)]).map some ++
          mem.drop (t.length + (u ++ [(0 : UInt8)]).length)).length ≠ 0 := by simp
      intro hh
      exact this (congrArg List.length hh)
  · right
    rw [e]
    exact ⟨rfl, by rw [List.length_append]; omega⟩

/-- The state after the head `h` and the body `b` were written; or memory was short. -/
def Good (room : Nat) (g : GV) (h b : List UInt8) : Prop :=
  (g.failed = true ∧ room < 2 * (h.length + b.length + 1)) ∨
  (g.failed = false ∧ Holds room g.head h ∧ Holds room g.body b)

theorem write_good (room : Nat) (hr : room < 2 ^ 63) (g : GV) (h b : List UInt8) (hg : Good room g h b)
    (l : Line) (hl : l.text.length < 2147483647) :
    ∃ g', write room g l = .ok g' ∧ Good room g' (h ++ heads [l]) (b ++ bodies [l]) ∧
      (g'.failed = false → match l with
        | .head _ => g'.head.mem ≠ [] ∧ g'.body = g.body
        | .body _ => g'.body.mem ≠ [] ∧ g'.head = g.head) := by
  cases l with
  | head t =>
    have eh : heads [Line.head t] = t := by simp [heads]
    have eb : bodies [Line.head t] = [] := rfl
    rw [eh, eb, List.append_nil]
    simp only [write]
    rcases hg with ⟨hf, hm⟩ | ⟨hf, h1, h2⟩
    · rw [if_pos hf]
      exact ⟨g, rfl, .inl ⟨hf, by rw [List.length_append]; omega⟩, fun x => by rw [hf] at x; cases x⟩
    · rw [if_neg (by rw [hf]; decide)]
      rcases append_holds room hr _ _ t h1 hl with ⟨b', e, h3, h4⟩ | ⟨e, h3⟩
      · rw [e]
        exact ⟨_, rfl, .inr ⟨hf, h3, h2⟩, fun _ => ⟨h4, rfl⟩⟩
      · rw [e]
        exact ⟨_, rfl, .inl ⟨rfl, by omega⟩, fun x => by cases x⟩
  | body t =>
    have eh : heads [Line.body t] = [] := rfl
    have eb : bodies [Line.body t] = t := by simp [bodies]
    rw [eh, eb, List.append_nil]
    simp only [write]
    rcases hg with ⟨hf, hm⟩ | ⟨hf, h1, h2⟩
    · rw [if_pos hf]
      exact ⟨g, rfl, .inl ⟨hf, by rw [List.length_append]; omega⟩, fun x => by rw [hf] at x; cases x⟩
    · rw [if_neg (by rw [hf]; decide)]
      rcases append_holds room hr _ _ t h2 hl with ⟨b', e, h3, h4⟩ | ⟨e, h3⟩
      · rw [e]
        exact ⟨_, rfl, .inr ⟨hf, h1, h3⟩, fun _ => ⟨h4, rfl⟩⟩
      · rw [e]
        exact ⟨_, rfl, .inl ⟨rfl, by omega⟩, fun x => by cases x⟩

theorem heads_cons (l : Line) (ls : List Line) : heads (l :: ls) = heads [l] ++ heads ls := by simp [heads]

theorem bodies_cons (l : Line) (ls : List Line) : bodies (l :: ls) = bodies [l] ++ bodies ls := by
  simp [bodies]

theorem writeAll_good (room : Nat) (hr : room < 2 ^ 63) : ∀ (ls : List Line) (g : GV) (h b : List UInt8),
    Good room g h b → (∀ l ∈ ls, l.text.length < 2147483647) →
    ∃ g', writeAll room g ls = .ok g' ∧ Good room g' (h ++ heads ls) (b ++ bodies ls) := by
  intro ls
  induction ls with
  | nil => intro g h b hg _; exact ⟨g, rfl, by simpa [heads, bodies] using hg⟩
  | cons l ls ih =>
    intro g h b hg hl
    obtain ⟨g1, e1, h1, _⟩ := write_good room hr g h b hg l (hl l List.mem_cons_self)
    obtain ⟨g2, e2, h2⟩ := ih g1 _ _ h1 (fun x hx => hl x (List.mem_cons_of_mem _ hx))
    refine ⟨g2, ?_, ?_⟩
    · rw [writeAll, e1, Exec.bind_ok, e2]
    · rw [heads_cons, bodies_cons, ← List.append_assoc, ← List.append_assoc]; exact h2

theorem mapM_some (t : List UInt8) : (t.map some).mapM (id : Option UInt8 → Option UInt8) = some t := by
  induction t with
  | nil => rfl
  | cons a t ih => simp [ih]

theorem load_holds (room : Nat) (b : Buf) (t : List UInt8) (h : Holds room b t) (hn : b.mem ≠ []) :
    load b b.used = .ok t := by
  unfold load
  rw [if_neg hn, h.used, if_pos h.fits, h.data, mapM_some]

/-- What `graphviz` returns: the text wanted, ended by a zero, with its length; or nothing, when
memory was short. -/
theorem C100_text (room : Nat) (hr : room < 2 ^ 63) (ls : List Line)
    (hl : ∀ l ∈ ls, l.text.length < 2147483647) :
    graphviz room ls = .ok (wanted ls ++ [0], (wanted ls).length) ∨
    (graphviz room ls = .err ∧ room < 2 * ((wanted ls).length + 1)) := by
  have l1 : (bytes "digraph G {\n").length = 12 := by decide
  have l2 : (bytes "\n").length = 1 := by decide
  have l3 : (bytes "}\n").length = 2 := by decide
  have lw : (wanted ls).length = 12 + (heads ls).length + 1 + (bodies ls).length + 2 := by
    simp only [wanted, List.length_append, l1, l2, l3]
  obtain ⟨g1, e1, h1, _⟩ := write_good room hr .init [] [] (.inr ⟨rfl, holds_init room, holds_init room⟩)
    (.head (bytes "digraph G {\n")) (by show (bytes _).length < _; rw [l1]; decide)
  obtain ⟨g2, e2, h2⟩ := writeAll_good room hr ls g1 _ _ h1 hl
  obtain ⟨g3, e3, h3, k3⟩ := write_good room hr g2 _ _ h2 (.head (bytes "\n"))
    (by show (bytes _).length < _; rw [l2]; decide)
  obtain ⟨g4, e4, h4, k4⟩ := write_good room hr g3 _ _ h3 (.body (bytes "}\n"))
    (by show (bytes _).length < _; rw [l3]; decide)
  have hh : [] ++ heads [Line.head (bytes "digraph G {\n")] ++ heads ls ++ heads [Line.head (bytes "\n")] ++
      heads [Line.body (bytes "}\n")] = bytes "digraph G {\n" ++ heads ls ++ bytes "\n" := by simp [heads]
  have hb : [] ++ bodies [Line.head (bytes "digraph G {\n")] ++ bodies ls ++
      bodies [Line.head (bytes "\n")] ++ bodies [Line.body (bytes "}\n")] =
      bodies ls ++ bytes "}\n" := by simp [bodies]
  rw [hh, hb] at h4
  unfold graphviz
  rw [e1, Exec.bind_ok, e2, Exec.bind_ok, e3, Exec.bind_ok, e4, Exec.bind_ok]
  unfold complete
  rcases h4 with ⟨hf, hm⟩ | ⟨hf, h5, h6⟩
  · right
    rw [if_pos hf]
    refine ⟨rfl, ?_⟩
    simp only [List.length_append, l1, l2, l3] at hm
    omega
  · rw [if_neg (by rw [hf]; decide)]
    have n4 := k4 hf
    have hf3 : g3.failed = false := by
      cases c : g3.failed with
      | false => rfl
      | true =>
        have : write room g3 (.body (bytes "}\n")) = .ok g3 := by simp [write, c]
        rw [this] at e4
        cases e4
        rw [c] at hf
        cases hf
    have n3 := k3 hf3
    dsimp only at n3 n4 ⊢
    have hn : g4.head.mem ≠ [] := by rw [n4.2]; exact n3.1
    have u1 := h5.used
    have u2 := h6.used
    have s1 := h5.size
    have s2 := h6.size
    have f1 := h5.fits
    have f2 := h6.fits
    simp only [List.length_append, l1, l2, l3] at u1 u2 f1 f2
    rw [sz_lt (n := g4.head.used + g4.body.used) (by omega), sz_lt (by omega)]
    by_cases c : g4.head.used + g4.body.used + 1 ≤ room
    · left
      rw [if_pos c, load_holds room _ _ h5 hn, Exec.bind_ok, load_holds room _ _ h6 n4.1, Exec.bind_ok]
      rw [if_pos (by simp only [List.length_append, l1, l2, l3]; omega)]
      have : (bytes "digraph G {\n" ++ heads ls ++ bytes "\n") ++ (bodies ls ++ bytes "}\n") = wanted ls := by
        simp [wanted]
      rw [this, show g4.head.used + g4.body.used = (wanted ls).length by omega]
    · right
      rw [if_neg c]
      exact ⟨rfl, by omega⟩

/-- Writing the text of a diagram is defined whatever the lines and the memory. -/
theorem C100_defined (room : Nat) (hr : room < 2 ^ 63) (ls : List Line)
    (hl : ∀ l ∈ ls, l.text.length < 2147483647) : graphviz room ls ≠ .ub := by
  rcases C100_text room hr ls hl with h | ⟨h, _⟩ <;> rw [h] <;> nofun

/-- With memory for twice the text it is returned. -/
theorem C100_enough (room : Nat) (hr : room < 2 ^ 63) (ls : List Line)
    (hl : ∀ l ∈ ls, l.text.length < 2147483647) (hm : 2 * ((wanted ls).length + 1) ≤ room) :
    graphviz room ls = .ok (wanted ls ++ [0], (wanted ls).length) := by
  rcases C100_text room hr ls hl with h | ⟨_, h⟩
  · exact h
  · omega

/-- Two labels and an arrow. -/
example : graphviz 1000 [.head (bytes "a [label=\"=\"]\n"), .body (bytes "a -> b\n"), .head (bytes "b\n")] =
    .ok (bytes "digraph G {\na [label=\"=\"]\nb\n\na -> b\n}\n" ++ [0], 38) := by decide +kernel

/-- Too little memory. -/
example : graphviz 20 [.head (bytes "a [label=\"=\"]\n")] = .err := by decide +kernel

end Noja.TextBuf
