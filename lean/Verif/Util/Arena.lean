/-!
# `src/lib/utils/bpalloc.c` and property C07

Addresses are natural numbers.  The system allocator (`fn_malloc`) answers each
request with an address or refuses; `Fresh` is its contract.  `int` overflow of
`used` is not modelled.
-/

namespace Noja.Arena

/-! ## Model -/

/-- A block of memory: start address and length. -/
structure Block where
  addr : Nat
  len : Nat
deriving DecidableEq, Repr

/-- bpalloc.c:44-58 `struct xBPAlloc`: `body` is the address of `tail->body`. -/
structure Arena where
  minsize : Nat
  size : Nat
  used : Nat
  body : Nat

/-- `sizeof(BPAlloc)` (x86-64). -/
def sizeofArena : Nat := 56
/-- `sizeof(BPAllocChunk)`, which is also the offset of its `body`. -/
def sizeofChunk : Nat := 8
/-- bpalloc.c:41-42. -/
def chunkSize : Nat := 4096
/-- bpalloc.c:42. -/
def padding : Nat := 8

/-- The size requested by `BPAlloc_Init2` (bpalloc.c:87-99). -/
def initRequest (first chunk : Int) : Nat :=
  let chunk := if chunk < 0 then chunkSize else chunk.toNat
  let first := if first < 0 then chunk else first.toNat
  sizeofArena + sizeofChunk + first + padding

/-- bpalloc.c:70-112 `BPAlloc_Init2`, when the system allocator answered `base`. -/
def init2 (first chunk : Int) (base : Nat) : Arena :=
  let chunk := if chunk < 0 then chunkSize else chunk.toNat
  let first := if first < 0 then chunk else first.toNat
  { minsize := chunk, size := first, used := 0, body := base + sizeofArena + sizeofChunk }

/-- bpalloc.c:114-159 `BPAlloc_Init3` on the caller's memory `mem`; `none` is NULL. -/
def init3 (mem : Block) (chunk : Int) : Option Arena :=
  if mem.len < sizeofArena + sizeofChunk + padding then none
  else some { minsize := if chunk < 0 then chunkSize else chunk.toNat
              size := mem.len - sizeofArena - sizeofChunk
              used := 0, body := mem.addr + sizeofArena + sizeofChunk }

/-- bpalloc.c:200-201 and 222-223, rounding `used` up to a multiple of 8. -/
def align (u : Nat) : Nat := if u % 8 ≠ 0 then u / 8 * 8 + 8 else u

/-- Whether the request needs a new chunk, and of what size (bpalloc.c:198-212). -/
def needChunk (a : Arena) (req : Nat) : Option Nat :=
  if align (a.used + padding) + req > a.size
  then some (sizeofChunk + max a.minsize (req + padding)) else none

/-- bpalloc.c:186-231 `BPAlloc_Malloc`; `sys` is the system allocator's answer if it is asked.
Returns the new arena and the block handed out (`none` is NULL). -/
def malloc (a : Arena) (req : Nat) (sys : Option Nat) : Arena × Option Block :=
  let used := align (a.used + padding)
  let a := { a with used := used }
  if used + req > a.size then
    let chunk := max a.minsize (req + padding)
    match sys with
    | none => (a, none)
    | some base =>
      let a := { a with size := chunk, used := align padding, body := base + sizeofChunk }
      ({ a with used := a.used + req }, some ⟨a.body + a.used, req⟩)
  else ({ a with used := a.used + req }, some ⟨a.body + a.used, req⟩)

/-! ## Specification -/

/-- Two blocks share no byte. -/
def Disjoint (b c : Block) : Prop := b.addr + b.len ≤ c.addr ∨ c.addr + c.len ≤ b.addr

/-- `b` lies inside `c`. -/
def Inside (b c : Block) : Prop := c.addr ≤ b.addr ∧ b.addr + b.len ≤ c.addr + c.len

/-- The contract of the system allocator: a new block is 8-byte aligned and disjoint from the
memory already owned. -/
def Fresh (b : Block) (owned : List Block) : Prop := b.addr % 8 = 0 ∧ ∀ c ∈ owned, Disjoint b c

/-- What can be observed of an arena: the arena, the memory it owns and the blocks handed out
so far, after any history of requests, any answers of the system allocator included. -/
inductive Reach : Arena → (owned : List Block) → (given : List Block) → Prop
  | init2 (first chunk : Int) (base : Nat) (h : base % 8 = 0) :
      Reach (init2 first chunk base) [⟨base, initRequest first chunk⟩] []
  | init3 (mem : Block) (chunk : Int) (a : Arena) (h : mem.addr % 8 = 0)
      (e : init3 mem chunk = some a) : Reach a [mem] []
  | old {a owned given} (req : Nat) (h : Reach a owned given) (e : needChunk a req = none) :
      Reach (malloc a req none).1 owned ((malloc a req none).2.toList ++ given)
  | grow {a owned given} (req n base : Nat) (h : Reach a owned given)
      (e : needChunk a req = some n) (f : Fresh ⟨base, n⟩ owned) :
      Reach (malloc a req (some base)).1 (⟨base, n⟩ :: owned)
        ((malloc a req (some base)).2.toList ++ given)
  | refused {a owned given} (req n : Nat) (h : Reach a owned given)
      (e : needChunk a req = some n) :
      Reach (malloc a req none).1 owned ((malloc a req none).2.toList ++ given)

/-! ## Proof -/

theorem align_ge (u : Nat) : u ≤ align u := by unfold align; split <;> omega
theorem align_mod (u : Nat) : align u % 8 = 0 := by unfold align; split <;> omega

/-- The invariant: the rest of the current chunk is free. -/
def Inv (a : Arena) (owned given : List Block) : Prop :=
  a.body % 8 = 0 ∧
  (∃ c ∈ owned, c.addr ≤ a.body ∧ a.body + a.size ≤ c.addr + c.len) ∧
  (∀ b ∈ given, b.addr % 8 = 0 ∧ ∃ c ∈ owned, Inside b c) ∧
  (∀ b ∈ given, a.body + a.used ≥ b.addr + b.len ∧ a.body ≤ b.addr ∨
    (b.addr + b.len ≤ a.body ∨ a.body + a.size ≤ b.addr)) ∧
  given.Pairwise Disjoint

theorem inv_reach {a owned given} (h : Reach a owned given) : Inv a owned given := by
  induction h with
  | init2 first chunk base h =>
    refine ⟨?_, ⟨_, List.mem_cons_self, ?_, ?_⟩, by simp, by simp, .nil⟩
    · simp only [init2, sizeofArena, sizeofChunk]; omega
    · simp only [init2, sizeofArena, sizeofChunk]; omega
    · simp only [init2, initRequest, sizeofArena, sizeofChunk, padding]; omega
  | init3 mem chunk a h e =>
    unfold init3 at e
    split at e
    · cases e
    · rename_i hl
      cases e
      simp only [sizeofArena, sizeofChunk, padding] at hl
      refine ⟨?_, ⟨mem, by simp, ?_, ?_⟩, by simp, by simp, .nil⟩
      · simp only [sizeofArena, sizeofChunk]; omega
      · simp only [sizeofArena, sizeofChunk]; omega
      · simp only [sizeofArena, sizeofChunk]; omega
  | @old a owned given req h e ih =>
    obtain ⟨h1, ⟨c, hc, hc1, hc2⟩, h3, h4, h5⟩ := ih
    have hn : ¬ align (a.used + padding) + req > a.size := by
      intro hh; simp [needChunk, hh] at e
    have ha := align_ge (a.used + padding)
    have hm := align_mod (a.used + padding)
    simp only [malloc, if_neg hn, Option.toList, List.cons_append, List.nil_append]
    generalize align (a.used + padding) = u at *
    simp only [padding] at ha
    refine ⟨h1, ⟨c, hc, hc1, hc2⟩, ?_, ?_, ?_⟩
    · intro b hb
      rcases List.mem_cons.mp hb with rfl | hb
      · exact ⟨by show (a.body + u) % 8 = 0; omega, c, hc, ⟨by show c.addr ≤ a.body + u; omega, by
          show a.body + u + req ≤ _; omega⟩⟩
      · exact h3 b hb
    · intro b hb
      rcases List.mem_cons.mp hb with rfl | hb
      · left; show a.body + (u + req) ≥ a.body + u + req ∧ a.body ≤ a.body + u; omega
      · show a.body + (u + req) ≥ _ ∧ a.body ≤ _ ∨ _
        rcases h4 b hb with h | h | h
        · left; omega
        · right; left; exact h
        · right; right; exact h
    · refine .cons ?_ h5
      intro b hb
      unfold Disjoint
      show a.body + u + req ≤ b.addr ∨ b.addr + b.len ≤ a.body + u
      rcases h4 b hb with h | h | h <;> omega
  | @grow a owned given req n base h e f ih =>
    obtain ⟨h1, -, h3, h4, h5⟩ := ih
    have hn : align (a.used + padding) + req > a.size ∧ n = sizeofChunk + max a.minsize (req + padding) := by
      unfold needChunk at e; split at e
      · cases e; exact ⟨by assumption, rfl⟩
      · cases e
    obtain ⟨hn, rfl⟩ := hn
    have hal : align padding = 8 := rfl
    simp only [malloc, if_pos hn, Option.toList, List.cons_append, List.nil_append, hal]
    have hge : req + 8 ≤ max a.minsize (req + padding) := by simp only [padding]; omega
    generalize max a.minsize (req + padding) = k at *
    obtain ⟨f1, f2⟩ := f
    simp only [sizeofChunk] at *
    -- blocks given earlier lie in memory disjoint from the new chunk
    have sep : ∀ b ∈ given, b.addr + b.len ≤ base ∨ base + (8 + k) ≤ b.addr := by
      intro b hb
      obtain ⟨-, c, hc, i1, i2⟩ := h3 b hb
      have := f2 c hc
      unfold Disjoint at this
      simp only at this
      omega
    refine ⟨by show (base + 8) % 8 = 0; omega, ⟨_, List.mem_cons_self, by show base ≤ base + 8; omega, by
      show base + 8 + k ≤ base + (8 + k); omega⟩, ?_, ?_, ?_⟩
    · intro b hb
      rcases List.mem_cons.mp hb with rfl | hb
      · refine ⟨by show (base + 8 + 8) % 8 = 0; omega, _, List.mem_cons_self, ?_, ?_⟩
        · show base ≤ base + 8 + 8; omega
        · show base + 8 + 8 + req ≤ base + (8 + k); omega
      · obtain ⟨q, c, hc, hi⟩ := h3 b hb
        exact ⟨q, c, List.mem_cons_of_mem _ hc, hi⟩
    · intro b hb
      rcases List.mem_cons.mp hb with rfl | hb
      · left; show base + 8 + (8 + req) ≥ base + 8 + 8 + req ∧ base + 8 ≤ base + 8 + 8; omega
      · right; show _ ≤ base + 8 ∨ base + 8 + k ≤ _
        have := sep b hb; omega
    · refine .cons ?_ h5
      intro b hb
      unfold Disjoint
      show base + 8 + 8 + req ≤ b.addr ∨ b.addr + b.len ≤ base + 8 + 8
      have := sep b hb; omega
  | @refused a owned given req n h e ih =>
    obtain ⟨h1, h2, h3, h4, h5⟩ := ih
    have hn : align (a.used + padding) + req > a.size := by
      unfold needChunk at e; split at e
      · assumption
      · cases e
    have ha := align_ge (a.used + padding)
    simp only [malloc, if_pos hn, Option.toList, List.nil_append]
    refine ⟨h1, h2, h3, ?_, h5⟩
    intro b hb
    show a.body + align (a.used + padding) ≥ _ ∧ _ ∨ _
    simp only [padding] at *
    rcases h4 b hb with h | h | h
    · left; omega
    · right; left; exact h
    · right; right; exact h

/-- **C07**: after any history, all blocks handed out are 8-byte aligned, lie inside memory the
arena owns, and are pairwise disjoint. -/
theorem C07_blocks {a owned given} (h : Reach a owned given) :
    (∀ b ∈ given, b.addr % 8 = 0 ∧ ∃ c ∈ owned, Inside b c) ∧ given.Pairwise Disjoint :=
  ⟨(inv_reach h).2.2.1, (inv_reach h).2.2.2.2⟩

/-- **C07**: a request is answered with a block of exactly the requested length, except when
the arena needs new memory and the system refuses it; then NULL is returned.  (The `refused`
case of `Reach` shows that C07 keeps holding afterwards.) -/
theorem C07_served (a : Arena) (req : Nat) (sys : Option Nat) :
    ((malloc a req sys).2 = none ↔ (needChunk a req).isSome ∧ sys = none) ∧
    ∀ b, (malloc a req sys).2 = some b → b.len = req := by
  unfold malloc needChunk
  by_cases h : align (a.used + padding) + req > a.size
  · simp only [if_pos h]
    cases sys with
    | none => simp
    | some base => simp
  · simp only [if_neg h]
    simp

/-- The requests, one after the other, without help of the system: the blocks, while there are any. -/
def mallocs : Arena → List Nat → List (Option Block)
  | _, [] => []
  | a, r :: rs => (malloc a r none).2 :: mallocs (malloc a r none).1 rs

theorem align_le (u : Nat) : align u ≤ u + 7 := by unfold align; split <;> omega

theorem mallocs_room : ∀ (rs : List Nat) (a : Arena), a.used + (rs.map (· + 15)).sum ≤ a.size → ∀ b ∈ mallocs a rs, b.isSome = true
  | [], _, _, b, hb => by cases hb
  | r :: rs, a, h, b, hb => by
    rw [List.map_cons, List.sum_cons] at h
    have h1 := align_le (a.used + padding)
    unfold padding at h1
    have hn : ¬ align (a.used + padding) + r > a.size := by unfold padding; omega
    have e : malloc a r none = ({ a with used := align (a.used + padding) + r }, some ⟨a.body + align (a.used + padding), r⟩) := by
      unfold malloc
      rw [if_neg hn]
    unfold mallocs at hb
    rw [e] at hb
    rcases List.mem_cons.1 hb with rfl | hb
    · rfl
    · refine mallocs_room rs _ ?_ b hb
      show align (a.used + padding) + r + _ ≤ a.size
      unfold padding
      omega

/-- **C07**: memory handed to an arena is used: a request is served from it alone if, together with 8 bytes, it fits behind the
headers of 64 bytes, and so are requests that fit with 15 bytes for each. -/
theorem C07_room (mem : Block) (chunk : Int) (a : Arena) (e : init3 mem chunk = some a) :
    (∀ req, ((malloc a req none).2.isSome = true ↔ req + 8 + (sizeofArena + sizeofChunk) ≤ mem.len)) ∧
    ∀ rs : List Nat, (rs.map (· + 15)).sum + (sizeofArena + sizeofChunk) ≤ mem.len → ∀ b ∈ mallocs a rs, b.isSome = true := by
  unfold init3 at e
  by_cases hl : mem.len < sizeofArena + sizeofChunk + padding
  · rw [if_pos hl] at e; cases e
  · rw [if_neg hl] at e
    cases e
    unfold padding at hl
    refine ⟨fun req => ?_, fun rs h => mallocs_room rs _ ?_⟩
    · have := (C07_served ⟨if chunk < 0 then chunkSize else chunk.toNat, mem.len - sizeofArena - sizeofChunk, 0,
        mem.addr + sizeofArena + sizeofChunk⟩ req none).1
      rw [← Option.not_isSome_iff_eq_none] at this
      unfold needChunk at this
      dsimp only at this
      have ha : align (0 + padding) = 8 := rfl
      rw [ha] at this
      by_cases hc : 8 + req > mem.len - sizeofArena - sizeofChunk
      · rw [if_pos hc] at this
        have h1 := this.2 ⟨rfl, rfl⟩
        exact ⟨fun h => absurd h h1, fun h => by omega⟩
      · rw [if_neg hc] at this
        refine ⟨fun _ => by omega, fun _ => ?_⟩
        exact Classical.byContradiction fun h => absurd (this.1 h).1 (by simp)
    · show 0 + _ ≤ mem.len - sizeofArena - sizeofChunk
      omega

/-- 200 bytes have room for a request of 128 bytes, and for requests of 1, 10 and 3 bytes. -/
example : ∃ a, init3 ⟨1000, 200⟩ (-1) = some a ∧ (malloc a 128 none).2 = some ⟨1072, 128⟩ ∧ (malloc a 129 none).2 = none ∧
    mallocs a [1, 10, 3] = [some ⟨1072, 1⟩, some ⟨1088, 10⟩, some ⟨1112, 3⟩] := ⟨_, rfl, by decide, by decide, by decide⟩

/-- Non-triviality: a history with an old-chunk block, a new chunk and a refusal. -/
example : ∃ a owned given, Reach a owned given ∧ given.length = 3 ∧ owned.length = 2 := by
  have r0 := Reach.init2 32 200 0 rfl
  have r1 := Reach.old 5 r0 (by decide)
  have r2 := Reach.grow 100 208 1000 r1 (by decide) ⟨by decide, by
    intro c hc; simp [initRequest, sizeofArena, sizeofChunk, padding] at hc; subst hc
    right; decide⟩
  have r3 := Reach.refused 1000 1016 r2 (by decide)
  have r4 := Reach.old 0 r3 (by decide)
  exact ⟨_, _, _, r4, by decide, rfl⟩

/-! ## Freeing an arena -/

/-- What `BPAlloc_Free` looks at: the address of the arena, whether its memory is the caller's (`FG_STATIC`), the
address of the last chunk and the pointers `prev` of the chunks. -/
structure Links where
  self : Nat
  static : Bool
  tail : Nat
  prev : Nat → Option Nat

/-- bpalloc.c:104-106, 139-141: the chunk behind the arena. -/
def links (base : Nat) (static : Bool) : Links := ⟨base, static, base + sizeofArena, fun _ => none⟩

/-- bpalloc.c:217-218, a new chunk. -/
def link (l : Links) (base : Nat) : Links :=
  { l with tail := base, prev := fun x => if x = base then some l.tail else l.prev x }

/-- bpalloc.c:169-179, the loop, with what has been freed; reading a chunk that has been is `none`. -/
def freeLoop (prev : Nat → Option Nat) : (fuel : Nat) → (chunk : Nat) → (freed : List Nat) → Option (List Nat)
  | 0, _, _ => none
  | fuel + 1, chunk, freed =>
    if chunk ∈ freed then none
    else
      match prev chunk with
      | none => some freed
      | some p => freeLoop prev fuel p (freed ++ [chunk])

/-- bpalloc.c:161-184 `BPAlloc_Free`: the addresses given back, in order. -/
def free (l : Links) (fuel : Nat) : Option (List Nat) :=
  (freeLoop l.prev fuel l.tail []).map fun freed => freed ++ if l.static then [] else [l.self]

/-- The links of an arena with this memory, the newest first. -/
inductive Linked : Links → (static : Bool) → (owned : List Block) → Prop
  | init2 (first chunk : Int) (base : Nat) : Linked (links base false) false [⟨base, initRequest first chunk⟩]
  | init3 (mem : Block) (chunk : Int) (a : Arena) (e : init3 mem chunk = some a) : Linked (links mem.addr true) true [mem]
  | grow {l st owned} (n base : Nat) (h : Linked l st owned) (hn : 0 < n) (f : Fresh ⟨base, n⟩ owned) :
      Linked (link l base) st (⟨base, n⟩ :: owned)

/-- Every history of an arena has its links. -/
theorem linked_exists {a owned given} (h : Reach a owned given) : ∃ l st, Linked l st owned := by
  induction h with
  | init2 first chunk base _ => exact ⟨_, _, .init2 first chunk base⟩
  | init3 mem chunk a _ e => exact ⟨_, _, .init3 mem chunk a e⟩
  | old _ _ _ ih => exact ih
  | @grow a owned given req n base h e f ih =>
    obtain ⟨l, st, hl⟩ := ih
    refine ⟨_, _, .grow n base hl ?_ f⟩
    unfold needChunk at e
    by_cases hc : align (a.used + padding) + req > a.size
    · rw [if_pos hc] at e
      injection e with e
      unfold sizeofChunk at e
      omega
    · rw [if_neg hc] at e; cases e
  | refused _ _ _ _ ih => exact ih

/-- What the loop frees, from the tail on: all chunks but the first, which is part of the arena's own block. -/
theorem Linked.spec {l st owned} (h : Linked l st owned) :
    ∃ cs : List Block, ∃ m : Block, owned = cs ++ [m] ∧ l.self = m.addr ∧ l.static = st ∧ sizeofArena < m.len ∧
      (∀ b ∈ owned, 0 < b.len) ∧ (cs.map Block.addr ++ [m.addr + sizeofArena]).Nodup ∧ m.addr ∉ cs.map Block.addr ∧
      ∀ (fuel : Nat) (freed : List Nat), cs.length < fuel → (∀ x ∈ cs.map Block.addr ++ [m.addr + sizeofArena], x ∉ freed) →
        freeLoop l.prev fuel l.tail freed = some (freed ++ cs.map Block.addr) := by
  induction h with
  | init2 first chunk base =>
    have hm : sizeofArena < initRequest first chunk := by
      unfold initRequest
      show sizeofArena < sizeofArena + sizeofChunk + (if first < 0 then (if chunk < 0 then chunkSize else chunk.toNat) else first.toNat) + padding
      unfold sizeofChunk
      omega
    refine ⟨[], ⟨base, initRequest first chunk⟩, rfl, rfl, rfl, hm, ?_, by simp, by simp, ?_⟩
    · intro b hb
      rw [List.mem_singleton.1 hb]
      show 0 < initRequest first chunk
      omega
    · intro fuel freed hf hn
      match fuel, hf with
      | fuel + 1, _ =>
        unfold freeLoop
        rw [if_neg (show (links base false).tail ∉ freed from hn (base + sizeofArena) (List.mem_singleton.2 rfl))]
        show some freed = some (freed ++ [])
        rw [List.append_nil]
  | init3 mem chunk a e =>
    have hm : sizeofArena < mem.len := by
      unfold Arena.init3 at e
      by_cases hl : mem.len < sizeofArena + sizeofChunk + padding
      · rw [if_pos hl] at e; cases e
      · unfold sizeofChunk at hl
        omega
    refine ⟨[], mem, rfl, rfl, rfl, hm, ?_, by simp, by simp, ?_⟩
    · intro b hb
      rw [List.mem_singleton.1 hb]
      omega
    · intro fuel freed hf hn
      match fuel, hf with
      | fuel + 1, _ =>
        unfold freeLoop
        rw [if_neg (show (links mem.addr true).tail ∉ freed from hn (mem.addr + sizeofArena) (List.mem_singleton.2 rfl))]
        show some freed = some (freed ++ [])
        rw [List.append_nil]
  | @grow l st owned n base h hn f ih =>
    obtain ⟨cs, m, e1, e2, e3, e4, e5, e6, e7, e8⟩ := ih
    have away : ∀ c ∈ owned, ∀ k, k < c.len → base ≠ c.addr + k := fun c hc k hk hb => by
      have := f.2 c hc
      unfold Disjoint at this
      dsimp only at this
      omega
    have hcs : base ∉ cs.map Block.addr := fun hb => by
      obtain ⟨c, hc, hb⟩ := List.mem_map.1 hb
      have hm : c ∈ owned := by rw [e1]; exact List.mem_append_left _ hc
      exact away c hm 0 (e5 c hm) hb.symm
    have hmo : m ∈ owned := by rw [e1]; exact List.mem_append_right _ (List.mem_singleton.2 rfl)
    have hm1 : base ≠ m.addr + sizeofArena := away m hmo _ e4
    have hm0 : base ≠ m.addr := away m hmo 0 (e5 m hmo)
    refine ⟨⟨base, n⟩ :: cs, m, by rw [e1]; rfl, e2, e3, e4, ?_, ?_, ?_, ?_⟩
    · intro b hb
      rcases List.mem_cons.1 hb with rfl | hb
      · exact hn
      · exact e5 b hb
    · refine List.nodup_cons.2 ⟨fun hb => ?_, e6⟩
      rcases List.mem_append.1 hb with hb | hb
      · exact hcs hb
      · exact hm1 (List.mem_singleton.1 hb)
    · intro hb
      rcases List.mem_cons.1 hb with hb | hb
      · exact hm0 hb.symm
      · exact e7 hb
    · intro fuel freed hf hfr
      match fuel, hf with
      | fuel + 1, hf =>
        -- the chunks that were there have the pointers they had
        have same : ∀ (fuel chunk : Nat) (fr : List Nat), base ∈ fr → ∀ r, freeLoop l.prev fuel chunk fr = some r →
            freeLoop (link l base).prev fuel chunk fr = some r := by
          intro fuel
          induction fuel with
          | zero => intro chunk fr _ r hr; cases hr
          | succ fuel ih =>
            intro chunk fr hb r hr
            unfold freeLoop at hr ⊢
            by_cases hc : chunk ∈ fr
            · rw [if_pos hc] at hr; cases hr
            rw [if_neg hc] at hr ⊢
            have hne : chunk ≠ base := fun h => hc (h ▸ hb)
            have hp : (link l base).prev chunk = l.prev chunk := if_neg hne
            rw [hp]
            cases hq : l.prev chunk with
            | none => rw [hq] at hr; exact hr
            | some p =>
              rw [hq] at hr
              exact ih p _ (List.mem_append_left _ hb) r hr
        have step := e8 fuel (freed ++ [base]) (by simp only [List.length_cons] at hf; omega) fun x hx hq => by
          rcases List.mem_append.1 hq with hq | hq
          · exact hfr x (List.mem_cons_of_mem _ hx) hq
          · have := List.mem_singleton.1 hq
            subst this
            rcases List.mem_append.1 hx with hx | hx
            · exact hcs hx
            · exact hm1 (List.mem_singleton.1 hx)
        unfold freeLoop
        rw [if_neg (show (link l base).tail ∉ freed from hfr base List.mem_cons_self)]
        have hp : (link l base).prev (link l base).tail = some l.tail := if_pos rfl
        rw [hp]
        dsimp only
        have q := same fuel l.tail _ (List.mem_append_right _ (List.mem_singleton.2 rfl)) _ step
        rw [List.append_assoc] at q
        exact q

/-- **C07**: freeing an arena ends, reads nothing that has been freed, and gives back every block got from the system
exactly once, the arena's own last; memory that the caller provided is not given back. -/
theorem C07_free {l st owned} (h : Linked l st owned) :
    free l (owned.length + 1) = some (if st then (owned.map Block.addr).dropLast else owned.map Block.addr) ∧
    (owned.map Block.addr).Nodup := by
  obtain ⟨cs, m, e1, e2, e3, -, -, e6, e7, e8⟩ := h.spec
  have hf := e8 (owned.length + 1) [] (by rw [e1, List.length_append]; omega) (by simp)
  constructor
  · unfold free
    rw [hf, e1, e3, e2]
    cases st with
    | true =>
      show some _ = some _
      rw [List.map_append, List.map_cons, List.map_nil, List.dropLast_concat, List.nil_append]
      show some (_ ++ []) = _
      rw [List.append_nil, if_pos rfl]
    | false =>
      show some _ = some _
      rw [List.map_append]
      rfl
  · rw [e1, List.map_append]
    have h1 := (List.nodup_append.1 e6).1
    refine List.nodup_append.2 ⟨h1, by simp, fun a ha b hb hab => ?_⟩
    have := List.mem_singleton.1 hb
    subst this
    exact e7 (hab ▸ ha)

/-- An arena on the caller's memory and one on its own, each with two chunks more. -/
example : ∃ l l', Linked l true [⟨5000, 20⟩, ⟨4000, 20⟩, ⟨1000, 200⟩] ∧ free l 5 = some [5000, 4000] ∧
    Linked l' false [⟨5000, 20⟩, ⟨4000, 20⟩, ⟨1000, initRequest 10 10⟩] ∧ free l' 5 = some [5000, 4000, 1000] := by
  have fr : ∀ (b : Nat) (o : List Block), b % 8 = 0 → (∀ c ∈ o, c.addr + c.len ≤ b) → Fresh ⟨b, 20⟩ o := fun b o h1 h2 =>
    ⟨h1, fun c hc => .inr (h2 c hc)⟩
  have k1 := ((Linked.init3 ⟨1000, 200⟩ (-1) _ rfl).grow 20 4000 (by decide) (fr _ _ (by decide) (by decide))).grow 20 5000 (by decide)
    (fr _ _ (by decide) (by decide))
  have k2 := ((Linked.init2 10 10 1000).grow 20 4000 (by decide) (fr _ _ (by decide) (by decide))).grow 20 5000 (by decide)
    (fr _ _ (by decide) (by decide))
  exact ⟨_, _, k1, by decide, k2, by decide⟩

end Noja.Arena
