import Verif.Gc.Main
import Verif.CInt

/-!
# `src/lib/objects/heap.c`: allocation between collections (C29)

Addresses are numbers.  What `malloc` answers is an argument of the model; that the answer is aligned
and does not overlap with what is still allocated is the contract of the C library.
-/

set_option linter.unusedVariables false
set_option linter.unusedSimpArgs false

namespace Noja.Gc

/-- A block of memory: address and size. -/
structure Block where
  addr : Nat
  size : Nat
deriving DecidableEq, Repr

/-- heap.c:101-119 `struct xHeap`, outside a collection; `mallocs` are the blocks obtained from the
C library, the first of them `body`. -/
structure Heap where
  body : Nat
  size : Nat
  used : Nat
  total : Nat
  mallocs : List Block

/-- heap.c:120-152 `Heap_New`; `body` is the answer of `malloc`. -/
def newHeap (size body : Nat) : Heap := ⟨body, size, 0, 0, [⟨body, size⟩]⟩

/-- heap.c:280-329 `Heap_RawMalloc`; `p` is what `malloc` answers if it is called, `none` for no
memory.  The sums are of type `int`. -/
def rawMalloc (heap : Heap) (size : Nat) (p : Option Nat) : Exec (Option Nat × Heap) :=
  let used := align heap.used
  let padding := used - heap.used
  if used + size > 2147483647 then .ub
  else if heap.total + (size + padding) > 2147483647 then .ub
  else if used + size > heap.size then
    match p with
    | none => .ok (none, { heap with used := used })
    | some p =>
      .ok (some (p + 8), { heap with used := used, total := heap.total + (size + padding), mallocs := ⟨p, 8 + size⟩ :: heap.mallocs })
  else
    .ok (some (heap.body + used), { heap with used := used + size, total := heap.total + (size + padding) })

/-- A sequence of allocations: the blocks they returned, the latest first. -/
def allocs : List (Nat × Option Nat) → List Block → Heap → Exec (List Block × Heap)
  | [], bs, h => .ok (bs, h)
  | (n, p) :: rs, bs, h => do
    let (a, h) ← rawMalloc h n p
    match a with
    | none => allocs rs bs h
    | some a => allocs rs (⟨a, n⟩ :: bs) h

/-! ## The contract of `malloc` -/

def Disjoint (b c : Block) : Prop := b.addr + b.size ≤ c.addr ∨ c.addr + c.size ≤ b.addr

/-- What `malloc` may answer. -/
def MallocOk (live : List Block) (p size : Nat) : Prop := p % 16 = 0 ∧ ∀ b ∈ live, Disjoint ⟨p, size⟩ b

/-- Every answer is one that `malloc` may give at that point. -/
def Answers : List (Nat × Option Nat) → Heap → Prop
  | [], _ => True
  | (n, p) :: rs, h =>
    (∀ q, p = some q → MallocOk h.mallocs q (8 + n)) ∧ ∀ a h', rawMalloc h n p = .ok (a, h') → Answers rs h'

/-! ## The invariant -/

def Inside (b : Block) (m : Block) : Prop := m.addr ≤ b.addr ∧ b.addr + b.size ≤ m.addr + m.size


theorem Disjoint.symm {b c : Block} (h : Disjoint b c) : Disjoint c b := Or.symm h

theorem Disjoint.inside {b c m : Block} (h : Disjoint m c) (hi : Inside b m) : Disjoint b c := by
  obtain ⟨h1, h2⟩ := hi
  unfold Disjoint at *
  omega

/-- The blocks handed out are in the used part of the main area or in overflow memory; `used` may
exceed `size` by the padding. -/
structure Inv (h : Heap) (bs : List Block) : Prop where
  bodyMod : h.body % 8 = 0
  mallocs : h.mallocs.Pairwise Disjoint
  body : ⟨h.body, h.size⟩ ∈ h.mallocs
  aligned : ∀ b ∈ bs, b.addr % 8 = 0
  disjoint : bs.Pairwise Disjoint
  place : ∀ b ∈ bs, (h.body ≤ b.addr ∧ b.addr + b.size ≤ h.body + h.used ∧ b.addr + b.size ≤ h.body + h.size) ∨
    ∃ m ∈ h.mallocs, Inside b m ∧ Disjoint m ⟨h.body, h.size⟩

theorem rawMalloc_inv {h h' : Heap} {bs : List Block} {n : Nat} {p a : Option Nat} (hi : Inv h bs)
    (hp : ∀ q, p = some q → MallocOk h.mallocs q (8 + n)) (he : rawMalloc h n p = .ok (a, h')) :
    match a with
    | none => Inv h' bs
    | some x => Inv h' (⟨x, n⟩ :: bs) := by
  obtain ⟨i1, i2, i3, i4, i5, i6⟩ := hi
  have ha := align_ge h.used
  have hm := align_mod h.used
  unfold rawMalloc at he
  dsimp only at he
  by_cases c1 : align h.used + n > 2147483647
  · rw [if_pos c1] at he; cases he
  rw [if_neg c1] at he
  by_cases c2 : h.total + (n + (align h.used - h.used)) > 2147483647
  · rw [if_pos c2] at he; cases he
  rw [if_neg c2] at he
  by_cases c3 : align h.used + n > h.size
  · rw [if_pos c3] at he
    cases p with
    | none =>
      cases he
      refine ⟨i1, i2, i3, i4, i5, fun b hb => ?_⟩
      rcases i6 b hb with ⟨q1, q2, q3⟩ | q
      · exact .inl ⟨q1, by show b.addr + b.size ≤ h.body + align h.used; omega, q3⟩
      · exact .inr q
    | some q =>
      cases he
      obtain ⟨m1, m2⟩ := hp q rfl
      have hin : Inside ⟨q + 8, n⟩ ⟨q, 8 + n⟩ := ⟨by show q ≤ q + 8; omega, by show q + 8 + n ≤ q + (8 + n); omega⟩
      refine ⟨i1, ?_, List.mem_cons_of_mem _ i3, ?_, ?_, ?_⟩
      · exact List.pairwise_cons.2 ⟨m2, i2⟩
      · intro b hb
        rcases List.mem_cons.1 hb with rfl | hb
        · show (q + 8) % 8 = 0; omega
        · exact i4 b hb
      · refine List.pairwise_cons.2 ⟨fun b hb => ?_, i5⟩
        rcases i6 b hb with ⟨q1, q2, q3⟩ | ⟨m, hm, hbm, _⟩
        · have := (m2 _ i3).inside hin
          unfold Disjoint at *
          dsimp only at *
          omega
        · exact (((m2 m hm).inside hin).symm.inside hbm).symm
      · intro b hb
        rcases List.mem_cons.1 hb with rfl | hb
        · exact .inr ⟨⟨q, 8 + n⟩, List.mem_cons_self, hin, m2 _ i3⟩
        · rcases i6 b hb with ⟨q1, q2, q3⟩ | ⟨m, hm, q⟩
          · exact .inl ⟨q1, by show b.addr + b.size ≤ h.body + align h.used; omega, q3⟩
          · exact .inr ⟨m, List.mem_cons_of_mem _ hm, q⟩
  · rw [if_neg c3] at he
    cases he
    refine ⟨i1, i2, i3, ?_, ?_, ?_⟩
    · intro b hb
      rcases List.mem_cons.1 hb with rfl | hb
      · show (h.body + align h.used) % 8 = 0; omega
      · exact i4 b hb
    · refine List.pairwise_cons.2 ⟨fun b hb => ?_, i5⟩
      rcases i6 b hb with ⟨q1, q2, q3⟩ | ⟨m, hm, hbm, hd⟩
      · unfold Disjoint
        dsimp only
        omega
      · have := hd.inside hbm
        unfold Disjoint at *
        dsimp only at *
        omega
    · intro b hb
      rcases List.mem_cons.1 hb with rfl | hb
      · refine .inl ⟨?_, ?_, ?_⟩ <;> dsimp only <;> omega
      · rcases i6 b hb with ⟨q1, q2, q3⟩ | q
        · refine .inl ⟨q1, ?_, q3⟩
          show b.addr + b.size ≤ h.body + (align h.used + n)
          omega
        · exact .inr q

theorem allocs_inv : ∀ (rs : List (Nat × Option Nat)) (bs : List Block) (h : Heap), Inv h bs → Answers rs h →
    ∀ bs' h', allocs rs bs h = .ok (bs', h') → Inv h' bs'
  | [], bs, h, hi, _, bs', h', he => by cases he; exact hi
  | (n, p) :: rs, bs, h, hi, ⟨ha, hr⟩, bs', h', he => by
    unfold allocs at he
    cases hm : rawMalloc h n p with
    | ok x =>
      obtain ⟨a, h1⟩ := x
      rw [hm] at he
      simp only [Exec.bind_ok] at he
      have := rawMalloc_inv hi ha hm
      cases a with
      | none => exact allocs_inv rs bs h1 this (hr _ _ hm) bs' h' he
      | some a => exact allocs_inv rs _ h1 this (hr _ _ hm) bs' h' he
    | err => rw [hm] at he; cases he
    | ub => rw [hm] at he; cases he
    | diverge => rw [hm] at he; cases he

/-- **C29** (every sequence of allocations): all blocks are 8-byte aligned, no two overlap, and each
lies in memory obtained from the C library. -/
theorem C29_blocks (size body : Nat) (hb : body % 16 = 0) (rs : List (Nat × Option Nat)) (ha : Answers rs (newHeap size body))
    {bs : List Block} {h : Heap} (he : allocs rs [] (newHeap size body) = .ok (bs, h)) :
    (∀ b ∈ bs, b.addr % 8 = 0) ∧
    (∀ (i j : Nat) (b c : Block), i < j → bs[i]? = some b → bs[j]? = some c → b.addr + b.size ≤ c.addr ∨ c.addr + c.size ≤ b.addr) ∧
    ∀ b ∈ bs, ∃ m ∈ h.mallocs, m.addr ≤ b.addr ∧ b.addr + b.size ≤ m.addr + m.size := by
  have hi := allocs_inv rs [] (newHeap size body) (by
    refine ⟨by show body % 8 = 0; omega, ?_, ?_, by simp, by simp, by simp⟩
    · exact List.pairwise_singleton _ _
    · exact List.mem_singleton.2 rfl) ha bs h he
  refine ⟨hi.aligned, ?_, ?_⟩
  · intro i j b c hij hbi hcj
    obtain ⟨h1, rfl⟩ := List.getElem?_eq_some_iff.1 hbi
    obtain ⟨h2, rfl⟩ := List.getElem?_eq_some_iff.1 hcj
    exact (List.pairwise_iff_getElem.1 hi.disjoint) i j h1 h2 hij
  · intro b hb
    rcases hi.place b hb with ⟨q1, q2, q3⟩ | ⟨m, hm, hin, _⟩
    · exact ⟨_, hi.body, q1, q3⟩
    · exact ⟨m, hm, hin⟩

/-- Allocating cannot fail while the C library has memory and the sizes stay in the range of `int`. -/
theorem C29_total (h : Heap) (n q : Nat) (hs : h.used + 7 + n ≤ 2147483647) (ht : h.total + n + 7 ≤ 2147483647) :
    ∃ a h', rawMalloc h n (some q) = .ok (some a, h') := by
  have ha : align h.used ≤ h.used + 7 := by unfold align; split <;> omega
  have ha' := align_ge h.used
  unfold rawMalloc
  dsimp only
  rw [if_neg (by omega), if_neg (by omega)]
  by_cases c : align h.used + n > h.size
  · rw [if_pos c]; exact ⟨_, _, rfl⟩
  · rw [if_neg c]; exact ⟨_, _, rfl⟩

/-- When allocating is undefined: if one of the two sums, with the address rounded up to a multiple of 8, is not an `int`.
Otherwise it gives a block or, if the C library has no memory, none. -/
theorem C29_defined (h : Heap) (n : Nat) (p : Option Nat) :
    ∃ u, u % 8 = 0 ∧ h.used ≤ u ∧ u < h.used + 8 ∧
      (2147483647 < u + n ∨ 2147483647 < h.total + n + (u - h.used) → rawMalloc h n p = .ub) ∧
      (u + n ≤ 2147483647 → h.total + n + (u - h.used) ≤ 2147483647 → ∃ a h', rawMalloc h n p = .ok (a, h') ∧
        (a = none ↔ h.size < u + n ∧ p = none)) := by
  have ha' := align_ge h.used
  refine ⟨align h.used, ?_, ha', ?_, ?_, ?_⟩
  · unfold align; split <;> omega
  · unfold align; split <;> omega
  · intro q
    unfold rawMalloc
    dsimp only
    by_cases c : align h.used + n > 2147483647
    · rw [if_pos c]
    · rw [if_neg c, if_pos (by omega)]
  · intro q1 q2
    unfold rawMalloc
    dsimp only
    rw [if_neg (by omega), if_neg (by omega)]
    by_cases c : align h.used + n > h.size
    · rw [if_pos c]
      cases p with
      | none => exact ⟨_, _, rfl, iff_of_true rfl ⟨c, rfl⟩⟩
      | some p => exact ⟨_, _, rfl, iff_of_false nofun (fun h => by cases h.2)⟩
    · rw [if_neg c]
      exact ⟨_, _, rfl, iff_of_false nofun (fun h => c h.1)⟩

/-- Three blocks in the main area, one of them padded, and two in overflow memory. -/
example : ∃ bs h, allocs [(5, none), (24, none), (100, some 4096), (8, none), (64, some 8192)] [] (newHeap 48 1600) = .ok (bs, h) ∧
    bs = [⟨8200, 64⟩, ⟨1632, 8⟩, ⟨4104, 100⟩, ⟨1608, 24⟩, ⟨1600, 5⟩] ∧
    Answers [(5, none), (24, none), (100, some 4096), (8, none), (64, some 8192)] (newHeap 48 1600) := by
  refine ⟨_, _, rfl, rfl, ?_⟩
  refine ⟨by simp, fun a h' he => ?_⟩
  cases he
  refine ⟨by simp, fun a h' he => ?_⟩
  cases he
  refine ⟨fun q hq => ?_, fun a h' he => ?_⟩
  · cases hq
    refine ⟨rfl, fun b hb => ?_⟩
    simp only [newHeap, List.mem_singleton] at hb
    subst hb
    exact .inr (by decide)
  cases he
  refine ⟨by simp, fun a h' he => ?_⟩
  cases he
  refine ⟨fun q hq => ?_, fun a h' he => trivial⟩
  cases hq
  refine ⟨rfl, fun b hb => ?_⟩
  simp only [newHeap, List.mem_cons, List.not_mem_nil, or_false] at hb
  rcases hb with rfl | rfl
  · exact .inr (by decide)
  · exact .inr (by decide)

/-! ## The heap of `C26_violated`

`Object_NewList(8)` in a heap of 64 bytes: the list is in the main area, its items are in a block of
overflow memory with 64 bytes, all that `listAlone` says can be read. -/
example : ∃ h, allocs [(32, none), (64, some 4096)] [] (newHeap 64 1600) = .ok ([⟨4104, 64⟩, ⟨1600, 32⟩], h) ∧
    h.mallocs = [⟨4096, 8 + 64⟩, ⟨1600, 64⟩] ∧ h.total > h.size := ⟨_, rfl, rfl, by decide⟩

end Noja.Gc
