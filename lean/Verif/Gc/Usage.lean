import Verif.Gc.Alloc

/-!
# When there is a collection (C114)

After each instruction the interpreter asks the heap what percentage of it is in use and starts a collection if it is more than 100
(run.c:1098-1100).  The percentage is computed with doubles and handed over as a float (heap.c:204-207), so that it is rounded twice.

Numbers are multiples of 2^-200.  All numbers that come up (0, and from 100 / 2^31 to 100 * 2^31) are far from the limits of the exponents, so
that rounding is to a number of bits only.
-/

set_option linter.unusedVariables false

namespace Noja.Gc

/-! ## Rounding -/

/-- The integer that is nearest to `a / b`; if there are two, the even one. -/
def nearest (a b : Nat) : Nat :=
  if 2 * (a % b) < b ∨ (2 * (a % b) = b ∧ a / b % 2 = 0) then a / b else a / b + 1

/-- IEEE 754, rounding to nearest: `n / d` with `p` bits. -/
def rounded (p n d : Nat) : Nat := nearest n (d * 2 ^ ((n / d).log2 + 1 - p)) * 2 ^ ((n / d).log2 + 1 - p)

theorem nearest_le {a b k : Nat} (hb : 0 < b) (h : a ≤ k * b) : nearest a b ≤ k := by
  have hd := Nat.div_add_mod a b
  have hm := Nat.mod_lt a hb
  unfold nearest
  by_cases hk : a / b < k
  · split <;> omega
  · have hk' : a / b = k := by
      have : a / b ≤ k := by
        have := Nat.div_le_div_right (c := b) h
        rwa [Nat.mul_div_cancel _ hb] at this
      omega
    have h0 : a % b = 0 := by
      rw [hk', Nat.mul_comm] at hd
      omega
    rw [if_pos (.inl (by omega))]
    omega

theorem le_nearest {a b k : Nat} (hb : 0 < b) (h : k * b ≤ a) : k ≤ nearest a b := by
  have : k ≤ a / b := (Nat.le_div_iff_mul_le hb).2 h
  unfold nearest
  split <;> omega

/-- More than an even number. -/
theorem lt_nearest {a b c : Nat} (hb : 0 < b) (hc : c % 2 = 0) : c < nearest a b ↔ (2 * c + 1) * b < 2 * a := by
  have hd := Nat.div_add_mod a b
  have hm := Nat.mod_lt a hb
  have e1 : (2 * c + 1) * b = 2 * (c * b) + b := by rw [Nat.add_mul, Nat.one_mul, Nat.mul_assoc]
  rw [e1]
  rcases Nat.lt_trichotomy (a / b) c with h | h | h
  · have h1 : (a / b + 1) * b ≤ c * b := Nat.mul_le_mul_right b h
    rw [Nat.add_mul, Nat.one_mul, Nat.mul_comm (a / b) b] at h1
    unfold nearest
    constructor
    · intro hx
      split at hx <;> omega
    · intro hx
      omega
  · rw [h, Nat.mul_comm] at hd
    unfold nearest
    rw [h]
    by_cases hq : 2 * (a % b) < b ∨ (2 * (a % b) = b ∧ c % 2 = 0)
    · rw [if_pos hq]
      omega
    · rw [if_neg hq]
      omega
  · have h1 : (c + 1) * b ≤ a / b * b := Nat.mul_le_mul_right b h
    rw [Nat.add_mul, Nat.one_mul, Nat.mul_comm (a / b) b] at h1
    unfold nearest
    constructor
    · intro _
      omega
    · intro _
      split <;> omega

/-- Rounded, `n / d` is more than a number with `p` bits whose last is 0 exactly if it is more than the middle between that number and the next. -/
theorem lt_rounded {p n d c j : Nat} (hp : 0 < p) (hd : 0 < d) (h1 : 2 ^ (p - 1) ≤ c) (h2 : c < 2 ^ p) (hc : c % 2 = 0) :
    c * 2 ^ j < rounded p n d ↔ (2 * c + 1) * (d * 2 ^ j) < 2 * n := by
  have hx1 : n / d < 2 ^ ((n / d).log2 + 1) := Nat.lt_log2_self
  have pos : ∀ k, 0 < 2 ^ k := fun k => Nat.two_pow_pos k
  have hdm := Nat.div_add_mod n d
  have hmd := Nat.mod_lt n hd
  unfold rounded
  generalize hl : (n / d).log2 = l at *
  rcases Nat.lt_trichotomy (l + 1 - p) j with h | h | h
  · have hle : l + 1 ≤ (p - 1) + j := by omega
    have hn : n / d + 1 ≤ c * 2 ^ j := Nat.le_trans hx1 (Nat.le_trans (Nat.pow_le_pow_right (by omega) hle)
      (by rw [Nat.pow_add]; exact Nat.mul_le_mul_right _ h1))
    have hn : n ≤ c * 2 ^ j * d := by
      have := Nat.mul_le_mul_right d hn
      rw [Nat.add_mul, Nat.one_mul, Nat.mul_comm (n / d) d] at this
      omega
    obtain ⟨e, rfl⟩ : ∃ e, j = e + (l + 1 - p) := ⟨j - (l + 1 - p), by omega⟩
    have hr : nearest n (d * 2 ^ (l + 1 - p)) ≤ c * 2 ^ e := by
      refine nearest_le (Nat.mul_pos hd (pos _)) (Nat.le_trans hn (Nat.le_of_eq ?_))
      rw [Nat.pow_add]
      simp only [Nat.mul_assoc, Nat.mul_comm d]
    have hr := Nat.mul_le_mul_right (2 ^ (l + 1 - p)) hr
    rw [Nat.mul_assoc, ← Nat.pow_add] at hr
    constructor
    · intro hx
      omega
    · intro hx
      have : (2 * c + 1) * (d * 2 ^ (e + (l + 1 - p))) = 2 * (c * 2 ^ (e + (l + 1 - p)) * d) + d * 2 ^ (e + (l + 1 - p)) := by
        rw [Nat.add_mul, Nat.one_mul, Nat.mul_assoc 2 c, Nat.mul_assoc c, Nat.mul_comm d]
      omega
  · rw [h, Nat.mul_lt_mul_right (pos j)]
    exact lt_nearest (Nat.mul_pos hd (pos j)) hc
  · have hx0 : n / d ≠ 0 := by
      intro h0
      rw [h0] at hl
      have : l = 0 := hl.symm
      omega
    have hx2 : 2 ^ l ≤ n / d := by
      rw [← hl]
      exact Nat.log2_self_le hx0
    obtain ⟨e, he⟩ : ∃ e, l + 1 - p = e + 1 + j := ⟨l + 1 - p - j - 1, by omega⟩
    have hl' : l = (p - 1) + (e + 1 + j) := by omega
    have hn : 2 ^ l * d ≤ n := by
      have := Nat.mul_le_mul_right d hx2
      rw [Nat.mul_comm (n / d) d] at this
      omega
    have hbig : (c + 1) * 2 ^ j ≤ 2 ^ l := by
      rw [hl']
      refine Nat.le_trans (Nat.mul_le_mul_right _ h2) ?_
      rw [← Nat.pow_add]
      exact Nat.pow_le_pow_right (by omega) (by omega)
    have hr : 2 ^ (p - 1) ≤ nearest n (d * 2 ^ (l + 1 - p)) := by
      refine le_nearest (Nat.mul_pos hd (pos _)) (Nat.le_trans (Nat.le_of_eq ?_) hn)
      rw [he, hl', Nat.pow_add 2 (p - 1)]
      simp only [Nat.mul_assoc, Nat.mul_comm d]
    have hr := Nat.mul_le_mul_right (2 ^ (l + 1 - p)) hr
    rw [← Nat.pow_add, show p - 1 + (l + 1 - p) = l by omega] at hr
    rw [Nat.add_mul, Nat.one_mul] at hbig
    constructor
    · intro _
      have h3 := Nat.mul_le_mul_right d hbig
      rw [Nat.add_mul] at h3
      have h4 : (2 * c + 1) * (d * 2 ^ j) = 2 * (c * 2 ^ j * d) + 2 ^ j * d := by
        rw [Nat.add_mul, Nat.one_mul, Nat.mul_assoc 2 c, Nat.mul_assoc c, Nat.mul_comm d]
      have := Nat.mul_pos (pos j) hd
      omega
    · intro _
      have := pos j
      omega

/-- How far `a` is from `b`. -/
def dist (a b : Nat) : Nat := (a - b) + (b - a)

theorem nearest_best {a b : Nat} (hb : 0 < b) (k : Nat) : dist a (nearest a b * b) ≤ dist a (k * b) := by
  have hd := Nat.div_add_mod a b
  have hm := Nat.mod_lt a hb
  rw [Nat.mul_comm b] at hd
  have hk : k * b ≤ a / b * b ∨ a / b * b + b ≤ k * b := by
    by_cases h : k ≤ a / b
    · exact .inl (Nat.mul_le_mul_right b h)
    · refine .inr ?_
      have := Nat.mul_le_mul_right b (show a / b + 1 ≤ k by omega)
      rwa [Nat.add_mul, Nat.one_mul] at this
  unfold nearest dist
  split
  · omega
  · rw [Nat.add_mul, Nat.one_mul]
    omega

/-- What `rounded` gives is as near to `n / d` as a number with `p` bits can be. -/
theorem rounded_best {p n d : Nat} (hp : 0 < p) (hd : 0 < d) (m j : Nat) (hm : m < 2 ^ p) :
    dist n (rounded p n d * d) ≤ dist n (m * 2 ^ j * d) := by
  have pos : ∀ k, 0 < 2 ^ k := fun k => Nat.two_pow_pos k
  have hdm := Nat.div_add_mod n d
  unfold rounded
  generalize hl : (n / d).log2 = l at *
  have hb := fun k => nearest_best (a := n) (Nat.mul_pos hd (pos (l + 1 - p))) k
  have hr : ∀ x, x * 2 ^ (l + 1 - p) * d = x * (d * 2 ^ (l + 1 - p)) := fun x => by rw [Nat.mul_assoc, Nat.mul_comm d]
  rw [hr]
  by_cases h : l + 1 - p ≤ j
  · obtain ⟨e, rfl⟩ : ∃ e, j = e + (l + 1 - p) := ⟨j - (l + 1 - p), by omega⟩
    rw [Nat.pow_add, ← Nat.mul_assoc m, hr]
    exact hb _
  · have hx0 : n / d ≠ 0 := by
      intro h0
      rw [h0] at hl
      have : l = 0 := hl.symm
      omega
    have hx2 : 2 ^ l ≤ n / d := by
      rw [← hl]
      exact Nat.log2_self_le hx0
    have hn : 2 ^ l * d ≤ n := by
      have := Nat.mul_le_mul_right d hx2
      rw [Nat.mul_comm (n / d) d] at this
      omega
    have hv : m * 2 ^ j ≤ 2 ^ l := by
      refine Nat.le_trans (Nat.mul_le_mul_right _ (Nat.le_of_lt hm)) ?_
      rw [← Nat.pow_add]
      exact Nat.pow_le_pow_right (by omega) (by omega)
    have hv := Nat.mul_le_mul_right d hv
    refine Nat.le_trans (hb (2 ^ (p - 1))) ?_
    rw [← hr, ← Nat.pow_add, show p - 1 + (l + 1 - p) = l by omega]
    unfold dist
    omega

/-- It has `p` bits itself. -/
theorem rounded_bits {p n d : Nat} (hp : 0 < p) (hd : 0 < d) : ∃ m j, rounded p n d = m * 2 ^ j ∧ m < 2 ^ p := by
  have pos : ∀ k, 0 < 2 ^ k := fun k => Nat.two_pow_pos k
  have hdm := Nat.div_add_mod n d
  have hmd := Nat.mod_lt n hd
  have hx1 : n / d < 2 ^ ((n / d).log2 + 1) := Nat.lt_log2_self
  unfold rounded
  generalize hl : (n / d).log2 = l at *
  have hn : n ≤ 2 ^ (l + 1) * d := by
    have := Nat.mul_le_mul_right d hx1
    rw [Nat.succ_mul, Nat.mul_comm (n / d) d] at this
    omega
  have hle : nearest n (d * 2 ^ (l + 1 - p)) ≤ 2 ^ p := by
    refine nearest_le (Nat.mul_pos hd (pos _)) (Nat.le_trans hn ?_)
    rw [Nat.mul_comm d, ← Nat.mul_assoc, ← Nat.pow_add]
    exact Nat.mul_le_mul_right d (Nat.pow_le_pow_right (by omega) (by omega))
  by_cases h : nearest n (d * 2 ^ (l + 1 - p)) = 2 ^ p
  · refine ⟨1, p + (l + 1 - p), ?_, ?_⟩
    · rw [h, Nat.one_mul, Nat.pow_add]
    · exact Nat.one_lt_two_pow (by omega)
  · exact ⟨_, _, rfl, by omega⟩

/-- One third with 3 bits, in units of 1/1024: 5/16 = 320/1024 is nearer than 6/16. -/
example : rounded 3 1024 3 = 320 := by decide +kernel

/-! ## The percentage -/

/-- heap.c:204-207 `Heap_GetUsagePercentage`, for heaps of at least one byte: `100.0 * total` needs no rounding, the quotient is a double, and the
result is a float. -/
def usagePercentage (total size : Nat) : Nat := rounded 24 (rounded 53 (100 * total * 2 ^ 200) size) 1

/-- run.c:1098: more than 100 percent.  For a heap of no bytes the percentage is infinite or, if nothing is in use, not a number. -/
def above (total size : Nat) : Bool :=
  if size = 0 then decide (0 < total) else decide (100 * 2 ^ 200 < usagePercentage total size)

/-- **C114, when there is a collection**: if more is in use than the heap has. -/
def C114Statement : Prop := ∀ total size, total < 2 ^ 31 → size < 2 ^ 31 → (above total size = true ↔ size < total)

/-- C114, exactly: if more is in use than the heap has, by more than one part of about 26 million. -/
theorem C114_exact (total size : Nat) : above total size = true ↔ (26214401 * 2 ^ 29 + 1) * size < 100 * 2 ^ 47 * total := by
  unfold above
  by_cases h0 : size = 0
  · rw [if_pos h0, h0, decide_eq_true_iff, Nat.mul_zero]
    omega
  · rw [if_neg h0, decide_eq_true_iff]
    unfold usagePercentage
    have a1 := lt_rounded (p := 24) (n := rounded 53 (100 * total * 2 ^ 200) size) (d := 1) (c := 13107200) (j := 183) (by decide) (by decide)
      (by decide) (by decide) (by decide)
    have a2 := lt_rounded (p := 53) (n := 100 * total * 2 ^ 200) (d := size) (c := 26214401 * 2 ^ 28) (j := 154) (by decide) (by omega)
      (by decide) (by decide) (by decide)
    rw [show 100 * 2 ^ 200 = 13107200 * 2 ^ 183 by decide, a1]
    have b1 : (2 * 13107200 + 1) * (1 * 2 ^ 183) = 2 * (26214401 * 2 ^ 28 * 2 ^ 154) := by decide
    rw [b1, Nat.mul_lt_mul_left (by decide), a2]
    have b2 : (2 * (26214401 * 2 ^ 28) + 1) * (size * 2 ^ 154) = (26214401 * 2 ^ 29 + 1) * size * 2 ^ 154 := by
      rw [show 2 * (26214401 * 2 ^ 28) = 26214401 * 2 ^ 29 by decide, Nat.mul_assoc]
    have b3 : 2 * (100 * total * 2 ^ 200) = 100 * 2 ^ 47 * total * 2 ^ 154 := by
      rw [show 2 ^ 200 = 2 ^ 46 * 2 ^ 154 by decide, ← Nat.mul_assoc (100 * total), ← Nat.mul_assoc 2]
      congr 1
      omega
    rw [b2, b3]
    exact Nat.mul_lt_mul_right (Nat.two_pow_pos 154)

/-- C114 holds for heaps of less than 25 MiB. -/
theorem C114_partial (total size : Nat) (hs : size < 26214400) : above total size = true ↔ size < total := by
  rw [C114_exact]
  omega

/-- For all heaps: there is no collection if no more is in use than the heap has, and there is one if it is 82 bytes more. -/
theorem C114_near (total size : Nat) (hs : size < 2 ^ 31) : (total ≤ size → above total size = false) ∧ (size + 82 ≤ total → above total size = true) := by
  refine ⟨fun h => Bool.eq_false_iff.2 fun h' => ?_, fun h => ?_⟩
  · have := (C114_exact total size).1 h'
    omega
  · rw [C114_exact]
    omega

/-- **C114 does not hold**: in a heap of 25 MiB one byte more can be in use. -/
theorem C114_violated : ¬ C114Statement := by
  intro h
  have := (C114_exact _ _).1 ((h 26214401 26214400 (by decide) (by decide)).2 (by decide))
  omega

/-- In a heap of almost 2 GiB it can be 81 bytes. -/
theorem C114_violated_most : above (2147483566 + 81) 2147483566 = false := by
  refine Bool.eq_false_iff.2 fun h => ?_
  have := (C114_exact _ _).1 h
  omega

/-- The heap of the command, unless another one is asked for (main.c:87). -/
example : above 1048576 1048576 = false ∧ above 1048577 1048576 = true :=
  ⟨Bool.eq_false_iff.2 fun h => absurd ((C114_partial _ _ (by decide)).1 h) (by decide), (C114_partial _ _ (by decide)).2 (by decide)⟩

/-! ## The loop of the interpreter -/

/-- heap.c:280-329 `Heap_RawMalloc` during a collection. -/
def moveMalloc (heap : Heap) (size : Nat) : Exec Heap :=
  let used := align heap.used
  let padding := used - heap.used
  if used + size > 2147483647 then .ub
  else if used + size > heap.size then .err
  else .ok { heap with used := used + size, total := heap.total + (size + padding) }

def moveAll : List Nat → Heap → Exec Heap
  | [], h => .ok h
  | n :: ns, h => do
    let h ← moveMalloc h n
    moveAll ns h

/-- heap.c:331-356, 410-425 with runtime.c:728-758: what is moved are objects and their extensions, `kept` are their sizes; an error if they do
not fit, or if there is no memory for the new area. -/
def collection (kept : List Nat) (body : Option Nat) (h : Heap) : Exec Heap :=
  match body with
  | none => .err
  | some body => moveAll kept ⟨body, h.size, 0, 0, [⟨body, h.size⟩]⟩

/-- What happens in one turn of the loop: what the instruction allocates, and what a collection, if there is one, keeps. -/
structure Turn where
  allocs : List (Nat × Option Nat)
  kept : List Nat
  body : Option Nat

/-- run.c:1092-1101. -/
def turn (t : Turn) (h : Heap) : Exec Heap := do
  let (_, h) ← allocs t.allocs [] h
  if above h.total h.size then collection t.kept t.body h else .ok h

def turns : List Turn → Heap → Exec Heap
  | [], h => .ok h
  | t :: ts, h => do
    let h ← turn t h
    turns ts h

theorem moveAll_total : ∀ (ns : List Nat) (h h' : Heap), h.total = h.used → h.used ≤ h.size → moveAll ns h = .ok h' →
    h'.total = h'.used ∧ h'.used ≤ h'.size ∧ h'.size = h.size
  | [], h, h', h1, h2, he => by cases he; exact ⟨h1, h2, rfl⟩
  | n :: ns, h, h', h1, h2, he => by
    obtain ⟨g, hg, he⟩ := Exec.bind_eq_ok.1 he
    unfold moveMalloc at hg
    dsimp only at hg
    have ha := align_ge h.used
    by_cases c1 : align h.used + n > 2147483647
    · rw [if_pos c1] at hg; cases hg
    · rw [if_neg c1] at hg
      by_cases c2 : align h.used + n > h.size
      · rw [if_pos c2] at hg; cases hg
      · rw [if_neg c2] at hg
        cases hg
        have := moveAll_total ns _ h' (by dsimp only; omega) (by dsimp only; omega) he
        exact this

theorem allocs_size : ∀ (rs : List (Nat × Option Nat)) (bs bs' : List Block) (h h' : Heap), allocs rs bs h = .ok (bs', h') → h'.size = h.size
  | [], bs, bs', h, h', he => by cases he; rfl
  | (n, p) :: rs, bs, bs', h, h', he => by
    unfold allocs at he
    obtain ⟨⟨a, g⟩, hg, he⟩ := Exec.bind_eq_ok.1 he
    have hs : g.size = h.size := by
      unfold rawMalloc at hg
      dsimp only at hg
      split at hg
      · cases hg
      · split at hg
        · cases hg
        · split at hg
          · split at hg <;> cases hg <;> rfl
          · cases hg; rfl
    cases a with
    | none => exact (allocs_size rs _ _ _ _ he).trans hs
    | some a => exact (allocs_size rs _ _ _ _ he).trans hs

theorem turn_bounded {t : Turn} {h h' : Heap} (he : turn t h = .ok h') : h'.size = h.size ∧ above h'.total h'.size = false := by
  obtain ⟨⟨bs, g⟩, hg, he⟩ := Exec.bind_eq_ok.1 he
  have hs := allocs_size _ _ _ _ _ hg
  dsimp only at he
  by_cases ha : above g.total g.size = true
  · rw [if_pos ha] at he
    unfold collection at he
    cases hb : t.body with
    | none => rw [hb] at he; cases he
    | some b =>
      rw [hb] at he
      dsimp only at he
      obtain ⟨h1, h2, h3⟩ := moveAll_total _ _ _ rfl (Nat.zero_le _) he
      refine ⟨h3.trans hs, Bool.eq_false_iff.2 fun hc => ?_⟩
      have := (C114_exact _ _).1 hc
      rw [h1] at this
      omega
  · rw [if_neg ha] at he
    cases he
    exact ⟨hs, Bool.eq_false_iff.2 ha⟩

theorem turns_bounded : ∀ (ts : List Turn) (h h' : Heap), above h.total h.size = false → turns ts h = .ok h' →
    h'.size = h.size ∧ above h'.total h'.size = false
  | [], h, h', ha, he => by cases he; exact ⟨rfl, ha⟩
  | t :: ts, h, h', ha, he => by
    obtain ⟨g, hg, he⟩ := Exec.bind_eq_ok.1 he
    obtain ⟨h1, h2⟩ := turn_bounded hg
    obtain ⟨h3, h4⟩ := turns_bounded ts g h' h2 he
    exact ⟨h3.trans h1, h4⟩

/-- **C114, for all runs**: before each instruction no more is in use than the heap has, but for at most 81 bytes, and but for none if the heap has
less than 25 MiB; whatever the instructions allocate, and whatever the collections keep. -/
theorem C114_bounded (size body : Nat) (hs : size < 2 ^ 31) (ts : List Turn) (h : Heap) (he : turns ts (newHeap size body) = .ok h) :
    h.total ≤ size + 81 ∧ (size < 26214400 → h.total ≤ size) := by
  have h0 : above (newHeap size body).total (newHeap size body).size = false := (C114_near 0 size hs).1 (Nat.zero_le _)
  obtain ⟨h1, h2⟩ := turns_bounded ts _ _ h0 he
  have h1 : h.size = size := h1
  rw [h1] at h2
  refine ⟨?_, fun hl => ?_⟩
  · refine Nat.le_of_not_lt fun hc => ?_
    rw [(C114_near _ _ hs).2 (by omega)] at h2
    cases h2
  · refine Nat.le_of_not_lt fun hc => ?_
    rw [(C114_partial _ _ hl).2 hc] at h2
    cases h2

/-- Two instructions in a heap of 40 bytes: after the second one there is a collection, which keeps one object. -/
example : ∃ h, turns [⟨[(24, none)], [], none⟩, ⟨[(24, some 64)], [24], some 128⟩] (newHeap 40 16) = .ok h ∧ h.total = 24 :=
  ⟨⟨128, 40, 24, 24, [⟨128, 40⟩]⟩, by
    have h1 : above 24 40 = false := (C114_near 24 40 (by decide)).1 (by decide)
    have h2 : above 48 40 = true := (C114_partial 48 40 (by decide)).2 (by decide)
    have e1 : turn ⟨[(24, none)], [], none⟩ (newHeap 40 16) = .ok ⟨16, 40, 24, 24, [⟨16, 40⟩]⟩ := by
      show (if above 24 40 = true then (.err : Exec Heap) else .ok ⟨16, 40, 24, 24, [⟨16, 40⟩]⟩) = _
      rw [h1]
      rfl
    have e2 : turn ⟨[(24, some 64)], [24], some 128⟩ ⟨16, 40, 24, 24, [⟨16, 40⟩]⟩ = .ok ⟨128, 40, 24, 24, [⟨128, 40⟩]⟩ := by
      show (if above 48 40 = true then collection [24] (some 128) ⟨16, 40, 24, 48, [⟨64, 32⟩, ⟨16, 40⟩]⟩
        else .ok ⟨16, 40, 24, 48, [⟨64, 32⟩, ⟨16, 40⟩]⟩) = _
      rw [h2]
      rfl
    unfold turns
    rw [e1, Exec.bind_ok]
    unfold turns
    rw [e2, Exec.bind_ok]
    rfl, rfl⟩

end Noja.Gc
