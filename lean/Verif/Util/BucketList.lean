import Verif.Exec

/-!
# `src/lib/utils/bucketlist.c` and property C06

A bucket is its capacity and the bytes used so far.  The arena allocator is a
list of yes/no answers (`allocs`): whether each request for a new bucket
succeeds (an exhausted list means success).  Sizes that overflow `int` are not
modelled.
-/

namespace Noja.BucketList

/-! ## Model -/

/-- bucketlist.c:39-46 `struct Bucket` (`used` is `data.length`; `aidx` is never read). -/
structure Bucket where
  size : Nat
  data : List UInt8
deriving DecidableEq

/-- bucketlist.c:48-53 `struct xBucketList`: the buckets before the tail, the tail, `size`. -/
structure BL where
  front : List Bucket
  tail : Bucket
  size : Nat
deriving DecidableEq

/-- bucketlist.c:36 `MIN_BUCKET_SIZE`. -/
def minBucket : Nat := 4096

/-- bucketlist.c:56-76 `BucketList_New`. -/
def new : BL := { front := [], tail := ⟨minBucket, []⟩, size := 0 }

/-- bucketlist.c:83-96 `make_bucket` followed by `append_bucket`. -/
def addBucket (b : BL) (size : Nat) : BL :=
  { b with front := b.front ++ [b.tail], tail := ⟨size, []⟩ }

/-- The answer of the allocator to the next request. -/
def ask : List Bool → Bool × List Bool
  | [] => (true, [])
  | a :: as => (a, as)

/-- bucketlist.c:112-145, the copy loop of `BucketList_Append`; `rest` is the data not copied
yet.  Returns the list, whether it succeeded, and the remaining allocator answers. -/
def appendLoop : (fuel : Nat) → List Bool → BL → (rest : List UInt8) → Exec (BL × Bool × List Bool)
  | 0, _, _, _ => .diverge
  | fuel + 1, allocs, b, rest =>
    if rest.length > 0 then
      let left := b.tail.size - b.tail.data.length
      let step (allocs : List Bool) (b : BL) :=
        let copying := min rest.length left
        let b := { b with tail := { b.tail with data := b.tail.data ++ rest.take copying } }
        appendLoop fuel allocs b (rest.drop copying)
      if left = 0 then
        let (ok, allocs) := ask allocs
        if ok then step allocs (addBucket b minBucket) else .ok (b, false, allocs)
      else step allocs b
    else .ok (b, true, allocs)

/-- bucketlist.c:105-151 `BucketList_Append(blist, data, size)`; a NULL `data` is a list of
zeros. -/
def append (allocs : List Bool) (b : BL) (data : List UInt8) : Exec (BL × Bool × List Bool) := do
  let (b, ok, allocs) ← appendLoop (2 * data.length + 2) allocs b data
  if ok then .ok ({ b with size := b.size + data.length }, true, allocs)
  else .ok (b, false, allocs)

/-- Address inside a bucket list: bucket number and offset in its body. -/
abbrev Addr := Nat × Nat

/-- bucketlist.c:153-184 `BucketList_Append2`; also returns the address of the copy. -/
def append2 (allocs : List Bool) (b : BL) (data : List UInt8) : BL × Option Addr × List Bool :=
  let finish (b : BL) (allocs : List Bool) :=
    ({ b with tail := { b.tail with data := b.tail.data ++ data }, size := b.size + data.length },
     some (b.front.length, b.tail.data.length), allocs)
  if b.tail.data.length + data.length > b.tail.size then
    let (ok, allocs) := ask allocs
    if ok then finish (addBucket b (max minBucket data.length)) allocs
    else (b, none, allocs)
  else finish b allocs

/-- bucketlist.c:199-207, the loop of `BucketList_Copy`. -/
def copyLoop : List Bucket → (len copied : Nat) → List UInt8 → List UInt8
  | [], _, _, dest => dest
  | k :: ks, len, copied, dest =>
    if copied < len then
      let copying := min (len - copied) k.data.length
      copyLoop ks len (copied + copying) (dest ++ k.data.take copying)
    else dest

/-- bucketlist.c:186-208 `BucketList_Copy`: the bytes written to `dest`. -/
def copy (b : BL) (len : Int) : List UInt8 :=
  let len := if len < 0 then b.size else len.toNat
  copyLoop (b.front ++ [b.tail]) len 0 []

/-! ## Specification -/

/-- An append request: copying (`BucketList_Append`) or in place (`BucketList_Append2`). -/
inductive Op
  | append (data : List UInt8)
  | append2 (data : List UInt8)

/-- The bytes an operation appends. -/
def Op.data : Op → List UInt8
  | .append d => d
  | .append2 d => d

/-- Everything appended, in order. -/
def Spec.contents (ops : List Op) : List UInt8 := ops.flatMap Op.data

/-- Performs a request when the allocator never fails. -/
def perform (b : BL) : Op → Exec (BL × Bool)
  | .append d => do let (b, ok, _) ← append [] b d; .ok (b, ok)
  | .append2 d => let (b, a, _) := append2 [] b d; .ok (b, a.isSome)

/-- Performs a history of requests. -/
def run : BL → List Op → Exec BL
  | b, [] => .ok b
  | b, o :: os => do
    let (b, ok) ← perform b o
    if ok then run b os else .err

/-- The `n` bytes stored at an address. -/
def readAt (b : BL) (a : Addr) (n : Nat) : Option (List UInt8) :=
  ((b.front ++ [b.tail])[a.1]?).bind fun k =>
    if a.2 + n ≤ k.data.length then some ((k.data.drop a.2).take n) else none

/-! ## Proof -/

/-- All stored bytes in order. -/
def bytes (b : BL) : List UInt8 := (b.front ++ [b.tail]).flatMap Bucket.data

/-- The tail bucket never exceeds its capacity. -/
def Inv (b : BL) : Prop := b.tail.data.length ≤ b.tail.size

theorem bytes_addBucket (b : BL) (n : Nat) : bytes (addBucket b n) = bytes b := by
  simp [bytes, addBucket]

theorem bytes_extend (b : BL) (d : List UInt8) (n : Nat) :
    bytes { b with tail := { b.tail with data := b.tail.data ++ d }, size := n } = bytes b ++ d := by
  simp [bytes]

/-- Bucket-wise prefix order: later states only extend earlier ones. -/
def Ext (b c : BL) : Prop :=
  ∀ (i : Nat) (k : Bucket), (b.front ++ [b.tail])[i]? = some k →
    ∃ k' : Bucket, (c.front ++ [c.tail])[i]? = some k' ∧ k.data <+: k'.data

theorem Ext.refl (b : BL) : Ext b b := fun _ k h => ⟨k, h, List.prefix_refl _⟩

theorem Ext.trans {a b c : BL} (h1 : Ext a b) (h2 : Ext b c) : Ext a c := by
  intro i k h
  obtain ⟨k1, e1, p1⟩ := h1 i k h
  obtain ⟨k2, e2, p2⟩ := h2 i k1 e1
  exact ⟨k2, e2, p1.trans p2⟩

theorem ext_addBucket (b : BL) (n : Nat) : Ext b (addBucket b n) := by
  intro i k h
  refine ⟨k, ?_, List.prefix_refl _⟩
  have hi := (List.getElem?_eq_some_iff.mp h).1
  simp only [addBucket]
  rw [List.getElem?_append_left hi]; exact h

theorem ext_extend (b : BL) (d : List UInt8) (n : Nat) :
    Ext b { b with tail := { b.tail with data := b.tail.data ++ d }, size := n } := by
  intro i k h
  simp only
  by_cases hi : i < b.front.length
  · rw [List.getElem?_append_left hi] at h ⊢
    exact ⟨k, h, List.prefix_refl _⟩
  · rw [List.getElem?_append_right (by omega)] at h ⊢
    have : i - b.front.length = 0 := by
      have := (List.getElem?_eq_some_iff.mp h).1
      simp at this; omega
    rw [this] at h ⊢
    simp only [List.getElem?_cons_zero, Option.some.injEq] at h
    subst h
    exact ⟨_, rfl, List.prefix_append _ _⟩

theorem appendLoop_spec : ∀ (fuel : Nat) (b : BL) (rest : List UInt8), Inv b →
    2 * rest.length + (if rest.length > 0 ∧ b.tail.size = b.tail.data.length then 1 else 0) < fuel →
    ∃ c, appendLoop fuel [] b rest = .ok (c, true, []) ∧ Inv c ∧ bytes c = bytes b ++ rest ∧
      c.size = b.size ∧ Ext b c := by
  intro fuel
  induction fuel with
  | zero => intro b rest _ h; omega
  | succ f ih =>
    intro b rest hi hf
    unfold appendLoop
    by_cases hr : rest.length > 0
    · rw [if_pos hr]
      simp only []
      by_cases hl : b.tail.size - b.tail.data.length = 0
      · rw [if_pos hl]
        have he : b.tail.size = b.tail.data.length := by unfold Inv at hi; omega
        rw [if_pos ⟨hr, he⟩] at hf
        simp only [ask, if_true]
        rw [hl]
        simp only [Nat.zero_le, Nat.min_eq_right, List.take_zero, List.append_nil, List.drop_zero]
        obtain ⟨c, h1, h2, h3, h4, h5⟩ := ih (addBucket b minBucket) rest
          (by simp [Inv, addBucket]) (by
            rw [if_neg (by simp [addBucket, minBucket])]; omega)
        refine ⟨c, h1, h2, ?_, h4, (ext_addBucket _ _).trans h5⟩
        rw [h3, bytes_addBucket]
      · rw [if_neg hl]
        have hm : 0 < min rest.length (b.tail.size - b.tail.data.length) := by omega
        generalize hk : min rest.length (b.tail.size - b.tail.data.length) = k at *
        obtain ⟨c, h1, h2, h3, h4, h5⟩ := ih
          { b with tail := { b.tail with data := b.tail.data ++ rest.take k } } (rest.drop k)
          (by unfold Inv; simp only [List.length_append, List.length_take]; omega) (by
            simp only [List.length_drop]
            split <;> omega)
        refine ⟨c, h1, h2, ?_, h4, (ext_extend b (rest.take k) b.size).trans h5⟩
        rw [h3]
        have := bytes_extend b (rest.take k) b.size
        simp only at this
        rw [this, List.append_assoc, List.take_append_drop]
    · rw [if_neg hr]
      have : rest = [] := List.eq_nil_of_length_eq_zero (by omega)
      subst this
      exact ⟨b, rfl, hi, by simp, rfl, Ext.refl b⟩

theorem perform_spec (b : BL) (hi : Inv b) (o : Op) :
    ∃ c, perform b o = .ok (c, true) ∧ Inv c ∧ bytes c = bytes b ++ o.data ∧
      c.size = b.size + o.data.length ∧ Ext b c := by
  cases o with
  | append d =>
    obtain ⟨c, h1, h2, h3, h4, h5⟩ := appendLoop_spec (2 * d.length + 2) b d hi (by
      split <;> omega)
    refine ⟨{ c with size := c.size + d.length }, ?_, h2, ?_, by simp [h4, Op.data], h5⟩
    · simp [perform, append, h1]
    · simpa [bytes, Op.data] using h3
  | append2 d =>
    simp only [perform, append2, ask]
    by_cases h : b.tail.data.length + d.length > b.tail.size
    · simp only [if_pos h, if_true]
      refine ⟨_, rfl, ?_, ?_, rfl, ?_⟩
      · simp [Inv, addBucket]; omega
      · rw [bytes_extend, bytes_addBucket]; rfl
      · exact (ext_addBucket _ _).trans (ext_extend _ _ _)
    · simp only [if_neg h]
      refine ⟨_, rfl, ?_, bytes_extend _ _ _, rfl, ext_extend _ _ _⟩
      simp [Inv]; omega

theorem run_spec (ops : List Op) : ∀ b, Inv b →
    ∃ c, run b ops = .ok c ∧ Inv c ∧ bytes c = bytes b ++ Spec.contents ops ∧
      c.size = b.size + (Spec.contents ops).length ∧ Ext b c := by
  induction ops with
  | nil => intro b h; exact ⟨b, rfl, h, by simp [Spec.contents], rfl, Ext.refl b⟩
  | cons o os ih =>
    intro b h
    obtain ⟨c, h1, h2, h3, h4, h5⟩ := perform_spec b h o
    obtain ⟨d, k1, k2, k3, k4, k5⟩ := ih c h2
    refine ⟨d, ?_, k2, ?_, ?_, h5.trans k5⟩
    · simp [run, h1, k1]
    · rw [k3, h3]; simp [Spec.contents]
    · rw [k4, h4]; simp [Spec.contents]; omega

theorem copyLoop_spec : ∀ (ks : List Bucket) (len copied : Nat) (dest : List UInt8),
    copyLoop ks len copied dest = dest ++ (ks.flatMap Bucket.data).take (len - copied) := by
  intro ks
  induction ks with
  | nil => intro len copied dest; simp [copyLoop]
  | cons k ks ih =>
    intro len copied dest
    unfold copyLoop
    by_cases h : copied < len
    · rw [if_pos h]
      simp only []
      rw [ih]
      simp only [List.flatMap_cons, List.take_append, List.append_assoc]
      congr 2
      · by_cases hk : len - copied ≤ k.data.length
        · rw [Nat.min_eq_left hk]
        · rw [Nat.min_eq_right (by omega), List.take_of_length_le (by omega),
            List.take_of_length_le (by omega)]
      · congr 1; omega
    · rw [if_neg h, show len - copied = 0 by omega]; simp

/-- **C06**: after any history of appends the size is the total appended, copying out gives
everything appended in order (or any requested prefix), and every later state still holds at
its address each piece appended in place. -/
theorem C06_contents (ops : List Op) :
    ∃ b, run new ops = .ok b ∧ b.size = (Spec.contents ops).length ∧
      copy b (-1) = Spec.contents ops ∧
      ∀ n : Nat, copy b n = (Spec.contents ops).take n := by
  obtain ⟨b, h1, -, h3, h4, -⟩ := run_spec ops new (by simp [Inv, new])
  have hb : bytes b = Spec.contents ops := by rw [h3]; simp [bytes, new]
  have hs : b.size = (Spec.contents ops).length := by rw [h4]; simp [new]
  refine ⟨b, h1, hs, ?_, ?_⟩
  · simp only [copy]
    rw [if_pos (by omega), copyLoop_spec]
    show [] ++ List.take _ (bytes b) = _
    rw [hb, hs]; simp
  · intro n
    simp only [copy]
    rw [if_neg (by omega), copyLoop_spec]
    show [] ++ List.take _ (bytes b) = _
    rw [hb]; simp

/-- **C06**, positions: a piece appended after the history `pre` is found, whatever is appended
later, at the offset that was the size before it was appended. -/
theorem C06_offset_stable (pre post : List Op) (o : Op) :
    ∃ b c, run new pre = .ok b ∧ run new (pre ++ o :: post) = .ok c ∧
      ((copy c (-1)).drop b.size).take o.data.length = o.data := by
  obtain ⟨b, h1, h2, -, -⟩ := C06_contents pre
  obtain ⟨c, k1, -, k3, -⟩ := C06_contents (pre ++ o :: post)
  refine ⟨b, c, h1, k1, ?_⟩
  rw [k3, h2]
  simp [Spec.contents]

/-- **C06**, addresses: the address returned by an in-place append holds the piece, forever. -/
theorem C06_address_stable (pre post : List Op) (d : List UInt8) :
    ∃ b c a, run new pre = .ok b ∧ (append2 [] b d).2.1 = some a ∧
      run new (pre ++ .append2 d :: post) = .ok c ∧ readAt c a d.length = some d := by
  obtain ⟨b, h1, h2, -, -, -⟩ := run_spec pre new (by simp [Inv, new])
  obtain ⟨b', p1, p2, -, -, -⟩ := perform_spec b h2 (.append2 d)
  obtain ⟨c, r1, -, -, -, r5⟩ := run_spec post b' p2
  have hr : run new (pre ++ .append2 d :: post) = .ok c := by
    have gen : ∀ (pre : List Op) (x : BL), run x pre = .ok b →
        run x (pre ++ .append2 d :: post) = .ok c := by
      intro pre
      induction pre with
      | nil => intro x hx; simp only [run] at hx; cases hx; simp [run, p1, r1]
      | cons q qs ih =>
        intro x hx
        simp only [run, List.cons_append] at hx ⊢
        obtain ⟨⟨y, ok⟩, e1, e2⟩ := Exec.bind_eq_ok.mp hx
        rw [e1, Exec.bind_ok]
        cases ok with
        | true => simp only [if_true] at e2 ⊢; exact ih y e2
        | false => simp at e2
    exact gen pre new h1
  have key : ∃ a, (append2 [] b d).2.1 = some a ∧ readAt b' a d.length = some d := by
    simp only [perform, append2, ask] at p1 ⊢
    by_cases h : b.tail.data.length + d.length > b.tail.size
    · simp only [if_pos h, if_true] at p1 ⊢
      cases p1
      refine ⟨_, rfl, ?_⟩
      simp [readAt, addBucket]
    · simp only [if_neg h] at p1 ⊢
      cases p1
      refine ⟨_, rfl, ?_⟩
      simp [readAt]
  obtain ⟨a, ha, hrd⟩ := key
  refine ⟨b, c, a, h1, ha, hr, ?_⟩
  unfold readAt at hrd ⊢
  cases hk : (b'.front ++ [b'.tail])[a.1]? with
  | none => rw [hk] at hrd; cases hrd
  | some k =>
    rw [hk] at hrd
    simp only [Option.bind_some] at hrd
    split at hrd
    · rename_i hle
      obtain ⟨k', e, p⟩ := r5 _ _ hk
      rw [e]
      obtain ⟨t, ht⟩ := p
      simp only [Option.bind_some]
      rw [if_pos (by rw [← ht]; simp; omega), ← ht]
      rw [← hrd]
      congr 1
      rw [List.drop_append_of_le_length (by omega), List.take_append_of_le_length (by simp; omega)]
    · cases hrd

/-- Beyond C06: when the allocator fails in the middle of a copying append, the call reports
failure but the bytes copied so far stay in the buffer while the size does not count them.
(The compiler abandons the whole buffer on failure, so no program observes this.) -/
theorem C06_note_failed_append_leaves_bytes (l : List UInt8) (hl : l.length = 4095) :
    ∃ b c, run new [.append2 l] = .ok b ∧ append [false] b [7, 8] = .ok (c, false, []) ∧
      c.size = b.size ∧ bytes c = bytes b ++ [7] := by
  refine ⟨⟨[], ⟨4096, l⟩, 4095⟩, ⟨[], ⟨4096, l ++ [7]⟩, 4095⟩, ?_, ?_, rfl, ?_⟩
  · simp [run, perform, append2, new, minBucket, hl]
  · simp [append, appendLoop, hl, ask]
  · simp [bytes]

example : ∃ b, run new [.append [1, 2], .append2 [3], .append2 [], .append [4]] = .ok b ∧
    copy b (-1) = [1, 2, 3, 4] ∧ copy b 3 = [1, 2, 3] ∧ b.size = 4 :=
  ⟨_, rfl, rfl, rfl, rfl⟩

end Noja.BucketList
