import Verif.Graph.Eq

/-!
# The hashes of lists and maps (C12)

The hash of a list is the sum of those of its items, and that of a map the sum of those of its keys and values.  The sums are sums of `int`s: as
soon as one of them does not fit, the behaviour is undefined.
-/

namespace Noja.Graph

/-- The number is an `int`. -/
def FitsInt (x : Int) : Prop := -2 ^ 31 ≤ x ∧ x < 2 ^ 31

instance (x : Int) : Decidable (FitsInt x) := by unfold FitsInt; infer_instance

/-- The sum of the first `n` numbers. -/
def sumUpTo (xs : List Int) (n : Nat) : Int := (xs.take n).sum

theorem addInt_ok {x y : BitVec 32} (h : FitsInt (x.toInt + y.toInt)) : ∃ z, addInt x y = .ok z ∧ z.toInt = x.toInt + y.toInt := by
  unfold FitsInt at h
  refine ⟨x + y, ?_, ?_⟩
  · unfold addInt
    rw [if_neg]
    simp only [BitVec.saddOverflow, Bool.or_eq_true, decide_eq_true_eq]
    omega
  · rw [BitVec.toInt_add, Int.bmod_def]
    split <;> omega

theorem addInt_ub {x y : BitVec 32} (h : ¬ FitsInt (x.toInt + y.toInt)) : addInt x y = .ub := by
  unfold FitsInt at h
  unfold addInt
  rw [if_pos]
  simp only [BitVec.saddOverflow, Bool.or_eq_true, decide_eq_true_eq]
  omega

/-- Every item has a hash. -/
inductive Hashes (f : Nat → Exec (BitVec 32)) : List Nat → List Int → Prop
  | nil : Hashes f [] []
  | cons {r rs x xs} : f r = .ok x → Hashes f rs xs → Hashes f (r :: rs) (x.toInt :: xs)

theorem hashSum_ok {f : Nat → Exec (BitVec 32)} {rs : List Nat} {xs : List Int} (h : Hashes f rs xs) :
    ∀ acc : BitVec 32, (∀ n, n ≤ xs.length → FitsInt (acc.toInt + sumUpTo xs n)) →
      ∃ z, hashSum f rs acc = .ok z ∧ z.toInt = acc.toInt + xs.sum := by
  induction h with
  | nil => exact fun acc _ => ⟨acc, rfl, by simp⟩
  | @cons r rs x xs hx _ ih =>
    intro acc hf
    have h1 := hf 1 (by simp)
    simp only [sumUpTo, List.take_succ_cons, List.take_zero, List.sum_cons, List.sum_nil, Int.add_zero] at h1
    obtain ⟨a, ha, hv⟩ := addInt_ok h1
    obtain ⟨z, hz, hw⟩ := ih a fun n hn => by
      have := hf (n + 1) (by simp; omega)
      simp only [sumUpTo, List.take_succ_cons, List.sum_cons] at this ⊢
      rw [hv]
      rw [Int.add_assoc]
      exact this
    refine ⟨z, ?_, by rw [hw, hv, List.sum_cons, Int.add_assoc]⟩
    show (f r >>= fun x => addInt acc x >>= fun acc => hashSum f rs acc) = _
    rw [hx]
    show (addInt acc x >>= fun acc => hashSum f rs acc) = _
    rw [ha]
    exact hz

theorem hashSum_ub {f : Nat → Exec (BitVec 32)} {rs : List Nat} {xs : List Int} (h : Hashes f rs xs) :
    ∀ acc : BitVec 32, (∃ n, n ≤ xs.length ∧ ¬ FitsInt (acc.toInt + sumUpTo xs n)) → hashSum f rs acc = .ub := by
  induction h with
  | nil =>
    intro acc ⟨n, _, hn⟩
    refine absurd ?_ hn
    have h1 := BitVec.toInt_lt (x := acc)
    have h2 := BitVec.le_toInt (x := acc)
    simp only [sumUpTo, List.take_nil, List.sum_nil, FitsInt]
    omega
  | @cons r rs x xs hx _ ih =>
    intro acc ⟨n, hl, hn⟩
    show (f r >>= fun x => addInt acc x >>= fun acc => hashSum f rs acc) = _
    rw [hx]
    show (addInt acc x >>= fun acc => hashSum f rs acc) = _
    by_cases h1 : FitsInt (acc.toInt + x.toInt)
    · obtain ⟨a, ha, hv⟩ := addInt_ok h1
      rw [ha]
      refine ih a ?_
      cases n with
      | zero =>
        refine absurd ?_ hn
        have h1 := BitVec.toInt_lt (x := acc)
        have h2 := BitVec.le_toInt (x := acc)
        simp only [sumUpTo, List.take_zero, List.sum_nil, FitsInt]
        omega
      | succ n =>
        refine ⟨n, by simpa using hl, fun hc => hn ?_⟩
        simp only [sumUpTo, List.take_succ_cons, List.sum_cons] at hc ⊢
        rw [← Int.add_assoc, ← hv]
        exact hc
    · rw [addInt_ub h1]
      rfl

/-- **C12, for lists**: the hash of a list whose items have hashes is their sum, if all sums of its first items are `int`s; if not, the
behaviour is undefined. -/
theorem C12_list {h : Heap} {r fuel : Nat} {items : List Nat} {xs : List Int} (hr : h[r]? = some (.list items))
    (hx : Hashes (hash h fuel) items xs) :
    ((∀ n, n ≤ xs.length → FitsInt (sumUpTo xs n)) → ∃ z, hash h (fuel + 1) r = .ok z ∧ z.toInt = xs.sum) ∧
    ((∃ n, n ≤ xs.length ∧ ¬ FitsInt (sumUpTo xs n)) → hash h (fuel + 1) r = .ub) := by
  have e : hash h (fuel + 1) r = hashSum (hash h fuel) items 0 := hash_succ hr
  have z0 : (0 : BitVec 32).toInt = 0 := by decide
  rw [e]
  refine ⟨fun hf => ?_, fun hf => ?_⟩
  · have := hashSum_ok hx 0 (by simpa [z0] using hf)
    simpa [z0] using this
  · exact hashSum_ub hx 0 (by simpa [z0] using hf)

theorem perm_sum {xs ys : List Int} (h : xs.Perm ys) : xs.sum = ys.sum := by
  induction h with
  | nil => rfl
  | cons x _ ih => rw [List.sum_cons, List.sum_cons, ih]
  | swap x y l => simp only [List.sum_cons]; omega
  | trans _ _ h1 h2 => exact h1.trans h2

/-- C12, for lists: where no sum is too large, the order of the items does not count. -/
theorem C12_order {h : Heap} {r r' fuel : Nat} {items items' : List Nat} {xs xs' : List Int} (hr : h[r]? = some (.list items))
    (hr' : h[r']? = some (.list items')) (hx : Hashes (hash h fuel) items xs) (hx' : Hashes (hash h fuel) items' xs') (hp : xs.Perm xs')
    (hf : ∀ n, n ≤ xs.length → FitsInt (sumUpTo xs n)) (hf' : ∀ n, n ≤ xs'.length → FitsInt (sumUpTo xs' n)) :
    hash h (fuel + 1) r = hash h (fuel + 1) r' := by
  obtain ⟨z, h1, h2⟩ := (C12_list hr hx).1 hf
  obtain ⟨z', h1', h2'⟩ := (C12_list hr' hx').1 hf'
  rw [h1, h1', BitVec.eq_of_toInt_eq (h2.trans ((perm_sum hp).trans h2'.symm))]

/-- Every key and every value has a hash, and so have the two together. -/
inductive EntryHashes (f : Nat → Exec (BitVec 32)) : List (Nat × Nat) → List Int → Prop
  | nil : EntryHashes f [] []
  | cons {k v es x y xs} : f k = .ok x → f v = .ok y → FitsInt (x.toInt + y.toInt) → EntryHashes f es xs →
      EntryHashes f ((k, v) :: es) ((x.toInt + y.toInt) :: xs)

theorem hashEntries_ok {f : Nat → Exec (BitVec 32)} {es : List (Nat × Nat)} {xs : List Int} (h : EntryHashes f es xs) :
    ∀ acc : BitVec 32, (∀ n, n ≤ xs.length → FitsInt (acc.toInt + sumUpTo xs n)) →
      ∃ z, hashEntries f es acc = .ok z ∧ z.toInt = acc.toInt + xs.sum := by
  induction h with
  | nil => exact fun acc _ => ⟨acc, rfl, by simp⟩
  | @cons k v es x y xs hx hy hxy _ ih =>
    intro acc hf
    obtain ⟨s, hs, hsv⟩ := addInt_ok hxy
    have h1 := hf 1 (by simp)
    simp only [sumUpTo, List.take_succ_cons, List.take_zero, List.sum_cons, List.sum_nil, Int.add_zero] at h1
    rw [← hsv] at h1
    obtain ⟨a, ha, hv⟩ := addInt_ok h1
    obtain ⟨z, hz, hw⟩ := ih a fun n hn => by
      have := hf (n + 1) (by simp; omega)
      simp only [sumUpTo, List.take_succ_cons, List.sum_cons] at this ⊢
      rw [hv, hsv, Int.add_assoc]
      exact this
    refine ⟨z, ?_, by rw [hw, hv, hsv, List.sum_cons, Int.add_assoc]⟩
    show (f k >>= fun x => f v >>= fun y => addInt x y >>= fun s => addInt acc s >>= fun acc => hashEntries f es acc) = _
    rw [hx]
    show (f v >>= fun y => addInt x y >>= fun s => addInt acc s >>= fun acc => hashEntries f es acc) = _
    rw [hy]
    show (addInt x y >>= fun s => addInt acc s >>= fun acc => hashEntries f es acc) = _
    rw [hs]
    show (addInt acc s >>= fun acc => hashEntries f es acc) = _
    rw [ha]
    exact hz

/-- **C12, for maps**: the hash of a map is the sum of the hashes of its keys and values, if all sums on the way are `int`s. -/
theorem C12_map {h : Heap} {r fuel : Nat} {es : List (Nat × Nat)} {xs : List Int} (hr : h[r]? = some (.map es))
    (hx : EntryHashes (hash h fuel) es xs) (hf : ∀ n, n ≤ xs.length → FitsInt (sumUpTo xs n)) :
    ∃ z, hash h (fuel + 1) r = .ok z ∧ z.toInt = xs.sum := by
  have e : hash h (fuel + 1) r = hashEntries (hash h fuel) es 0 := hash_succ hr
  have z0 : (0 : BitVec 32).toInt = 0 := by decide
  rw [e]
  have := hashEntries_ok hx 0 (by simpa [z0] using hf)
  simpa [z0] using this

/-- C12, for maps: if the hash of the key and that of the value of the first entry together are no `int`, the behaviour is undefined. -/
theorem C12_map_ub {h : Heap} {r fuel k v : Nat} {es : List (Nat × Nat)} {x y : BitVec 32} (hr : h[r]? = some (.map ((k, v) :: es)))
    (hk : hash h fuel k = .ok x) (hv : hash h fuel v = .ok y) (hf : ¬ FitsInt (x.toInt + y.toInt)) : hash h (fuel + 1) r = .ub := by
  have e : hash h (fuel + 1) r = (hash h fuel k >>= fun x => hash h fuel v >>= fun y => addInt x y >>= fun s => addInt 0 s >>= fun acc =>
    hashEntries (hash h fuel) es acc) := hash_succ hr
  rw [e, hk]
  show (hash h fuel v >>= fun y => addInt x y >>= fun s => addInt 0 s >>= fun acc => hashEntries (hash h fuel) es acc) = _
  rw [hv]
  show (addInt x y >>= fun s => addInt 0 s >>= fun acc => hashEntries (hash h fuel) es acc) = _
  rw [addInt_ub hf]
  rfl

/-- `[true, none, true]` and `[none, true, true]` have the hash 2, and the map `{true: true, none: true}` has the hash 3. -/
example : ∃ h : Heap, h[2]? = some (.list [0, 1, 0]) ∧ h[3]? = some (.list [1, 0, 0]) ∧ h[4]? = some (.map [(0, 0), (1, 0)]) ∧
    Hashes (hash h 1) [0, 1, 0] [1, 0, 1] ∧ Hashes (hash h 1) [1, 0, 0] [0, 1, 1] ∧ [1, 0, 1].Perm [0, 1, 1] ∧
    EntryHashes (hash h 1) [(0, 0), (1, 0)] [2, 1] ∧ (∀ n, n ≤ 3 → FitsInt (sumUpTo [1, 0, 1] n)) ∧
    (∀ n, n ≤ 3 → FitsInt (sumUpTo [0, 1, 1] n)) ∧ ∀ n, n ≤ 2 → FitsInt (sumUpTo [2, 1] n) := by
  refine ⟨[.bool true, .none, .list [0, 1, 0], .list [1, 0, 0], .map [(0, 0), (1, 0)]], rfl, rfl, rfl, ?_, ?_, by decide, ?_, ?_, ?_, ?_⟩
  · exact .cons (x := 1) rfl (.cons (x := 0) rfl (.cons (x := 1) rfl .nil))
  · exact .cons (x := 0) rfl (.cons (x := 1) rfl (.cons (x := 1) rfl .nil))
  · exact .cons (x := 1) (y := 1) rfl rfl (by decide) (.cons (x := 0) (y := 1) rfl rfl (by decide) .nil)
  · exact by decide
  · exact by decide
  · exact by decide

/-- C12 as one would wish it for lists: a list of items that have hashes has one. -/
def C12_listStatement : Prop :=
  ∀ (h : Heap) (r fuel : Nat) (items : List Nat) (xs : List Int), h[r]? = some (.list items) → Hashes (hash h fuel) items xs →
    ∃ z, hash h (fuel + 1) r = .ok z

/-- The heap with `4`, `[4, 4, 4]`, `8` and `{8: 8}`. -/
def fours : Heap := [.int 4, .list [0, 0, 0], .int 8, .map [(2, 2)]]

theorem hash_four : hash fours 1 0 = .ok (BitVec.ofInt 32 1052609316) := by decide +kernel

/-- **C12 does not hold for lists**: the hash of `4` is 1052609316, so that of `[4, 4, 4]` overflows. -/
theorem C12_list_violated : ¬ C12_listStatement := by
  intro h
  obtain ⟨z, hz⟩ := h fours 1 1 [0, 0, 0] _ rfl (.cons hash_four (.cons hash_four (.cons hash_four .nil)))
  have hub : hash fours 2 1 = .ub :=
    (C12_list (h := fours) rfl (.cons hash_four (.cons hash_four (.cons hash_four .nil)))).2 ⟨3, by decide, by decide⟩
  rw [hub] at hz
  cases hz

/-- The conditions of `C12_map_ub` are met by `{8: 8}`. -/
example : ∃ x, hash fours 1 2 = .ok x ∧ ¬ FitsInt (x.toInt + x.toInt) :=
  ⟨BitVec.ofInt 32 2105218640, by decide +kernel, by decide⟩

/-! ## The hashes of bytes -/

theorem hashLoop_snoc (pre : List UInt8) (b : UInt8) : ∀ (len i : Nat) (x : BitVec 32), i + len = pre.length →
    ∃ y, hashLoop pre len i x = .ok y ∧ hashLoop (pre ++ [b]) (len + 1) i x = .ok ((1000003#32 * y) ^^^ BitVec.ofNat 32 b.toNat)
  | 0, i, x, h => by
    refine ⟨x, rfl, ?_⟩
    rw [hashLoop, rd_of_lt (show i < (pre ++ [b]).length by simp; omega), Exec.bind_ok, hashLoop]
    rw [List.getElem_append_right (by omega)]
    simp
  | n + 1, i, x, h => by
    have hi : i < pre.length := by omega
    have hi' : i < (pre ++ [b]).length := by simp; omega
    obtain ⟨y, h1, h2⟩ := hashLoop_snoc pre b n (i + 1) ((1000003#32 * x) ^^^ BitVec.ofNat 32 pre[i].toNat) (by omega)
    refine ⟨y, ?_, ?_⟩
    · rw [hashLoop, rd_of_lt hi]
      exact h1
    · rw [hashLoop, rd_of_lt hi', Exec.bind_ok, List.getElem_append_left hi]
      exact h2

/-- C12: the hash of bytes, and so that of an integer, a float or a string, is never -1. -/
theorem C12_minus_one {mem : List UInt8} {len : Nat} {x : BitVec 32} (h : hashbytes mem len = .ok x) : x.toInt ≠ -1 := by
  intro hx
  have hx : x = -1#32 := BitVec.eq_of_toInt_eq (hx.trans (by decide))
  subst hx
  unfold hashbytes at h
  cases h0 : rd mem 0 with
  | ok b =>
    rw [h0, Exec.bind_ok] at h
    dsimp only at h
    cases h1 : hashLoop mem len 0 (BitVec.ofNat 32 (b.toNat <<< 7)) with
    | ok y =>
      rw [h1, Exec.bind_ok] at h
      have h := Exec.ok.inj h
      by_cases hc : y ^^^ BitVec.ofNat 32 len = -1#32
      · rw [if_pos hc] at h
        exact absurd h (by decide)
      · rw [if_neg hc] at h
        exact hc h
    | _ => rw [h1] at h; cases h
  | _ => rw [h0] at h; cases h

/-- **C12, the other way round**: two texts that differ in their last character only have different hashes, unless both hashes are -2. -/
theorem C12_last {pre : List UInt8} {a b : UInt8} (hp : pre ≠ []) (hab : a ≠ b) :
    ∃ x y, hashbytes (pre ++ [a]) (pre.length + 1) = .ok x ∧ hashbytes (pre ++ [b]) (pre.length + 1) = .ok y ∧
      (x = y → x.toInt = -2) := by
  cases pre with
  | nil => exact absurd rfl hp
  | cons c pre =>
    obtain ⟨y, h1, h2⟩ := hashLoop_snoc (c :: pre) a (c :: pre).length 0 (BitVec.ofNat 32 (c.toNat <<< 7)) (by omega)
    obtain ⟨y', h1', h2'⟩ := hashLoop_snoc (c :: pre) b (c :: pre).length 0 (BitVec.ofNat 32 (c.toNat <<< 7)) (by omega)
    have := Exec.ok.inj (h1.symm.trans h1')
    subst this
    have go : ∀ (d : UInt8) (z : BitVec 32),
        hashLoop (c :: pre ++ [d]) ((c :: pre).length + 1) 0 (BitVec.ofNat 32 (c.toNat <<< 7)) = .ok z →
        hashbytes (c :: pre ++ [d]) ((c :: pre).length + 1) = .ok (if z ^^^ BitVec.ofNat 32 ((c :: pre).length + 1) = -1#32 then -2#32
          else z ^^^ BitVec.ofNat 32 ((c :: pre).length + 1)) := by
      intro d z hz
      unfold hashbytes
      rw [show rd (c :: pre ++ [d]) 0 = .ok c from rfl, Exec.bind_ok]
      dsimp only
      rw [hz, Exec.bind_ok]
    refine ⟨_, _, go a _ h2, go b _ h2', fun he => ?_⟩
    generalize BitVec.ofNat 32 ((c :: pre).length + 1) = n at he ⊢
    by_cases hc : (1000003#32 * y ^^^ BitVec.ofNat 32 a.toNat) ^^^ n = -1#32
    · rw [if_pos hc]
      decide
    · rw [if_neg hc] at he ⊢
      by_cases hc' : (1000003#32 * y ^^^ BitVec.ofNat 32 b.toNat) ^^^ n = -1#32
      · rw [if_pos hc'] at he
        rw [he]
        decide
      · rw [if_neg hc'] at he
        have he := congrArg BitVec.toNat ((BitVec.xor_right_inj _).1 ((BitVec.xor_left_inj _).1 he))
        rw [BitVec.toNat_ofNat, BitVec.toNat_ofNat, Nat.mod_eq_of_lt (Nat.lt_trans a.toNat_lt (by decide)),
          Nat.mod_eq_of_lt (Nat.lt_trans b.toNat_lt (by decide))] at he
        exact absurd (UInt8.toNat_inj.1 he) hab

/-- `ab` and `ac`. -/
example : ∃ x y, hashbytes [97, 98] 2 = .ok x ∧ hashbytes [97, 99] 2 = .ok y ∧ x ≠ y ∧ x.toInt ≠ -2 := by
  obtain ⟨x, y, h1, h2, h3⟩ := C12_last (pre := [97]) (a := 98) (b := 99) (by decide) (by decide)
  have hx : x.toInt ≠ -2 := by
    have : (match hashbytes [97, 98] 2 with | .ok x => decide (x.toInt ≠ -2) | _ => false) = true := by decide +kernel
    rw [show hashbytes [97, 98] 2 = .ok x from h1] at this
    exact of_decide_eq_true this
  exact ⟨x, y, h1, h2, fun h => hx (h3 h), hx⟩

/-- C12: the hashes of the constants: `none` and `false` share one, and `true` has another. -/
theorem C12_constants {h : Heap} {n f t fuel : Nat} (hn : h[n]? = some .none) (hf : h[f]? = some (.bool false)) (ht : h[t]? = some (.bool true)) :
    ∃ x y, hash h (fuel + 1) n = .ok x ∧ hash h (fuel + 1) f = .ok x ∧ hash h (fuel + 1) t = .ok y ∧ x.toInt = 0 ∧ y.toInt = 1 :=
  ⟨0, 1, hash_succ hn, hash_succ hf, hash_succ ht, by decide, by decide⟩

example : ∃ h : Heap, h[0]? = some .none ∧ h[1]? = some (.bool false) ∧ h[2]? = some (.bool true) :=
  ⟨[.none, .bool false, .bool true], rfl, rfl, rfl⟩

end Noja.Graph
