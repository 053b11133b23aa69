import Verif.Obj.Map

/-! Lemmas about the hash table model. -/

namespace Noja.Map

variable {K V : Type}

/-! ## The probe sequence -/

/-- The slots examined for hash `h`, in order. -/
def slot (h : BitVec 32) (size : Nat) : Nat → Nat
  | 0 => h.toNat &&& (size - 1)
  | n + 1 => nextSlot size (slot h size n) (h >>> (5 * (n + 1)))

theorem and_mask (x e : Nat) : x &&& (2 ^ e - 1) = x % 2 ^ e := Nat.and_two_pow_sub_one_eq_mod x e

theorem nextSlot_eq (e i : Nat) (p : BitVec 32) :
    nextSlot (2 ^ e) i p = (i * 5 + p.toNat + 1) % 2 ^ e := by
  unfold nextSlot; rw [and_mask]

theorem slot_lt (h : BitVec 32) (e n : Nat) : slot h (2 ^ e) n < 2 ^ e := by
  cases n with
  | zero => simp only [slot]; rw [and_mask]; exact Nat.mod_lt _ (Nat.two_pow_pos _)
  | succ n => simp only [slot]; rw [nextSlot_eq]; exact Nat.mod_lt _ (Nat.two_pow_pos _)

theorem pert_zero (h : BitVec 32) (n : Nat) (hn : 7 ≤ n) : (h >>> (5 * n)).toNat = 0 := by
  rw [BitVec.toNat_ushiftRight, Nat.shiftRight_eq_div_pow]
  apply Nat.div_eq_of_lt
  have h1 : h.toNat < 2 ^ 32 := h.isLt
  have h2 : 2 ^ 32 ≤ 2 ^ (5 * n) := Nat.pow_le_pow_right (by omega) (by omega)
  omega

theorem slot_late (h : BitVec 32) (e t : Nat) :
    slot h (2 ^ e) (7 + t) = it t (slot h (2 ^ e) 7) % 2 ^ e := by
  induction t with
  | zero => simp only [it, Nat.add_zero]; rw [Nat.mod_eq_of_lt (slot_lt h e 7)]
  | succ t ih =>
    rw [show 7 + (t + 1) = (7 + t) + 1 by omega]
    rw [slot, it, nextSlot_eq, pert_zero h _ (by omega), ih]
    generalize it t (slot h (2 ^ e) 7) = x
    simp [Nat.add_mod, Nat.mul_mod, Nat.mul_comm]

/-- Every slot is examined within `size + 7` steps. -/
theorem slot_surj (h : BitVec 32) (e r : Nat) (hr : r < 2 ^ e) :
    ∃ n, n < 2 ^ e + 7 ∧ slot h (2 ^ e) n = r := by
  obtain ⟨t, ht, e1⟩ := it_surj e (slot h (2 ^ e) 7) r hr
  exact ⟨7 + t, by omega, by rw [slot_late, e1]⟩

theorem shift_succ (h : BitVec 32) (n : Nat) : (h >>> (5 * n)) >>> 5 = h >>> (5 * (n + 1)) := by
  rw [← BitVec.shiftRight_add]; rfl

theorem exists_least {P : Nat → Prop} (B : Nat) (h : ∃ n, n < B ∧ P n) :
    ∃ n, n < B ∧ P n ∧ ∀ k, k < n → ¬ P k := by
  induction B with
  | zero => obtain ⟨n, hn, _⟩ := h; omega
  | succ B ih =>
    rcases Classical.em (∃ n, n < B ∧ P n) with h1 | h1
    · obtain ⟨n, a, b, c⟩ := ih h1
      exact ⟨n, by omega, b, c⟩
    · obtain ⟨n, hn, hp⟩ := h
      have : n = B := by
        rcases Nat.lt_or_ge n B with h2 | h2
        · exact absurd ⟨n, h2, hp⟩ h1
        · omega
      subst this
      exact ⟨n, hn, hp, fun k hk hpk => h1 ⟨k, hk, hpk⟩⟩

/-! ## The weak invariant: enough for termination and memory safety -/

/-- The shape of a map object, whatever its hashes. -/
structure W (m : MObj K V) (e : Nat) : Prop where
  size : m.mapperSize = 2 ^ e
  e3 : 3 ≤ e
  mlen : m.mapper.length = m.mapperSize
  klen : m.keys.length = calcCapacity m.mapperSize
  vlen : m.vals.length = calcCapacity m.mapperSize
  cle : m.count ≤ calcCapacity m.mapperSize
  ks : ∀ i, i < m.count → ∃ k, m.keys[i]? = some (some k)
  vs : ∀ i, i < m.count → ∃ v, m.vals[i]? = some (some v)
  occ : m.mapper.countP Option.isSome = m.count
  rng : ∀ k, some k ∈ m.mapper → k < m.count

theorem eight_le {e : Nat} (h : 3 ≤ e) : 8 ≤ 2 ^ e := by
  have := Nat.pow_le_pow_right (n := 2) (by omega) h
  simpa using this

theorem cap_lt {n : Nat} (h : 0 < n) : calcCapacity n < n := by unfold calcCapacity; omega

theorem exists_none (l : List (Option Nat)) (h : l.countP Option.isSome < l.length) :
    ∃ i, i < l.length ∧ l[i]? = some none := by
  induction l with
  | nil => simp at h
  | cons a l ih =>
    cases a with
    | none => exact ⟨0, by simp, by simp⟩
    | some a =>
      simp at h
      obtain ⟨i, h1, h2⟩ := ih h
      exact ⟨i + 1, by simpa using h1, by simpa using h2⟩

theorem W.free {m : MObj K V} {e} (h : W m e) : ∃ i, i < 2 ^ e ∧ m.mapper[i]? = some none := by
  have := exists_none m.mapper (by
    rw [h.occ, h.mlen]
    have := cap_lt (n := m.mapperSize) (by rw [h.size]; exact Nat.two_pow_pos e)
    have := h.cle
    omega)
  rwa [h.mlen, h.size] at this

theorem rdw_ok {α} {a : List (Option α)} {i : Nat} {v : α} (h : a[i]? = some (some v)) :
    rdw a i = .ok v := by
  unfold rdw; rw [rd_ok_iff.mpr h]; rfl

/-- What a search for `key` meets: the first slot of the probe sequence that is free or for which
the comparison does not say "different". -/
theorem W.search {m : MObj K V} {e} (w : W m e) (ko : KeyOps K) (key : K) :
    ∃ N, N < 2 ^ e + 7 ∧
      (∀ n, n < N → ∃ k kk, m.mapper[slot (ko.hash key) (2 ^ e) n]? = some (some k) ∧
        m.keys[k]? = some (some kk) ∧ k < m.count ∧ ko.cmp key kk = .ok false) ∧
      (m.mapper[slot (ko.hash key) (2 ^ e) N]? = some none ∨
        ∃ k kk, m.mapper[slot (ko.hash key) (2 ^ e) N]? = some (some k) ∧
          m.keys[k]? = some (some kk) ∧ k < m.count ∧ ko.cmp key kk ≠ .ok false) := by
  obtain ⟨i, hi, hfree⟩ := w.free
  obtain ⟨n0, hn0, hs⟩ := slot_surj (ko.hash key) e i hi
  have hex : ∃ n, n < 2 ^ e + 7 ∧ (m.mapper[slot (ko.hash key) (2 ^ e) n]? = some none ∨
        ∃ k kk, m.mapper[slot (ko.hash key) (2 ^ e) n]? = some (some k) ∧
          m.keys[k]? = some (some kk) ∧ k < m.count ∧ ko.cmp key kk ≠ .ok false) :=
    ⟨n0, hn0, Or.inl (by rw [hs]; exact hfree)⟩
  obtain ⟨N, h1, h2, h3⟩ := exists_least _ hex
  refine ⟨N, h1, ?_, h2⟩
  intro n hn
  have hnot := h3 n hn
  have hlt : slot (ko.hash key) (2 ^ e) n < m.mapper.length := by
    rw [w.mlen, w.size]; exact slot_lt _ _ _
  have hg : m.mapper[slot (ko.hash key) (2 ^ e) n]? = some m.mapper[slot (ko.hash key) (2 ^ e) n] :=
    List.getElem?_eq_getElem hlt
  cases hv : m.mapper[slot (ko.hash key) (2 ^ e) n] with
  | none => rw [hv] at hg; exact absurd (Or.inl hg) hnot
  | some k =>
    rw [hv] at hg
    have hk : k < m.count := w.rng k (List.mem_of_getElem? hg)
    obtain ⟨kk, hkk⟩ := w.ks k hk
    refine ⟨k, kk, hg, hkk, hk, ?_⟩
    rcases Classical.em (ko.cmp key kk = .ok false) with hc | hc
    · exact hc
    · exact absurd (Or.inr ⟨k, kk, hg, hkk, hk, hc⟩) hnot

/-- Skipping the slots that hold other keys. -/
theorem selectLoop_skip (ko : KeyOps K) (m : MObj K V) (key : K) (e : Nat) (hs : m.mapperSize = 2 ^ e)
    (d : Nat) : ∀ (n f : Nat),
    (∀ j, n ≤ j → j < n + d → ∃ k kk, m.mapper[slot (ko.hash key) (2 ^ e) j]? = some (some k) ∧
        m.keys[k]? = some (some kk) ∧ k < m.count ∧ ko.cmp key kk = .ok false) →
    selectLoop ko m key (d + f) (ko.hash key >>> (5 * n)) (slot (ko.hash key) (2 ^ e) n) =
    selectLoop ko m key f (ko.hash key >>> (5 * (n + d))) (slot (ko.hash key) (2 ^ e) (n + d)) := by
  induction d with
  | zero => intro n f _; simp
  | succ d ih =>
    intro n f h
    obtain ⟨k, kk, h1, h2, _, h3⟩ := h n (by omega) (by omega)
    rw [show d + 1 + f = (d + f) + 1 by omega, selectLoop]
    rw [rd_ok_iff.mpr h1, Exec.bind_ok]
    simp only [rdw_ok h2, h3, Exec.bind_ok]
    rw [shift_succ, hs]
    have := ih (n + 1) f (fun j a b => h j (by omega) (by omega))
    rw [slot] at this
    simp only [Bool.false_eq_true, if_false]
    rw [this]
    rw [show n + 1 + d = n + (d + 1) by omega]

theorem insertLoop_skip (ko : KeyOps K) (m : MObj K V) (key : K) (val : V) (e : Nat)
    (hs : m.mapperSize = 2 ^ e) (d : Nat) : ∀ (n f : Nat),
    (∀ j, n ≤ j → j < n + d → ∃ k kk, m.mapper[slot (ko.hash key) (2 ^ e) j]? = some (some k) ∧
        m.keys[k]? = some (some kk) ∧ k < m.count ∧ ko.cmp key kk = .ok false) →
    insertLoop ko m key val (d + f) (ko.hash key >>> (5 * n)) (slot (ko.hash key) (2 ^ e) n) =
    insertLoop ko m key val f (ko.hash key >>> (5 * (n + d))) (slot (ko.hash key) (2 ^ e) (n + d)) := by
  induction d with
  | zero => intro n f _; simp
  | succ d ih =>
    intro n f h
    obtain ⟨k, kk, h1, h2, _, h3⟩ := h n (by omega) (by omega)
    rw [show d + 1 + f = (d + f) + 1 by omega, insertLoop]
    rw [rd_ok_iff.mpr h1, Exec.bind_ok]
    simp only [rdw_ok h2, h3, Exec.bind_ok]
    rw [shift_succ, hs]
    have := ih (n + 1) f (fun j a b => h j (by omega) (by omega))
    rw [slot] at this
    simp only [Bool.false_eq_true, if_false]
    rw [this]
    rw [show n + 1 + d = n + (d + 1) by omega]

/-- `select` with enough fuel ends where the search ends. -/
theorem W.select_at {m : MObj K V} {e} (w : W m e) (ko : KeyOps K) (key : K) {N fuel : Nat}
    (hf : N < fuel)
    (h : ∀ n, n < N → ∃ k kk, m.mapper[slot (ko.hash key) (2 ^ e) n]? = some (some k) ∧
        m.keys[k]? = some (some kk) ∧ k < m.count ∧ ko.cmp key kk = .ok false) :
    ∃ f, select ko fuel m key = selectLoop ko m key (f + 1) (ko.hash key >>> (5 * N))
      (slot (ko.hash key) (2 ^ e) N) := by
  refine ⟨fuel - N - 1, ?_⟩
  have := selectLoop_skip ko m key e w.size N 0 (fuel - N - 1 + 1) (fun j _ hj => h j (by omega))
  rw [show N + (fuel - N - 1 + 1) = fuel by omega, Nat.zero_add] at this
  rw [← this]
  unfold select
  simp [slot, w.size]

theorem W.insert_at {m : MObj K V} {e} (w : W m e) (ko : KeyOps K) (key : K) (val : V) {N fuel : Nat}
    (hf : N < fuel)
    (h : ∀ n, n < N → ∃ k kk, m.mapper[slot (ko.hash key) (2 ^ e) n]? = some (some k) ∧
        m.keys[k]? = some (some kk) ∧ k < m.count ∧ ko.cmp key kk = .ok false) :
    ∃ f, insertLoop ko m key val fuel (ko.hash key) ((ko.hash key).toNat &&& (m.mapperSize - 1)) =
      insertLoop ko m key val (f + 1) (ko.hash key >>> (5 * N)) (slot (ko.hash key) (2 ^ e) N) := by
  refine ⟨fuel - N - 1, ?_⟩
  have := insertLoop_skip ko m key val e w.size N 0 (fuel - N - 1 + 1) (fun j _ hj => h j (by omega))
  rw [show N + (fuel - N - 1 + 1) = fuel by omega, Nat.zero_add] at this
  rw [← this]
  simp [slot, w.size]

/-- Lookups end, whatever the hashes. -/
theorem W.select_ends {m : MObj K V} {e} (w : W m e) (ko : KeyOps K)
    (hc : ∀ a b, ko.cmp a b = .err ∨ ∃ c, ko.cmp a b = .ok c) (key : K) (fuel : Nat)
    (hf : 2 ^ e + 7 ≤ fuel) :
    select ko fuel m key = .err ∨ ∃ r, select ko fuel m key = .ok r := by
  obtain ⟨N, hN, h1, h2⟩ := w.search ko key
  obtain ⟨f, hs⟩ := w.select_at ko key (fuel := fuel) (by omega) h1
  rw [hs, selectLoop]
  rcases h2 with h2 | ⟨k, kk, h2, h3, hk, h4⟩
  · rw [rd_ok_iff.mpr h2]; exact Or.inr ⟨none, rfl⟩
  · rw [rd_ok_iff.mpr h2]
    simp only [Exec.bind_ok, rdw_ok h3]
    obtain ⟨v, hv⟩ := w.vs k hk
    rcases hc key kk with hc | ⟨c, hc⟩
    · rw [hc]; exact Or.inl rfl
    · cases c with
      | false => exact absurd hc h4
      | true => rw [hc]; simp [rdw_ok hv]

theorem wr_ok {α} {a b : List α} {i : Nat} {v : α} (h : LObj.wr a i v = .ok b) :
    i < a.length ∧ b = a.set i v := by
  unfold LObj.wr at h
  split at h
  · cases h; exact ⟨‹_›, rfl⟩
  · cases h

theorem countP_set_some (l : List (Option Nat)) (i k : Nat) (h : l[i]? = some none) :
    (l.set i (some k)).countP Option.isSome = l.countP Option.isSome + 1 := by
  obtain ⟨hi, hv⟩ := List.getElem?_eq_some_iff.mp h
  rw [List.countP_set hi, hv]
  simp

theorem W.add {m : MObj K V} {e} (w : W m e) (hc : m.count < calcCapacity m.mapperSize) {i : Nat}
    (hi : m.mapper[i]? = some none) (key : K) (val : V) :
    W { m with mapper := m.mapper.set i (some m.count), keys := m.keys.set m.count (some key),
               vals := m.vals.set m.count (some val), count := m.count + 1 } e := by
  obtain ⟨h1, h2, h3, h4, h5, h6, h7, h8, h9, h10⟩ := w
  refine ⟨h1, h2, by simpa using h3, by simpa using h4, by simpa using h5, hc, ?_, ?_, ?_, ?_⟩
  · intro j hj
    simp only at hj ⊢
    by_cases he : m.count = j
    · subst he; exact ⟨key, by simp [h4, hc]⟩
    · obtain ⟨k, hk⟩ := h7 j (by omega)
      exact ⟨k, by simp [he, hk]⟩
  · intro j hj
    simp only at hj ⊢
    by_cases he : m.count = j
    · subst he; exact ⟨val, by simp [h5, hc]⟩
    · obtain ⟨k, hk⟩ := h8 j (by omega)
      exact ⟨k, by simp [he, hk]⟩
  · show (m.mapper.set i _).countP _ = m.count + 1
    rw [countP_set_some _ _ _ hi, h9]
  · intro k hk
    show k < m.count + 1
    rcases List.mem_or_eq_of_mem_set hk with hk | hk
    · have := h10 k hk; omega
    · cases hk; omega

theorem W.setVal {m : MObj K V} {e} (w : W m e) (k : Nat) (val : V) :
    W { m with vals := m.vals.set k (some val) } e := by
  obtain ⟨h1, h2, h3, h4, h5, h6, h7, h8, h9, h10⟩ := w
  refine ⟨h1, h2, h3, h4, by simpa using h5, h6, h7, ?_, h9, h10⟩
  intro j hj
  by_cases he : k = j
  · subst he
    obtain ⟨v, hv⟩ := h8 k hj
    exact ⟨val, by simp [(List.getElem?_eq_some_iff.mp hv).1]⟩
  · obtain ⟨v, hv⟩ := h8 j hj
    exact ⟨v, by simp [he, hv]⟩

/-- Insertion without growth keeps the shape. -/
theorem W.insertLoop {m : MObj K V} {e} (w : W m e) (hc : m.count < calcCapacity m.mapperSize)
    (ko : KeyOps K) (key : K) (val : V) : ∀ (fuel : Nat) (pert : BitVec 32) (i : Nat) (m' : MObj K V),
    Map.insertLoop ko m key val fuel pert i = .ok m' → W m' e := by
  intro fuel
  induction fuel with
  | zero => intro pert i m' h; cases h
  | succ fuel ih =>
    intro pert i m' h
    rw [Map.insertLoop] at h
    obtain ⟨k, h1, h⟩ := Exec.bind_eq_ok.mp h
    cases k with
    | none =>
      simp only at h
      obtain ⟨a, ha, h⟩ := Exec.bind_eq_ok.mp h
      obtain ⟨b, hb, h⟩ := Exec.bind_eq_ok.mp h
      obtain ⟨c, hc', h⟩ := Exec.bind_eq_ok.mp h
      cases h
      rw [(wr_ok ha).2, (wr_ok hb).2, (wr_ok hc').2]
      exact w.add hc (rd_ok_iff.mp h1) key val
    | some k =>
      simp only at h
      obtain ⟨kk, _, h⟩ := Exec.bind_eq_ok.mp h
      obtain ⟨c, _, h⟩ := Exec.bind_eq_ok.mp h
      cases c with
      | true =>
        simp only [if_true] at h
        obtain ⟨vals, hv, h⟩ := Exec.bind_eq_ok.mp h
        cases h
        rw [(wr_ok hv).2]
        exact w.setVal k val
      | false => simp only [Bool.false_eq_true, if_false] at h; exact ih _ _ _ h

/-! ### Growing -/

theorem placeLoop_ok (size i : Nat) : ∀ (fuel : Nat) (mapper : List (Option Nat)) (pert : Int) (j : Nat)
    (r : List (Option Nat)), placeLoop size i fuel mapper pert j = .ok r →
    ∃ j, mapper[j]? = some none ∧ r = mapper.set j (some i) := by
  intro fuel
  induction fuel with
  | zero => intro mapper pert j r h; cases h
  | succ fuel ih =>
    intro mapper pert j r h
    rw [placeLoop] at h
    obtain ⟨k, h1, h⟩ := Exec.bind_eq_ok.mp h
    cases k with
    | none => exact ⟨j, rd_ok_iff.mp h1, (wr_ok h).2⟩
    | some k => exact ih _ _ _ _ h

theorem rehash_ok (ko : KeyOps K) (fuel size : Nat) (keys : List (Option K)) (n : Nat) :
    ∀ (i : Nat) (mapper r : List (Option Nat)), rehash ko fuel size keys n i mapper = .ok r →
    mapper.countP Option.isSome = i → (∀ k, some k ∈ mapper → k < i) →
    r.length = mapper.length ∧ r.countP Option.isSome = i + n ∧ ∀ k, some k ∈ r → k < i + n := by
  induction n with
  | zero => intro i mapper r h h1 h2; cases h; exact ⟨rfl, h1, h2⟩
  | succ n ih =>
    intro i mapper r h h1 h2
    rw [rehash] at h
    obtain ⟨k, _, h⟩ := Exec.bind_eq_ok.mp h
    obtain ⟨mp, hm, h⟩ := Exec.bind_eq_ok.mp h
    obtain ⟨j, hj, rfl⟩ := placeLoop_ok _ _ _ _ _ _ _ hm
    obtain ⟨a, b, c⟩ := ih (i + 1) _ r h (by rw [countP_set_some _ _ _ hj, h1]) (by
      intro k hk
      rcases List.mem_or_eq_of_mem_set hk with hk | hk
      · have := h2 k hk; omega
      · cases hk; omega)
    refine ⟨by simpa using a, by omega, fun k hk => by have := c k hk; omega⟩

theorem cap_double_le (n : Nat) : calcCapacity n ≤ calcCapacity (n * 2) := by
  unfold calcCapacity; omega

theorem cap_double_lt {n : Nat} (h : 8 ≤ n) : calcCapacity n < calcCapacity (n * 2) := by
  unfold calcCapacity; omega

/-- The arrays of a growing map. -/
theorem grow_arrays {m : MObj K V} {e} (w : W m e) :
    ∃ keys vals, LObj.copyVals m.keys m.count 0 (List.replicate (calcCapacity (m.mapperSize * 2)) none)
        = .ok keys ∧
      LObj.copyVals m.vals m.count 0 (List.replicate (calcCapacity (m.mapperSize * 2)) none) = .ok vals ∧
      keys.length = calcCapacity (m.mapperSize * 2) ∧ vals.length = calcCapacity (m.mapperSize * 2) ∧
      (∀ i, i < m.count → keys[i]? = m.keys[i]?) ∧ (∀ i, i < m.count → vals[i]? = m.vals[i]?) := by
  have h1 := w.cle
  have h2 := cap_double_le m.mapperSize
  obtain ⟨keys, e1, l1, g1⟩ := LObj.copyVals_spec m.keys m.count 0
    (List.replicate (calcCapacity (m.mapperSize * 2)) none) (by rw [w.klen]; omega) (by simp; omega)
  obtain ⟨vals, e2, l2, g2⟩ := LObj.copyVals_spec m.vals m.count 0
    (List.replicate (calcCapacity (m.mapperSize * 2)) none) (by rw [w.vlen]; omega) (by simp; omega)
  refine ⟨keys, vals, e1, e2, by simpa using l1, by simpa using l2, ?_, ?_⟩
  · intro i hi; rw [g1 i (by omega), if_pos (by omega)]
  · intro i hi; rw [g2 i (by omega), if_pos (by omega)]

theorem W.grow {m m' : MObj K V} {e} (w : W m e) (ko : KeyOps K) (fuel : Nat)
    (h : Map.grow ko fuel m = .ok m') : W m' (e + 1) ∧ m'.count = m.count ∧
      m'.count < calcCapacity m'.mapperSize := by
  obtain ⟨keys, vals, e1, e2, l1, l2, g1, g2⟩ := grow_arrays w
  unfold Map.grow at h
  simp only [e1, e2, Exec.bind_ok] at h
  obtain ⟨mp, hm, h⟩ := Exec.bind_eq_ok.mp h
  cases h
  obtain ⟨r1, r2, r3⟩ := rehash_ok ko fuel _ keys m.count 0 _ mp hm
    (by rw [List.countP_replicate]; simp) (by
    intro k hk; simp [List.mem_replicate] at hk)
  have h8 := eight_le w.e3
  have hlt : m.count < calcCapacity (m.mapperSize * 2) := by
    have := cap_double_lt (n := m.mapperSize) (by rw [w.size]; exact h8)
    have := w.cle
    omega
  refine ⟨⟨?_, by have := w.e3; omega, by simpa using r1, l1, l2, ?_, ?_, ?_, by simpa using r2, by
    simpa using r3⟩, rfl, hlt⟩
  · show m.mapperSize * 2 = _
    rw [w.size, Nat.pow_succ]
  · exact Nat.le_of_lt hlt
  · intro i hi; show ∃ k, keys[i]? = _; rw [g1 i hi]; exact w.ks i hi
  · intro i hi; show ∃ k, vals[i]? = _; rw [g2 i hi]; exact w.vs i hi

theorem W.insert {m m' : MObj K V} {e} (w : W m e) (ko : KeyOps K) (fuel : Nat) (key : K) (val : V)
    (h : Map.insert ko fuel m key val = .ok m') : ∃ e', W m' e' := by
  unfold Map.insert at h
  by_cases hc : m.count = calcCapacity m.mapperSize
  · rw [if_pos hc] at h
    obtain ⟨m1, h1, h⟩ := Exec.bind_eq_ok.mp h
    obtain ⟨w1, _, c1⟩ := w.grow ko fuel h1
    exact ⟨_, w1.insertLoop c1 ko key val _ _ _ _ h⟩
  · rw [if_neg hc, Exec.bind_ok] at h
    exact ⟨_, w.insertLoop (by have := w.cle; omega) ko key val _ _ _ _ h⟩

theorem sizeLoop_spec (num : Nat) : ∀ (fuel e : Nat), 3 ≤ e → num ≤ calcCapacity (2 ^ e) + fuel →
    ∃ e', 3 ≤ e' ∧ num ≤ calcCapacity (2 ^ e') ∧
      ∀ extra, sizeLoop num (fuel + 1 + extra) (2 ^ e) = .ok (2 ^ e') := by
  intro fuel
  induction fuel with
  | zero =>
    intro e he h
    refine ⟨e, he, by simpa using h, fun extra => ?_⟩
    rw [show 0 + 1 + extra = extra + 1 by omega, sizeLoop, if_neg (by omega)]
  | succ fuel ih =>
    intro e he h
    by_cases hc : calcCapacity (2 ^ e) < num
    · have := cap_double_lt (eight_le he)
      obtain ⟨e', a, b, c⟩ := ih (e + 1) (by omega) (by rw [Nat.pow_succ]; omega)
      refine ⟨e', a, b, fun extra => ?_⟩
      rw [show fuel + 1 + 1 + extra = (fuel + 1 + extra) + 1 by omega, sizeLoop, if_pos hc]
      have := c extra
      rw [Nat.pow_succ] at this
      exact this
    · refine ⟨e, he, by omega, fun extra => ?_⟩
      rw [show fuel + 1 + 1 + extra = (fuel + 1 + extra) + 1 by omega, sizeLoop, if_neg hc]

theorem newMap_spec (num : Int) :
    ∃ (m : MObj K V) (e : Nat), (∀ fuel, num.toNat < fuel → newMap fuel num = .ok m) ∧ W m e ∧
      m.count = 0 ∧ num ≤ calcCapacity m.mapperSize := by
  obtain ⟨e, he, hn, hl⟩ := sizeLoop_spec (if num < 0 then 0 else num.toNat) num.toNat 3 (by omega) (by
    split <;> omega)
  refine ⟨_, e, fun fuel hf => by
      have hl := hl (fuel - num.toNat - 1)
      rw [show num.toNat + 1 + (fuel - num.toNat - 1) = fuel by omega] at hl
      unfold newMap
      simp only [show (2:Nat) ^ 3 = 8 by rfl] at hl
      simp only [hl, Exec.bind_ok]; rfl,
    ⟨rfl, he, by simp, by simp, by simp, by simp, by simp, by simp, ?_, ?_⟩, rfl, ?_⟩
  · show (List.replicate _ _).countP _ = 0
    rw [List.countP_replicate]; simp
  · intro k hk
    have hk : some k ∈ List.replicate (2 ^ e) none := hk
    simp [List.mem_replicate] at hk
  · show num ≤ (calcCapacity (2 ^ e) : Int)
    split at hn <;> omega

end Noja.Map
