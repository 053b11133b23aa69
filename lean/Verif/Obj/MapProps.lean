import Verif.Obj.MapLemmas
import Verif.Obj.IntKey

/-! Properties C15, C16 and C17: maps behave as finite maps, searches end, growing keeps
entries. -/

namespace Noja.Map

variable {K V C : Type} [DecidableEq C]

/-! ## The specification -/

theorem spec_insert_new (cls : K → C) (s : List (K × V)) (k : K) (v : V)
    (h : ∀ x ∈ s, cls k ≠ cls x.1) : Spec.insert cls s k v = s ++ [(k, v)] := by
  induction s with
  | nil => rfl
  | cons x s ih =>
    obtain ⟨k', v'⟩ := x
    simp only [Spec.insert]
    rw [if_neg (h (k', v') (by simp)), ih (fun x hx => h x (by simp [hx]))]
    rfl

theorem spec_lookup_none (cls : K → C) (s : List (K × V)) (k : K)
    (h : ∀ x ∈ s, cls k ≠ cls x.1) : Spec.lookup cls s k = none := by
  induction s with
  | nil => rfl
  | cons x s ih =>
    obtain ⟨k', v'⟩ := x
    simp only [Spec.lookup]
    rw [if_neg (h (k', v') (by simp)), ih (fun x hx => h x (by simp [hx]))]

/-- No two entries have the same key. -/
def Distinct (cls : K → C) (s : List (K × V)) : Prop := s.Pairwise (fun x y => cls x.1 ≠ cls y.1)

theorem spec_insert_old (cls : K → C) (s : List (K × V)) (hd : Distinct cls s) (k : K) (v : V) (j : Nat)
    (x : K × V) (hj : s[j]? = some x) (h : cls k = cls x.1) :
    Spec.insert cls s k v = s.set j (x.1, v) := by
  induction s generalizing j with
  | nil => simp at hj
  | cons y s ih =>
    obtain ⟨k', v'⟩ := y
    simp only [Spec.insert]
    cases j with
    | zero => simp at hj; subst hj; rw [if_pos h]; rfl
    | succ j =>
      simp at hj
      have hne : cls k ≠ cls k' := by
        rw [h]
        exact fun e => (List.pairwise_cons.mp hd).1 x (List.mem_of_getElem? hj) e.symm
      rw [if_neg hne, ih (List.pairwise_cons.mp hd).2 j hj]
      rfl

theorem spec_lookup_some (cls : K → C) (s : List (K × V)) (hd : Distinct cls s) (k : K) (j : Nat)
    (x : K × V) (hj : s[j]? = some x) (h : cls k = cls x.1) :
    Spec.lookup cls s k = some x.2 := by
  induction s generalizing j with
  | nil => simp at hj
  | cons y s ih =>
    obtain ⟨k', v'⟩ := y
    simp only [Spec.lookup]
    cases j with
    | zero => simp at hj; subst hj; rw [if_pos h]
    | succ j =>
      simp at hj
      have hne : cls k ≠ cls k' := by
        rw [h]
        exact fun e => (List.pairwise_cons.mp hd).1 x (List.mem_of_getElem? hj) e.symm
      rw [if_neg hne, ih (List.pairwise_cons.mp hd).2 j hj]

theorem distinct_at {cls : K → C} {s : List (K × V)} (hd : Distinct cls s) {i j : Nat} {x y : K × V}
    (hi : s[i]? = some x) (hj : s[j]? = some y) (h : cls x.1 = cls y.1) : i = j := by
  obtain ⟨hi', rfl⟩ := List.getElem?_eq_some_iff.mp hi
  obtain ⟨hj', rfl⟩ := List.getElem?_eq_some_iff.mp hj
  clear hi hj
  have hi := hi'
  have hj := hj'
  unfold Distinct at hd
  rw [List.pairwise_iff_getElem] at hd
  rcases Nat.lt_trichotomy i j with hlt | he | hlt
  · exact absurd h (hd i j hi hj hlt)
  · exact he
  · exact absurd h.symm (hd j i hj hi hlt)

/-! ## The invariant -/

/-- Entry `k`, whose hash is `h`, is found by the search: it is on its probe sequence and there is
no free slot before it. -/
def Placed (mapper : List (Option Nat)) (h : BitVec 32) (e k : Nat) : Prop :=
  ∃ n, mapper[slot h (2 ^ e) n]? = some (some k) ∧
    ∀ n', n' < n → ∃ k', mapper[slot h (2 ^ e) n']? = some (some k')

/-- The object holds the entries `s`. -/
structure Holds (ko : KeyOps K) (cls : K → C) (m : MObj K V) (e : Nat) (s : List (K × V)) : Prop where
  w : W m e
  count : m.count = s.length
  keys : ∀ (i : Nat) (x : K × V), s[i]? = some x → m.keys[i]? = some (some x.1)
  vals : ∀ (i : Nat) (x : K × V), s[i]? = some x → m.vals[i]? = some (some x.2)
  placed : ∀ (i : Nat) (x : K × V), s[i]? = some x → Placed m.mapper (ko.hash x.1) e i
  distinct : Distinct cls s

theorem Placed.set {mapper : List (Option Nat)} {h : BitVec 32} {e k : Nat} (p : Placed mapper h e k)
    {i : Nat} (hi : mapper[i]? = some none) (c : Nat) : Placed (mapper.set i (some c)) h e k := by
  obtain ⟨n, h1, h2⟩ := p
  have keep : ∀ {j k : Nat}, mapper[j]? = some (some k) → (mapper.set i (some c))[j]? = some (some k) := by
    intro j k hj
    have : i ≠ j := by intro e; subst e; rw [hi] at hj; cases hj
    simp [this, hj]
  refine ⟨n, keep h1, fun n' hn' => ?_⟩
  obtain ⟨k', hk'⟩ := h2 n' hn'
  exact ⟨k', keep hk'⟩

/-- How a search ends in a map that holds `s`. -/
theorem Holds.search {ko : KeyOps K} {cls : K → C} (con : Consistent ko cls) {m : MObj K V} {e : Nat}
    {s : List (K × V)} (h : Holds ko cls m e s) (key : K) :
    ∃ N, N < 2 ^ e + 7 ∧
      (∀ n, n < N → ∃ k kk, m.mapper[slot (ko.hash key) (2 ^ e) n]? = some (some k) ∧
        m.keys[k]? = some (some kk) ∧ k < m.count ∧ ko.cmp key kk = .ok false) ∧
      ((m.mapper[slot (ko.hash key) (2 ^ e) N]? = some none ∧ ∀ x ∈ s, cls key ≠ cls x.1) ∨
        ∃ k x, m.mapper[slot (ko.hash key) (2 ^ e) N]? = some (some k) ∧ s[k]? = some x ∧
          cls key = cls x.1) := by
  obtain ⟨N, h1, h2, h3⟩ := h.w.search ko key
  refine ⟨N, h1, h2, ?_⟩
  rcases h3 with h3 | ⟨k, kk, h3, h4, h5, h6⟩
  · refine Or.inl ⟨h3, ?_⟩
    intro x hx hcls
    obtain ⟨j, hj, rfl⟩ := List.getElem_of_mem hx
    have hj' : s[j]? = some s[j] := List.getElem?_eq_getElem hj
    obtain ⟨n, p1, p2⟩ := h.placed j _ hj'
    rw [← con.hash _ _ hcls] at p1 p2
    rcases Nat.lt_trichotomy n N with hlt | he | hlt
    · obtain ⟨k, kk, q1, q2, q3, q4⟩ := h2 n hlt
      rw [p1] at q1; cases q1
      rw [h.keys j _ hj'] at q2; cases q2
      rw [con.cmp] at q4
      simp [hcls] at q4
    · subst he; rw [p1] at h3; cases h3
    · obtain ⟨k', hk'⟩ := p2 N hlt
      rw [h3] at hk'; cases hk'
  · rw [h.count] at h5
    have hk : s[k]? = some s[k] := List.getElem?_eq_getElem h5
    rw [h.keys k _ hk] at h4; cases h4
    refine Or.inr ⟨k, s[k], h3, hk, ?_⟩
    rw [con.cmp] at h6
    by_cases hc : cls key = cls s[k].1
    · exact hc
    · simp [hc] at h6

theorem Holds.select {ko : KeyOps K} {cls : K → C} (con : Consistent ko cls) {m : MObj K V} {e : Nat}
    {s : List (K × V)} (h : Holds ko cls m e s) (key : K) (fuel : Nat) (hf : 2 ^ e + 7 ≤ fuel) :
    select ko fuel m key = .ok (Spec.lookup cls s key) := by
  obtain ⟨N, h1, h2, h3⟩ := h.search con key
  obtain ⟨f, hs⟩ := h.w.select_at ko key (fuel := fuel) (by omega) h2
  rw [hs, selectLoop]
  rcases h3 with ⟨h3, h4⟩ | ⟨k, x, h3, h4, h5⟩
  · rw [rd_ok_iff.mpr h3, spec_lookup_none cls s key h4]; rfl
  · rw [rd_ok_iff.mpr h3, spec_lookup_some cls s h.distinct key k x h4 h5]
    simp only [Exec.bind_ok, rdw_ok (h.keys k x h4), con.cmp, h5, decide_true, if_true,
      rdw_ok (h.vals k x h4)]

theorem Holds.add {ko : KeyOps K} {cls : K → C} {m : MObj K V} {e : Nat}
    {s : List (K × V)} (h : Holds ko cls m e s) (hc : m.count < calcCapacity m.mapperSize)
    (key : K) (val : V) {N : Nat}
    (h2 : ∀ n, n < N → ∃ k, m.mapper[slot (ko.hash key) (2 ^ e) n]? = some (some k))
    (h3 : m.mapper[slot (ko.hash key) (2 ^ e) N]? = some none)
    (hnew : ∀ x ∈ s, cls key ≠ cls x.1) :
    Holds ko cls
      { m with
        mapper := m.mapper.set (slot (ko.hash key) (2 ^ e) N) (some m.count)
        keys := m.keys.set m.count (some key)
        vals := m.vals.set m.count (some val)
        count := m.count + 1 } e (s ++ [(key, val)]) := by
  have hcount := h.count
  have hcase : ∀ (i : Nat) (x : K × V), (s ++ [(key, val)])[i]? = some x →
      (s[i]? = some x ∧ i ≠ m.count) ∨ (i = m.count ∧ x = (key, val)) := by
    intro i x hx
    rcases Nat.lt_or_ge i s.length with hi | hi
    · rw [List.getElem?_append_left hi] at hx; exact Or.inl ⟨hx, by omega⟩
    · rw [List.getElem?_append_right hi] at hx
      have : i - s.length = 0 := by
        rcases Nat.eq_zero_or_pos (i - s.length) with h | h
        · exact h
        · rw [List.getElem?_eq_none (by simp; omega)] at hx; cases hx
      rw [this] at hx
      simp at hx
      exact Or.inr ⟨by omega, hx.symm⟩
  refine ⟨h.w.add hc h3 key val, by simp [hcount], ?_, ?_, ?_, ?_⟩
  · intro i x hx
    rcases hcase i x hx with ⟨hx, hi⟩ | ⟨rfl, rfl⟩
    · simp [Ne.symm hi, h.keys i x hx]
    · simp [h.w.klen, hc]
  · intro i x hx
    rcases hcase i x hx with ⟨hx, hi⟩ | ⟨rfl, rfl⟩
    · simp [Ne.symm hi, h.vals i x hx]
    · simp [h.w.vlen, hc]
  · intro i x hx
    rcases hcase i x hx with ⟨hx, hi⟩ | ⟨rfl, rfl⟩
    · exact (h.placed i x hx).set h3 _
    · refine ⟨N, ?_, fun n' hn' => ?_⟩
      · have := (List.getElem?_eq_some_iff.mp h3).1
        simp [this]
      · obtain ⟨k, hk⟩ := h2 n' hn'
        have : slot (ko.hash key) (2 ^ e) N ≠ slot (ko.hash key) (2 ^ e) n' := by
          intro he; rw [he, hk] at h3; cases h3
        exact ⟨k, by simp [this, hk]⟩
  · unfold Distinct
    rw [List.pairwise_append]
    refine ⟨h.distinct, by simp, ?_⟩
    intro a ha b hb
    simp at hb; subst hb
    exact fun he => hnew a ha he.symm

theorem Holds.setVal {ko : KeyOps K} {cls : K → C} {m : MObj K V} {e : Nat}
    {s : List (K × V)} (h : Holds ko cls m e s) {k : Nat} {x : K × V} (hk : s[k]? = some x) (val : V) :
    Holds ko cls { m with vals := m.vals.set k (some val) } e (s.set k (x.1, val)) := by
  have hlt := (List.getElem?_eq_some_iff.mp hk).1
  have hcase : ∀ (i : Nat) (y : K × V), (s.set k (x.1, val))[i]? = some y →
      ∃ z, s[i]? = some z ∧ y.1 = z.1 ∧ ((i = k ∧ y.2 = val) ∨ (i ≠ k ∧ y.2 = z.2)) := by
    intro i y hy
    by_cases he : k = i
    · subst he
      simp [hlt] at hy; subst hy
      exact ⟨x, hk, rfl, Or.inl ⟨rfl, rfl⟩⟩
    · simp [he] at hy
      exact ⟨y, hy, rfl, Or.inr ⟨Ne.symm he, rfl⟩⟩
  refine ⟨h.w.setVal k val, by simpa using h.count, ?_, ?_, ?_, ?_⟩
  · intro i y hy
    obtain ⟨z, h1, h2, _⟩ := hcase i y hy
    rw [h2]; exact h.keys i z h1
  · intro i y hy
    obtain ⟨z, h1, h2, h3⟩ := hcase i y hy
    rcases h3 with ⟨rfl, h3⟩ | ⟨h3, h4⟩
    · have := (List.getElem?_eq_some_iff.mp (h.vals i x hk)).1
      simp [h3, this]
    · simp [Ne.symm h3, h4, h.vals i z h1]
  · intro i y hy
    obtain ⟨z, h1, h2, _⟩ := hcase i y hy
    rw [h2]; exact h.placed i z h1
  · unfold Distinct
    rw [List.pairwise_iff_getElem]
    intro i j hi hj hij
    obtain ⟨z, a1, a2, _⟩ := hcase i _ (List.getElem?_eq_getElem hi)
    obtain ⟨w, b1, b2, _⟩ := hcase j _ (List.getElem?_eq_getElem hj)
    rw [a2, b2]
    intro he
    have := distinct_at h.distinct a1 b1 he
    omega

/-- Inserting into a map with room. -/
theorem Holds.insertLoop {ko : KeyOps K} {cls : K → C} (con : Consistent ko cls) {m : MObj K V} {e : Nat}
    {s : List (K × V)} (h : Holds ko cls m e s) (hc : m.count < calcCapacity m.mapperSize)
    (key : K) (val : V) (fuel : Nat) (hf : 2 ^ e + 7 ≤ fuel) :
    ∃ m', insertLoop ko m key val fuel (ko.hash key) ((ko.hash key).toNat &&& (m.mapperSize - 1)) = .ok m' ∧
      Holds ko cls m' e (Spec.insert cls s key val) := by
  obtain ⟨N, h1, h2, h3⟩ := h.search con key
  obtain ⟨f, hs⟩ := h.w.insert_at ko key val (fuel := fuel) (by omega) h2
  rw [hs, Map.insertLoop]
  rcases h3 with ⟨h3, h4⟩ | ⟨k, x, h3, h4, h5⟩
  · rw [rd_ok_iff.mpr h3, spec_insert_new cls s key val h4]
    have l1 : slot (ko.hash key) (2 ^ e) N < m.mapper.length := (List.getElem?_eq_some_iff.mp h3).1
    have l2 : m.count < m.keys.length := by rw [h.w.klen]; exact hc
    have l3 : m.count < m.vals.length := by rw [h.w.vlen]; exact hc
    simp only [Exec.bind_ok, LObj.wr, if_pos l1, if_pos l2, if_pos l3]
    refine ⟨_, rfl, h.add hc key val (fun n hn => ?_) h3 h4⟩
    obtain ⟨k, _, hk, _⟩ := h2 n hn
    exact ⟨k, hk⟩
  · rw [rd_ok_iff.mpr h3, spec_insert_old cls s h.distinct key val k x h4 h5]
    have l1 : k < m.vals.length := (List.getElem?_eq_some_iff.mp (h.vals k x h4)).1
    simp only [Exec.bind_ok, rdw_ok (h.keys k x h4), con.cmp, h5, decide_true, if_true, LObj.wr, if_pos l1]
    exact ⟨_, rfl, h.setVal h4 val⟩

/-! ## Growing, for hashes that are not negative -/

theorem int_shift (x : Nat) (k : Nat) : ((x : Int) >>> k) = ((x >>> k : Nat) : Int) := rfl

/-- The signed probe of `grow` is the unsigned one when the hash is not negative. -/
theorem placeLoop_at (h : BitVec 32) (e i : Nat) (mapper : List (Option Nat)) (N : Nat)
    (h1 : ∀ n, n < N → ∃ k, mapper[slot h (2 ^ e) n]? = some (some k))
    (h2 : mapper[slot h (2 ^ e) N]? = some none) : ∀ (d n : Nat), n + d = N → ∀ f, d < f →
    placeLoop (2 ^ e) i f mapper ((h >>> (5 * n)).toNat : Int) (slot h (2 ^ e) n) =
      .ok (mapper.set (slot h (2 ^ e) N) (some i)) := by
  intro d
  induction d with
  | zero =>
    intro n hn f hf
    obtain ⟨f, rfl⟩ := Nat.exists_eq_succ_of_ne_zero (show f ≠ 0 by omega)
    simp at hn; subst hn
    rw [placeLoop, rd_ok_iff.mpr h2]
    simp only [Exec.bind_ok, LObj.wr]
    rw [if_pos (List.getElem?_eq_some_iff.mp h2).1]
  | succ d ih =>
    intro n hn f hf
    obtain ⟨f, rfl⟩ := Nat.exists_eq_succ_of_ne_zero (show f ≠ 0 by omega)
    obtain ⟨k, hk⟩ := h1 n (by omega)
    rw [placeLoop, rd_ok_iff.mpr hk]
    simp only [Exec.bind_ok]
    have e1 : (((h >>> (5 * n)).toNat : Int) >>> 5) = ((h >>> (5 * (n + 1))).toNat : Int) := by
      rw [int_shift, ← shift_succ, BitVec.toNat_ushiftRight (i := 5)]
    rw [e1]
    have e2 : (((slot h (2 ^ e) n : Nat) : Int) * 5 + ((h >>> (5 * (n + 1))).toNat : Int) + 1) %
        ((2 ^ e : Nat) : Int) = ((slot h (2 ^ e) (n + 1) : Nat) : Int) := by
      rw [slot, nextSlot_eq]; push_cast; rfl
    have e3 : (((slot h (2 ^ e) n : Nat) : Int) * (5 : Int) + ((h >>> (5 * (n + 1))).toNat : Int) + 1) %
        ((2 ^ e : Nat) : Int) = ((slot h (2 ^ e) (n + 1) : Nat) : Int) := e2
    erw [e3]
    rw [Int.toNat_natCast]
    exact ih (n + 1) (by omega) f (by omega)

/-- A free slot of a partly filled table is on every probe sequence. -/
theorem place_search (h : BitVec 32) (e : Nat) (mapper : List (Option Nat)) (hl : mapper.length = 2 ^ e)
    (hc : mapper.countP Option.isSome < 2 ^ e) :
    ∃ N, N < 2 ^ e + 7 ∧ (∀ n, n < N → ∃ k, mapper[slot h (2 ^ e) n]? = some (some k)) ∧
      mapper[slot h (2 ^ e) N]? = some none := by
  obtain ⟨i, hi, hfree⟩ := exists_none mapper (by rw [hl]; exact hc)
  obtain ⟨n0, hn0, hs⟩ := slot_surj h e i (by rw [← hl]; exact hi)
  obtain ⟨N, a, b, c⟩ := exists_least (P := fun n => mapper[slot h (2 ^ e) n]? = some none) _
    ⟨n0, hn0, by rw [hs]; exact hfree⟩
  refine ⟨N, a, fun n hn => ?_, b⟩
  have hlt : slot h (2 ^ e) n < mapper.length := by rw [hl]; exact slot_lt _ _ _
  have hg := List.getElem?_eq_getElem hlt
  cases hv : mapper[slot h (2 ^ e) n] with
  | none => rw [hv] at hg; exact absurd hg (c n hn)
  | some k => exact ⟨k, by rw [hg, hv]⟩

theorem rehash_spec (ko : KeyOps K) (fuel e : Nat) (keys : List (Option K)) (ks : List K)
    (hks : ∀ (i : Nat) (k : K), ks[i]? = some k → keys[i]? = some (some k))
    (hpos : ∀ k ∈ ks, (ko.hash k).toNat < 2 ^ 31) (hf : 2 ^ e + 7 ≤ fuel) (hlen : ks.length ≤ 2 ^ e)
    (n : Nat) : ∀ (i : Nat) (mapper : List (Option Nat)), i + n = ks.length →
      mapper.length = 2 ^ e → mapper.countP Option.isSome = i →
      (∀ (j : Nat) (k : K), j < i → ks[j]? = some k → Placed mapper (ko.hash k) e j) →
      ∃ r, rehash ko fuel (2 ^ e) keys n i mapper = .ok r ∧
        (∀ (j : Nat) (k : K), ks[j]? = some k → Placed r (ko.hash k) e j) := by
  induction n with
  | zero =>
    intro i mapper h1 h2 h3 h4
    exact ⟨mapper, rfl, fun j k hj => h4 j k (by
      have := (List.getElem?_eq_some_iff.mp hj).1; omega) hj⟩
  | succ n ih =>
    intro i mapper h1 h2 h3 h4
    have hk : ks[i]? = some ks[i] := List.getElem?_eq_getElem (by omega)
    generalize ks[i] = k at hk
    obtain ⟨N, p1, p2, p3⟩ := place_search (ko.hash k) e mapper h2 (by omega)
    have hp := hpos k (List.mem_of_getElem? hk)
    have hint : (ko.hash k).toInt = ((ko.hash k).toNat : Int) := by
      rw [BitVec.toInt_eq_toNat_cond, if_pos (by omega)]
    have hpl := placeLoop_at (ko.hash k) e i mapper N p2 p3 N 0 (by omega) fuel (by omega)
    rw [rehash, rdw_ok (hks i k hk)]
    simp only [Exec.bind_ok, hint]
    have e0 : (((ko.hash k).toNat : Int) % ((2 ^ e : Nat) : Int)).toNat = slot (ko.hash k) (2 ^ e) 0 := by
      rw [slot, and_mask]; rfl
    rw [e0]
    simp only [Nat.mul_zero, BitVec.ushiftRight_zero] at hpl
    rw [hpl, Exec.bind_ok]
    apply ih (i + 1) _ (by omega) (by simpa using h2) (by rw [countP_set_some _ _ _ p3, h3])
    intro j k' hj hk'
    by_cases he : j = i
    · subst he
      rw [hk] at hk'; cases hk'
      refine ⟨N, ?_, fun n' hn' => ?_⟩
      · simp [(List.getElem?_eq_some_iff.mp p3).1]
      · obtain ⟨c, hc⟩ := p2 n' hn'
        have : slot (ko.hash k) (2 ^ e) N ≠ slot (ko.hash k) (2 ^ e) n' := by
          intro he; rw [he, hc] at p3; cases p3
        exact ⟨c, by simp [this, hc]⟩
    · exact (h4 j k' (by omega) hk').set p3 _

theorem Holds.grow {ko : KeyOps K} {cls : K → C} {m : MObj K V} {e : Nat}
    {s : List (K × V)} (h : Holds ko cls m e s)
    (hpos : ∀ x ∈ s, (ko.hash x.1).toNat < 2 ^ 31) (fuel : Nat) (hf : 2 ^ (e + 1) + 7 ≤ fuel) :
    ∃ m', grow ko fuel m = .ok m' ∧ Holds ko cls m' (e + 1) s ∧ m'.count < calcCapacity m'.mapperSize := by
  obtain ⟨keys, vals, e1, e2, l1, l2, g1, g2⟩ := grow_arrays h.w
  have hsz : m.mapperSize * 2 = 2 ^ (e + 1) := by rw [h.w.size, Nat.pow_succ]
  have hcnt := h.count
  have hcle := h.w.cle
  have hcap := cap_lt (n := m.mapperSize) (by rw [h.w.size]; exact Nat.two_pow_pos e)
  obtain ⟨r, hr, hp⟩ := rehash_spec ko fuel (e + 1) keys (s.map (·.1)) (by
      intro i k hk
      simp only [List.getElem?_map] at hk
      cases hx : s[i]? with
      | none => rw [hx] at hk; cases hk
      | some x =>
        rw [hx] at hk; simp at hk; subst hk
        have := (List.getElem?_eq_some_iff.mp hx).1
        rw [g1 i (by omega)]; exact h.keys i x hx) (by
      intro k hk
      obtain ⟨x, hx, rfl⟩ := List.mem_map.mp hk
      exact hpos x hx) hf (by simp; omega) s.length 0 (List.replicate (2 ^ (e + 1)) none)
      (by simp) (by simp) (by rw [List.countP_replicate]; simp) (by intro j k hj; omega)
  have hg : Map.grow ko fuel m = .ok { m with mapper := r, mapperSize := m.mapperSize * 2, keys := keys, vals := vals } := by
    unfold Map.grow
    have hr' : rehash ko fuel (m.mapperSize * 2) keys m.count 0
        (List.replicate (m.mapperSize * 2) none) = .ok r := by rw [hsz, hcnt]; exact hr
    simp only [e1, e2, Exec.bind_ok, hr']
  obtain ⟨w', c', d'⟩ := h.w.grow ko fuel hg
  refine ⟨_, hg, ⟨w', hcnt, ?_, ?_, ?_, h.distinct⟩, d'⟩
  · intro i x hx
    have := (List.getElem?_eq_some_iff.mp hx).1
    show keys[i]? = _
    rw [g1 i (by omega)]; exact h.keys i x hx
  · intro i x hx
    have := (List.getElem?_eq_some_iff.mp hx).1
    show vals[i]? = _
    rw [g2 i (by omega)]; exact h.vals i x hx
  · intro i x hx
    exact hp i x.1 (by simp [hx])

theorem cap_mono {a b : Nat} (h : a ≤ b) : calcCapacity (2 ^ a) ≤ calcCapacity (2 ^ b) := by
  have : 2 ^ a ≤ 2 ^ b := Nat.pow_le_pow_right (by omega) h
  unfold calcCapacity; omega

theorem Holds.insert {ko : KeyOps K} {cls : K → C} (con : Consistent ko cls) {m : MObj K V} {e : Nat}
    {s : List (K × V)} (h : Holds ko cls m e s) (key : K) (val : V)
    (hg : s.length < calcCapacity (2 ^ e) ∨ ∀ x ∈ s, (ko.hash x.1).toNat < 2 ^ 31)
    (fuel : Nat) (hf : 2 ^ (e + 1) + 7 ≤ fuel) :
    ∃ e' m', insert ko fuel m key val = .ok m' ∧ e ≤ e' ∧ e' ≤ e + 1 ∧
      Holds ko cls m' e' (Spec.insert cls s key val) := by
  have hcnt := h.count
  by_cases hc : m.count = calcCapacity m.mapperSize
  · have hpos : ∀ x ∈ s, (ko.hash x.1).toNat < 2 ^ 31 := by
      rcases hg with hg | hg
      · rw [h.w.size] at hc; omega
      · exact hg
    obtain ⟨m1, h1, h2, h3⟩ := h.grow hpos fuel hf
    obtain ⟨m2, h4, h5⟩ := h2.insertLoop con h3 key val fuel hf
    refine ⟨e + 1, m2, ?_, by omega, by omega, h5⟩
    unfold Map.insert
    rw [if_pos hc, h1, Exec.bind_ok, h4]
  · have hlt : m.count < calcCapacity m.mapperSize := by have := h.w.cle; omega
    have hpow : 2 ^ e ≤ 2 ^ (e + 1) := Nat.pow_le_pow_right (by omega) (by omega)
    obtain ⟨m2, h4, h5⟩ := h.insertLoop con hlt key val fuel (by omega)
    refine ⟨e, m2, ?_, by omega, by omega, h5⟩
    unfold Map.insert
    rw [if_neg hc, Exec.bind_ok, h4]

theorem rdAll_spec (a : List (Option K)) (l : List K)
    (h : ∀ (i : Nat) (k : K), l[i]? = some k → a[i]? = some (some k)) (n : Nat) :
    ∀ i, i + n = l.length → rdAll a n i = .ok (l.drop i) := by
  induction n with
  | zero => intro i hi; rw [rdAll, List.drop_of_length_le (by omega)]
  | succ n ih =>
    intro i hi
    have hlt : i < l.length := by omega
    rw [rdAll, rdw_ok (h i l[i] (List.getElem?_eq_getElem hlt)), Exec.bind_ok, ih (i + 1) (by omega),
      Exec.bind_ok, List.drop_eq_getElem_cons hlt]

theorem Holds.keysof {ko : KeyOps K} {cls : K → C} {m : MObj K V} {e : Nat}
    {s : List (K × V)} (h : Holds ko cls m e s) : keysof m = .ok (s.map (·.1)) := by
  unfold Map.keysof
  rw [rdAll_spec m.keys (s.map (·.1)) (by
    intro i k hk
    simp only [List.getElem?_map] at hk
    cases hx : s[i]? with
    | none => rw [hx] at hk; cases hk
    | some x =>
      rw [hx] at hk; simp at hk; subst hk
      exact h.keys i x hx) m.count 0 (by simp [h.count])]
  rfl

/-! ## Histories -/

/-- The keys a history inserts, in order. -/
def inserted : List (Op K V) → List K
  | [] => []
  | .insert k _ :: os => k :: inserted os
  | _ :: os => inserted os

theorem spec_insert_keys (cls : K → C) (s : List (K × V)) (k : K) (v : V) :
    (∀ x ∈ Spec.insert cls s k v, x.1 = k ∨ ∃ y ∈ s, y.1 = x.1) ∧
    (Spec.insert cls s k v).length ≤ s.length + 1 := by
  induction s with
  | nil => simp [Spec.insert]
  | cons y s ih =>
    obtain ⟨k', v'⟩ := y
    simp only [Spec.insert]
    split
    · refine ⟨?_, by simp⟩
      intro x hx
      rcases List.mem_cons.mp hx with rfl | hx
      · exact Or.inr ⟨(k', v'), by simp, rfl⟩
      · exact Or.inr ⟨x, by simp [hx], rfl⟩
    · refine ⟨?_, by simpa using ih.2⟩
      intro x hx
      rcases List.mem_cons.mp hx with rfl | hx
      · exact Or.inr ⟨(k', v'), by simp, rfl⟩
      · rcases ih.1 x hx with h | ⟨y, hy, e⟩
        · exact Or.inl h
        · exact Or.inr ⟨y, by simp [hy], e⟩

theorem run_spec {ko : KeyOps K} {cls : K → C} (con : Consistent ko cls) (ops : List (Op K V)) :
    ∀ {m : MObj K V} {e : Nat} {s : List (K × V)}, Holds ko cls m e s →
    (s.length + (inserted ops).length ≤ calcCapacity (2 ^ e) ∨
      ((∀ x ∈ s, (ko.hash x.1).toNat < 2 ^ 31) ∧ ∀ k ∈ inserted ops, (ko.hash k).toNat < 2 ^ 31)) →
    ∀ fuel, 2 ^ (e + ops.length) + 7 ≤ fuel → run ko fuel m ops = .ok (Spec.run cls s ops) := by
  induction ops with
  | nil => intros; rfl
  | cons o os ih =>
    intro m e s h hg fuel hf
    have p1 : 2 ^ e ≤ 2 ^ (e + os.length) := Nat.pow_le_pow_right (by omega) (by omega)
    have p2 : 2 ^ (e + os.length) ≤ 2 ^ (e + (os.length + 1)) := Nat.pow_le_pow_right (by omega) (by omega)
    have p3 : 2 ^ (e + 1) ≤ 2 ^ (e + (os.length + 1)) := Nat.pow_le_pow_right (by omega) (by omega)
    simp only [List.length_cons] at hf
    cases o with
    | insert k v =>
      simp only [inserted, List.length_cons] at hg
      obtain ⟨e', m', h1, h2, h3, h4⟩ := h.insert con k v (by
        rcases hg with hg | hg
        · exact Or.inl (by omega)
        · exact Or.inr hg.1) fuel (by omega)
      have p4 : 2 ^ (e' + os.length) ≤ 2 ^ (e + (os.length + 1)) :=
        Nat.pow_le_pow_right (by omega) (by omega)
      obtain ⟨q1, q2⟩ := spec_insert_keys cls s k v
      have := ih h4 (by
        rcases hg with hg | ⟨g1, g2⟩
        · refine Or.inl ?_
          have := cap_mono h2
          omega
        · refine Or.inr ⟨?_, fun k' hk' => g2 k' (by simp [hk'])⟩
          intro x hx
          rcases q1 x hx with e | ⟨y, hy, e⟩
          · rw [e]; exact g2 k (by simp)
          · rw [← e]; exact g1 y hy) fuel (by omega)
      simp only [run, step, h1, Exec.bind_ok, this, Spec.run, Spec.step]
    | select k =>
      have := ih h hg fuel (by omega)
      simp only [run, step, h.select con k fuel (by omega), Exec.bind_ok, Spec.run, Spec.step]
      cases Spec.lookup cls s k <;> simp [this]
    | count =>
      have := ih h hg fuel (by omega)
      simp only [run, step, Exec.bind_ok, Spec.run, Spec.step, this, h.count]
    | keys =>
      have := ih h hg fuel (by omega)
      simp only [run, step, h.keysof, Exec.bind_ok, Spec.run, Spec.step, this]

theorem holds_new (ko : KeyOps K) (cls : K → C) {m : MObj K V} {e : Nat} (w : W m e) (h : m.count = 0) :
    Holds ko cls m e [] :=
  ⟨w, h, by simp, by simp, by simp, List.Pairwise.nil⟩

/-- C15 (and C17), the full property: with keys that compare and hash consistently, every history
on a new map ends and shows what it shows on a finite map. -/
def C15Statement : Prop :=
  ∀ (K V C : Type) [DecidableEq C] (ko : KeyOps K) (cls : K → C), Consistent ko cls →
    ∀ (num : Int) (ops : List (Op K V)), ∃ fuel0, ∀ fuel, fuel0 ≤ fuel →
      ∃ m, newMap fuel num = .ok m ∧ run ko fuel m ops = .ok (Spec.run cls [] ops)

/-- **C15**, **C16**, **C17** for histories that insert only keys whose hash is not negative as an
`int`, or that insert no more keys than the map was created for. Missing: growth of a map with
negative hashes (see `C17_violated` and `C16_violated`). -/
theorem C15_finite_map_partial {ko : KeyOps K} {cls : K → C} (con : Consistent ko cls) (num : Int)
    (ops : List (Op K V))
    (hg : ((inserted ops).length : Int) ≤ max num 5 ∨ ∀ k ∈ inserted ops, (ko.hash k).toNat < 2 ^ 31) :
    ∃ fuel0, ∀ fuel, fuel0 ≤ fuel →
      ∃ m, newMap fuel num = .ok m ∧ run ko fuel m ops = .ok (Spec.run cls [] ops) := by
  obtain ⟨m, e, h1, w, h2, h3⟩ := newMap_spec (K := K) (V := V) num
  have h8 := eight_le w.e3
  refine ⟨2 ^ (e + ops.length) + 7 + num.toNat + 1, fun fuel hf => ?_⟩
  have := Nat.two_pow_pos (e + ops.length)
  refine ⟨m, h1 fuel (by omega), run_spec con ops (holds_new ko cls w h2) ?_ fuel (by omega)⟩
  rw [w.size] at h3
  rcases hg with hg | hg
  · refine Or.inl ?_
    have : 5 ≤ calcCapacity (2 ^ e) := by unfold calcCapacity; omega
    have := Nat.two_pow_pos (e + ops.length)
    simp only [List.length_nil]
    omega
  · exact Or.inr ⟨by simp, hg⟩

/-- Twelve integers whose hashes are not negative: inserting them grows the map twice. -/
example : ∀ k ∈ inserted ([0, 1, 2, 3, 4, 5, 17, 18, 19, 20, 33, 34].map (fun k => Op.insert k ())),
    (IntKey.ops.hash k).toNat < 2 ^ 31 := by decide

/-! ## Termination and memory safety, whatever the hashes -/

/-- The states of map objects: new ones, and those left by insertions and growths (an insertion
may grow the map and then fail). -/
inductive Reach (ko : KeyOps K) : MObj K V → Prop
  | new {fuel num m} (h : newMap fuel num = .ok m) : Reach ko m
  | insert {m m' fuel k v} (r : Reach ko m) (h : insert ko fuel m k v = .ok m') : Reach ko m'
  | grow {m m' fuel} (r : Reach ko m) (h : grow ko fuel m = .ok m') : Reach ko m'

theorem sizeLoop_ok (num : Nat) : ∀ (fuel e s : Nat), 3 ≤ e → sizeLoop num fuel (2 ^ e) = .ok s →
    ∃ e', 3 ≤ e' ∧ s = 2 ^ e' := by
  intro fuel
  induction fuel with
  | zero => intro e s he h; cases h
  | succ fuel ih =>
    intro e s he h
    rw [sizeLoop] at h
    split at h
    · rw [← Nat.pow_succ] at h; exact ih _ _ (by omega) h
    · cases h; exact ⟨e, he, rfl⟩

theorem W.reach {ko : KeyOps K} {m : MObj K V} (r : Reach ko m) : ∃ e, W m e := by
  induction r with
  | @new fuel num m h =>
    unfold newMap at h
    obtain ⟨sz, h1, h⟩ := Exec.bind_eq_ok.mp h
    cases h
    obtain ⟨e, he, rfl⟩ := sizeLoop_ok _ _ 3 _ (by omega) h1
    refine ⟨e, ⟨rfl, he, by simp, by simp, by simp, by simp, by simp, by simp, ?_, ?_⟩⟩
    · show (List.replicate _ _).countP _ = 0
      rw [List.countP_replicate]; simp
    · intro k hk
      have hk : some k ∈ List.replicate (2 ^ e) none := hk
      simp [List.mem_replicate] at hk
  | insert r h ih => obtain ⟨e, w⟩ := ih; exact w.insert ko _ _ _ h
  | grow r h ih => obtain ⟨e, w⟩ := ih; exact ⟨_, (w.grow ko _ h).1⟩

/-- C16, the full property. -/
def C16Statement : Prop :=
  ∀ (K V : Type) (ko : KeyOps K), (∀ a b, ko.cmp a b = .err ∨ ∃ c, ko.cmp a b = .ok c) →
    ∀ (m : MObj K V), Reach ko m → ∀ (key : K) (val : V), ∃ fuel,
      (select ko fuel m key = .err ∨ ∃ r, select ko fuel m key = .ok r) ∧
      (insert ko fuel m key val = .err ∨ ∃ m', insert ko fuel m key val = .ok m')

/-- **C16**, lookups: every lookup in every reachable map ends within `mapper_size + 7` steps
without leaving the arrays, whatever the hashes (negative ones included). -/
theorem C16_lookup_ends (ko : KeyOps K) (hc : ∀ a b, ko.cmp a b = .err ∨ ∃ c, ko.cmp a b = .ok c)
    (m : MObj K V) (r : Reach ko m) (key : K) :
    select ko (m.mapperSize + 7) m key = .err ∨
      ∃ r, select ko (m.mapperSize + 7) m key = .ok r := by
  obtain ⟨e, w⟩ := W.reach r
  exact w.select_ends ko hc key _ (by rw [w.size]; omega)

/-- **C16**, insertions that do not grow the map end too. Missing: insertions that do (see
`C16_violated`; for hashes that are not negative `C15_finite_map_partial` shows they end). -/
theorem C16_insert_ends_partial (ko : KeyOps K)
    (hc : ∀ a b, ko.cmp a b = .err ∨ ∃ c, ko.cmp a b = .ok c)
    (m : MObj K V) (r : Reach ko m) (hroom : m.count ≠ calcCapacity m.mapperSize) (key : K) (val : V) :
    insert ko (m.mapperSize + 7) m key val = .err ∨
      ∃ m', insert ko (m.mapperSize + 7) m key val = .ok m' := by
  obtain ⟨e, w⟩ := W.reach r
  have hlt : m.count < calcCapacity m.mapperSize := by have := w.cle; omega
  unfold insert
  rw [if_neg hroom, Exec.bind_ok]
  obtain ⟨N, hN, h1, h2⟩ := w.search ko key
  obtain ⟨f, hs⟩ := w.insert_at ko key val (fuel := m.mapperSize + 7) (by rw [w.size]; omega) h1
  rw [hs, insertLoop]
  rcases h2 with h2 | ⟨k, kk, h2, h3, hk, h4⟩
  · rw [rd_ok_iff.mpr h2]
    have l1 : slot (ko.hash key) (2 ^ e) N < m.mapper.length := (List.getElem?_eq_some_iff.mp h2).1
    have l2 : m.count < m.keys.length := by rw [w.klen]; exact hlt
    have l3 : m.count < m.vals.length := by rw [w.vlen]; exact hlt
    simp only [Exec.bind_ok, LObj.wr, if_pos l1, if_pos l2, if_pos l3]
    exact Or.inr ⟨_, rfl⟩
  · rw [rd_ok_iff.mpr h2]
    simp only [Exec.bind_ok, rdw_ok h3]
    obtain ⟨v, hv⟩ := w.vs k hk
    have l1 : k < m.vals.length := (List.getElem?_eq_some_iff.mp hv).1
    rcases hc key kk with hc | ⟨c, hc⟩
    · rw [hc]; exact Or.inl rfl
    · cases c with
      | false => exact absurd hc h4
      | true => rw [hc]; simp [LObj.wr, l1]

/-! ## What goes wrong: real integer keys -/

/-- Integer keys compare and hash consistently. -/
theorem int_consistent : Consistent IntKey.ops (fun n : Int => n) :=
  ⟨fun _ _ => rfl, fun _ _ h => by rw [h]⟩

/-- Six insertions of small integers after which the fifth key is no longer found. -/
theorem C17_lost (f : Nat) : ∃ m : MObj Int Nat, newMap (f + 50) 0 = .ok m ∧
    run IntKey.ops (f + 50) m [.insert 181 1, .insert 127 2, .insert 96 3, .insert 250 4, .insert 266 5,
      .select 266, .insert 157 6, .select 266] =
    .ok [.done, .done, .done, .done, .done, .found 5, .done, .absent] :=
  ⟨_, rfl, rfl⟩

theorem C17_violated : ¬ C15Statement := by
  intro h
  obtain ⟨f, hf⟩ := h Int Nat Int IntKey.ops (fun n => n) int_consistent 0
    [.insert 181 1, .insert 127 2, .insert 96 3, .insert 250 4, .insert 266 5,
      .select 266, .insert 157 6, .select 266]
  obtain ⟨m, h1, h2⟩ := hf (f + 50) (by omega)
  obtain ⟨m', h3, h4⟩ := C17_lost f
  rw [h1] at h3; cases h3
  rw [h2] at h4
  cases h4

theorem stuck (mapper : List (Option Nat)) (k i : Nat) (h : mapper[4]? = some (some k)) :
    ∀ fuel, placeLoop 16 i fuel mapper (-1) 4 = .diverge := by
  intro fuel
  induction fuel with
  | zero => rfl
  | succ fuel ih => rw [placeLoop, rd_ok_iff.mpr h]; exact ih

/-- The map after five insertions. -/
def five : MObj Int Nat :=
  match (newMap 50 0 : Exec (MObj Int Nat)) with
  | .ok m =>
    match (do
      let m ← insert IntKey.ops 50 m 246 1
      let m ← insert IntKey.ops 50 m 38 2
      let m ← insert IntKey.ops 50 m 286 3
      let m ← insert IntKey.ops 50 m 221 4
      insert IntKey.ops 50 m 228 5 : Exec (MObj Int Nat)) with
    | .ok m => m
    | _ => m
  | _ => ⟨0, 0, [], [], []⟩

theorem five_reach : Reach IntKey.ops five := by
  have h0 : ∃ m : MObj Int Nat, newMap 50 0 = .ok m := ⟨_, rfl⟩
  obtain ⟨m0, e0⟩ := h0
  have r := Reach.new (ko := IntKey.ops) e0
  cases e0
  have r := Reach.insert (fuel := 50) (k := 246) (v := 1) r rfl
  have r := Reach.insert (fuel := 50) (k := 38) (v := 2) r rfl
  have r := Reach.insert (fuel := 50) (k := 286) (v := 3) r rfl
  have r := Reach.insert (fuel := 50) (k := 221) (v := 4) r rfl
  exact Reach.insert (fuel := 50) (k := 228) (v := 5) r rfl

/-- C16: a reachable map, in which the hash of a key is negative; it is full. -/
example : Reach IntKey.ops five ∧ (∀ a b, IntKey.ops.cmp a b = .err ∨ ∃ c, IntKey.ops.cmp a b = .ok c) ∧
    five.count = calcCapacity five.mapperSize ∧ (IntKey.ops.hash 228).toInt < 0 ∧
    select IntKey.ops 15 five 228 = .ok (some 5) :=
  ⟨five_reach, fun _ _ => .inr ⟨_, rfl⟩, by decide, by decide, by decide +kernel⟩

/-- Inserting a sixth small integer never ends. -/
theorem C16_hangs (fuel : Nat) : insert IntKey.ops fuel five 72 6 = .diverge := by
  have big : ∀ f, insert IntKey.ops (f + 8) five 72 6 = .diverge := by
    intro f
    have hr : rehash IntKey.ops (f + 8) 16 (five.keys ++ List.replicate 5 none) 5 0
        (List.replicate 16 none) =
        (placeLoop 16 4 (f + 2) [none, none, none, none, some 1, none, none, some 3, none, none, some 0,
          some 2, none, none, none, none] (-1) 4 >>= fun mapper =>
        rehash IntKey.ops (f + 8) 16 (five.keys ++ List.replicate 5 none) 0 5 mapper) := rfl
    rw [stuck _ 1 4 rfl, Exec.bind_diverge] at hr
    have hi : insert IntKey.ops (f + 8) five 72 6 =
        ((rehash IntKey.ops (f + 8) 16 (five.keys ++ List.replicate 5 none) 5 0
          (List.replicate 16 none) >>= fun mapper =>
          Exec.ok { five with
            mapper := mapper, mapperSize := 16
            keys := five.keys ++ List.replicate 5 none
            vals := five.vals ++ List.replicate 5 none }) >>= fun m =>
          insertLoop IntKey.ops m 72 6 (f + 8) (IntKey.ops.hash 72)
            ((IntKey.ops.hash 72).toNat &&& (m.mapperSize - 1))) := rfl
    rw [hi, hr]
    rfl
  match fuel with
  | 0 | 1 | 2 | 3 | 4 | 5 | 6 | 7 => rfl
  | f + 8 => exact big f

theorem C16_violated : ¬ C16Statement := by
  intro h
  obtain ⟨fuel, _, h2⟩ := h Int Nat IntKey.ops (fun a b => Or.inr ⟨_, rfl⟩) five five_reach 72 6
  rw [C16_hangs] at h2
  rcases h2 with h2 | ⟨_, h2⟩ <;> cases h2

end Noja.Map
