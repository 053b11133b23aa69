import Verif.Obj.MapProps

/-!
# Tables whose keys are looked at in a memory

What is needed to use the tables of `Verif.Obj.Map` for objects that live on a heap: operations depend
only on the keys that are in the table, and growing is harmless if every key is still where its probe
sequence finds it.
-/

set_option linter.unusedVariables false
set_option linter.unusedSectionVars false

namespace Noja.Map

variable {K V C D : Type} [DecidableEq C] [DecidableEq D]

/-- The entries of a table, in order of insertion. -/
def entries (m : MObj K V) : List (K × V) :=
  ((m.keys.zip m.vals).take m.count).filterMap fun p =>
    match p with
    | (some k, some v) => some (k, v)
    | _ => none

theorem filterMap_take {α β : Type} (f : α → Option β) : ∀ (l : List α) (s : List β), s.length ≤ l.length →
    (∀ (i : Nat) (y : β), s[i]? = some y → ∃ x, l[i]? = some x ∧ f x = some y) → (l.take s.length).filterMap f = s
  | _, [], _, _ => by simp
  | [], y :: s, h, _ => by simp at h
  | x :: l, y :: s, h, hs => by
    obtain ⟨x', h1, h2⟩ := hs 0 y rfl
    cases h1
    rw [List.length_cons, List.take_succ_cons, List.filterMap_cons, h2]
    dsimp only
    rw [filterMap_take f l s (by simpa using h) fun i y hy => hs (i + 1) y hy]

theorem Holds.entries {ko : KeyOps K} {cls : K → C} {m : MObj K V} {e : Nat} {s : List (K × V)}
    (h : Holds ko cls m e s) : Map.entries m = s := by
  have h1 := h.count
  have h2 := h.w.cle
  have h3 := h.w.klen
  have h4 := h.w.vlen
  unfold Map.entries
  rw [h1]
  refine filterMap_take _ _ _ (by rw [List.length_zip]; omega) fun i y hy => ?_
  refine ⟨(some y.1, some y.2), ?_, rfl⟩
  rw [List.getElem?_zip_eq_some]
  exact ⟨h.keys i y hy, h.vals i y hy⟩

theorem Holds.congr {ko ko' : KeyOps K} {cls : K → C} {cls' : K → D} {m : MObj K V} {e : Nat} {s : List (K × V)}
    (h : Holds ko cls m e s) (hh : ∀ x ∈ s, ko'.hash x.1 = ko.hash x.1)
    (hc : ∀ x ∈ s, ∀ y ∈ s, cls' x.1 = cls' y.1 → cls x.1 = cls y.1) : Holds ko' cls' m e s where
  w := h.w
  count := h.count
  keys := h.keys
  vals := h.vals
  placed i x hx := by
    rw [hh x (List.mem_of_getElem? hx)]
    exact h.placed i x hx
  distinct := by
    refine List.Pairwise.imp_of_mem ?_ h.distinct
    intro x y hx hy hd q
    exact hd (hc x hx y hy q)

theorem Holds.key {ko : KeyOps K} {cls : K → C} {m : MObj K V} {e : Nat} {s : List (K × V)}
    (h : Holds ko cls m e s) {i k : Nat} (hk : m.mapper[i]? = some (some k)) :
    ∃ x ∈ s, m.keys[k]? = some (some x.1) := by
  have h1 := h.w.rng k (List.mem_of_getElem? hk)
  rw [h.count] at h1
  exact ⟨s[k], List.getElem_mem h1, h.keys k _ (List.getElem?_eq_getElem h1)⟩

theorem selectLoop_congr {ko ko' : KeyOps K} {cls : K → C} {m : MObj K V} {e : Nat} {s : List (K × V)}
    (h : Holds ko' cls m e s) {key : K} (hc : ∀ x ∈ s, ko.cmp key x.1 = ko'.cmp key x.1) :
    ∀ (fuel : Nat) (p : BitVec 32) (i : Nat), selectLoop ko m key fuel p i = selectLoop ko' m key fuel p i
  | 0, _, _ => rfl
  | fuel + 1, p, i => by
    rw [selectLoop, selectLoop]
    cases hk : rd m.mapper i with
    | ok k =>
      cases k with
      | none => rfl
      | some k =>
        obtain ⟨x, hx, hkk⟩ := h.key (rd_ok_iff.mp hk)
        simp only [Exec.bind_ok, rdw_ok hkk, hc x hx, selectLoop_congr h hc fuel]
    | _ => rfl

theorem select_congr {ko ko' : KeyOps K} {cls : K → C} {m : MObj K V} {e : Nat} {s : List (K × V)}
    (h : Holds ko' cls m e s) {key : K} (hh : ko.hash key = ko'.hash key)
    (hc : ∀ x ∈ s, ko.cmp key x.1 = ko'.cmp key x.1) (fuel : Nat) : select ko fuel m key = select ko' fuel m key := by
  unfold select
  rw [hh, selectLoop_congr h hc]

theorem insertLoop_congr {ko ko' : KeyOps K} {cls : K → C} {m : MObj K V} {e : Nat} {s : List (K × V)}
    (h : Holds ko' cls m e s) {key : K} (hc : ∀ x ∈ s, ko.cmp key x.1 = ko'.cmp key x.1) (val : V) :
    ∀ (fuel : Nat) (p : BitVec 32) (i : Nat), insertLoop ko m key val fuel p i = insertLoop ko' m key val fuel p i
  | 0, _, _ => rfl
  | fuel + 1, p, i => by
    rw [insertLoop, insertLoop]
    cases hk : rd m.mapper i with
    | ok k =>
      cases k with
      | none => rfl
      | some k =>
        obtain ⟨x, hx, hkk⟩ := h.key (rd_ok_iff.mp hk)
        simp only [Exec.bind_ok, rdw_ok hkk, hc x hx, insertLoop_congr h hc val fuel]
    | _ => rfl

theorem rehash_congr (ko ko' : KeyOps K) (fuel size : Nat) (keys : List (Option K)) (n : Nat) :
    ∀ (i : Nat) (mapper : List (Option Nat)),
      (∀ j k, i ≤ j → j < i + n → keys[j]? = some (some k) → ko.hash k = ko'.hash k) →
      rehash ko fuel size keys n i mapper = rehash ko' fuel size keys n i mapper := by
  induction n with
  | zero => intros; rfl
  | succ n ih =>
    intro i mapper h
    rw [rehash, rehash]
    cases hk : rdw keys i with
    | ok k =>
      have hk' : keys[i]? = some (some k) := by
        unfold rdw at hk
        obtain ⟨v, hv, hk⟩ := Exec.bind_eq_ok.mp hk
        cases v with
        | none => cases hk
        | some v => cases hk; exact rd_ok_iff.mp hv
      have h1 := h i k (Nat.le_refl _) (by omega) hk'
      have h2 : ∀ mp, rehash ko fuel size keys n (i + 1) mp = rehash ko' fuel size keys n (i + 1) mp :=
        fun mp => ih (i + 1) mp fun j k h1 h2 => h j k (by omega) (by omega)
      rw [Exec.bind_ok, Exec.bind_ok, h1]
      dsimp only
      cases placeLoop size i fuel mapper (ko'.hash k).toInt ((ko'.hash k).toInt % (size : Int)).toNat with
      | ok mp => rw [Exec.bind_ok, Exec.bind_ok]; exact h2 mp
      | err => rw [Exec.bind_err, Exec.bind_err]
      | ub => rw [Exec.bind_ub, Exec.bind_ub]
      | diverge => rw [Exec.bind_diverge, Exec.bind_diverge]
    | err => rw [Exec.bind_err, Exec.bind_err]
    | ub => rw [Exec.bind_ub, Exec.bind_ub]
    | diverge => rw [Exec.bind_diverge, Exec.bind_diverge]

theorem grow_congr {ko ko' : KeyOps K} {cls : K → C} {m : MObj K V} {e : Nat} {s : List (K × V)}
    (h : Holds ko' cls m e s) (hh : ∀ x ∈ s, ko.hash x.1 = ko'.hash x.1) (fuel : Nat) :
    grow ko fuel m = grow ko' fuel m := by
  obtain ⟨keys, vals, e1, e2, l1, l2, g1, g2⟩ := grow_arrays h.w
  unfold grow
  simp only [e1, e2, Exec.bind_ok]
  rw [rehash_congr ko ko' fuel _ keys m.count 0]
  intro j k _ hj hk
  have hj : j < m.count := by omega
  rw [g1 j hj] at hk
  rw [h.count] at hj
  have := h.keys j _ (List.getElem?_eq_getElem hj)
  rw [this] at hk
  cases hk
  exact hh _ (List.getElem_mem hj)

/-- The probe sequence of a key with this hash, from step `n` on, comes to entry `i`. -/
def reaches (mapper : List (Option Nat)) (h : BitVec 32) (size i : Nat) : (fuel n : Nat) → Bool
  | 0, _ => false
  | fuel + 1, n =>
    match mapper[slot h size n]? with
    | some (some k) => decide (k = i) || reaches mapper h size i fuel (n + 1)
    | _ => false

/-- All keys, from entry `i` on, are where they are looked for. -/
def allPlaced (hash : K → BitVec 32) (m : MObj K V) : (n i : Nat) → Bool
  | 0, _ => true
  | n + 1, i =>
    match m.keys[i]? with
    | some (some k) => reaches m.mapper (hash k) m.mapperSize i (m.mapperSize + 7) 0 && allPlaced hash m n (i + 1)
    | _ => false

theorem placed_of_reaches {mapper : List (Option Nat)} {h : BitVec 32} {e i : Nat} :
    ∀ (fuel n : Nat), reaches mapper h (2 ^ e) i fuel n = true →
      (∀ n', n' < n → ∃ k, mapper[slot h (2 ^ e) n']? = some (some k)) → Placed mapper h e i
  | 0, _, hr, _ => by cases hr
  | fuel + 1, n, hr, hb => by
    rw [reaches] at hr
    split at hr
    · rename_i k hk
      by_cases q : k = i
      · exact ⟨n, by rw [hk, q], hb⟩
      · simp only [q, decide_false, Bool.false_or] at hr
        refine placed_of_reaches fuel (n + 1) hr fun n' hn => ?_
        by_cases q : n' = n
        · exact ⟨k, by rw [q]; exact hk⟩
        · exact hb n' (by omega)
    · cases hr

theorem placed_of_all (hash : K → BitVec 32) (m : MObj K V) {e : Nat} (hs : m.mapperSize = 2 ^ e) :
    ∀ (n i : Nat), allPlaced hash m n i = true → ∀ j k, i ≤ j → j < i + n → m.keys[j]? = some (some k) →
      Placed m.mapper (hash k) e j
  | 0, _, _, j, _, _, h, _ => by omega
  | n + 1, i, ha, j, k, h1, h2, hk => by
    rw [allPlaced] at ha
    split at ha
    · rename_i k' hk'
      simp only [Bool.and_eq_true] at ha
      by_cases q : j = i
      · subst q
        rw [hk] at hk'
        cases hk'
        rw [hs] at ha
        exact placed_of_reaches _ _ ha.1 (by omega)
      · exact placed_of_all hash m hs n (i + 1) ha.2 j k (by omega) (by omega) hk
    · cases ha

/-- Growing is harmless if it puts every key where it is looked for. -/
theorem Holds.grown {ko : KeyOps K} {cls : K → C} {m m' : MObj K V} {e : Nat} {s : List (K × V)}
    (h : Holds ko cls m e s) {fuel : Nat} (hg : Map.grow ko fuel m = .ok m') {hash : K → BitVec 32}
    (hh : ∀ x ∈ s, hash x.1 = ko.hash x.1) (hp : allPlaced hash m' m'.count 0 = true) : Holds ko cls m' (e + 1) s := by
  obtain ⟨hw, hc, -⟩ := h.w.grow ko fuel hg
  obtain ⟨keys, vals, e1, e2, l1, l2, g1, g2⟩ := grow_arrays h.w
  have hkv : m'.keys = keys ∧ m'.vals = vals := by
    unfold Map.grow at hg
    simp only [e1, e2, Exec.bind_ok] at hg
    obtain ⟨mp, hm, hg⟩ := Exec.bind_eq_ok.mp hg
    cases hg
    exact ⟨rfl, rfl⟩
  have hlt : ∀ (i : Nat) (x : K × V), s[i]? = some x → i < m.count := fun i x hx => by
    rw [h.count]
    exact (List.getElem?_eq_some_iff.mp hx).1
  have hkeys : ∀ (i : Nat) (x : K × V), s[i]? = some x → m'.keys[i]? = some (some x.1) := fun i x hx => by
    rw [hkv.1, g1 i (hlt i x hx)]
    exact h.keys i x hx
  exact
    { w := hw
      count := by rw [hc, h.count]
      keys := hkeys
      vals := fun i x hx => by
        rw [hkv.2, g2 i (hlt i x hx)]
        exact h.vals i x hx
      placed := fun i x hx => by
        rw [← hh x (List.mem_of_getElem? hx)]
        exact placed_of_all hash m' hw.size _ _ hp i x.1 (Nat.zero_le _) (by have := hlt i x hx; omega) (hkeys i x hx)
      distinct := h.distinct }

theorem reaches_of_placed {mapper : List (Option Nat)} {h : BitVec 32} {e i : Nat} {N : Nat}
    (h1 : mapper[slot h (2 ^ e) N]? = some (some i))
    (h2 : ∀ n', n' < N → ∃ k', mapper[slot h (2 ^ e) n']? = some (some k')) :
    ∀ (d n : Nat), n + d = N → ∀ fuel, d < fuel → reaches mapper h (2 ^ e) i fuel n = true
  | 0, n, hn, fuel + 1, _ => by
    cases hn
    rw [reaches]
    simp only [Nat.add_zero] at h1
    rw [h1]
    simp
  | d + 1, n, hn, fuel + 1, hf => by
    rw [reaches]
    obtain ⟨k, hk⟩ := h2 n (by omega)
    rw [hk]
    simp only [Bool.or_eq_true]
    exact .inr (reaches_of_placed h1 h2 d (n + 1) (by omega) fuel (by omega))

theorem all_of_reaches (hash : K → BitVec 32) (m : MObj K V) :
    ∀ (n i : Nat), (∀ j, i ≤ j → j < i + n → ∃ k, m.keys[j]? = some (some k) ∧
      reaches m.mapper (hash k) m.mapperSize j (m.mapperSize + 7) 0 = true) → allPlaced hash m n i = true
  | 0, _, _ => rfl
  | n + 1, i, h => by
    obtain ⟨k, h1, h2⟩ := h i (Nat.le_refl _) (by omega)
    rw [allPlaced, h1]
    simp only [Bool.and_eq_true]
    exact ⟨h2, all_of_reaches hash m n (i + 1) fun j a b => h j (by omega) (by omega)⟩

theorem Holds.allPlaced {ko : KeyOps K} {cls : K → C} (con : Consistent ko cls) {m : MObj K V} {e : Nat}
    {s : List (K × V)} (h : Holds ko cls m e s) : Map.allPlaced ko.hash m m.count 0 = true := by
  refine all_of_reaches _ _ _ _ fun j _ hj => ?_
  rw [Nat.zero_add, h.count] at hj
  have hs := List.getElem?_eq_getElem hj
  refine ⟨s[j].1, h.keys j _ hs, ?_⟩
  obtain ⟨N, h1, h2, h3⟩ := h.search con s[j].1
  rw [h.w.size]
  rcases h3 with ⟨-, h3⟩ | ⟨k, x, h3, h4, h5⟩
  · exact absurd rfl (h3 _ (List.getElem_mem hj))
  · have := distinct_at h.distinct hs h4 h5
    subst this
    refine reaches_of_placed h3 (fun n hn => ?_) N 0 (by omega) _ h1
    obtain ⟨k, kk, a, -⟩ := h2 n hn
    exact ⟨k, a⟩

/-- A table grows without losing anything if no hash is negative. -/
theorem Holds.grows {ko : KeyOps K} {cls : K → C} (con : Consistent ko cls) {m : MObj K V} {e : Nat}
    {s : List (K × V)} (h : Holds ko cls m e s) (hpos : ∀ x ∈ s, (ko.hash x.1).toNat < 2 ^ 31) (fuel : Nat)
    (hf : 2 ^ (e + 1) + 7 ≤ fuel) :
    ∃ m', Map.grow ko fuel m = .ok m' ∧ Map.allPlaced ko.hash m' m'.count 0 = true := by
  obtain ⟨m', h1, h2, -⟩ := h.grow hpos fuel hf
  exact ⟨m', h1, h2.allPlaced con⟩

end Noja.Map
