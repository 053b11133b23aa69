import Verif.VM.Move.Rel
import Verif.VM.Tables

/-!
# Tables under other names

The functions of o_map.c do the same with references that have been renamed, if these are hashed and
compared as before.  Furthermore the arrays of a table contain no references but those of its entries:
what the collector sees of a map is all of it.
-/

set_option linter.unusedVariables false
set_option linter.unusedSimpArgs false

namespace Noja.VM.Move

open Noja.Graph (Obj Kind Heap Text text)
open Noja.VM.Book (All2)

variable {α β γ δ : Type} {ρ : Ref → Ref → Prop} {N : Nat}

/-- The same table under other names. -/
structure MR (ρ : Ref → Ref → Prop) (m m' : Map.MObj Ref Ref) : Prop where
  size : m.mapperSize = m'.mapperSize
  count : m.count = m'.count
  mapper : m.mapper = m'.mapper
  keys : All2 (Opt2 ρ) m.keys m'.keys
  vals : All2 (Opt2 ρ) m.vals m'.vals

structure OpsR (ρ : Ref → Ref → Prop) (ko ko' : Map.KeyOps Ref) : Prop where
  hash : ∀ a b, ρ a b → ko.hash a = ko'.hash b
  cmp : ∀ a b a' b', ρ a a' → ρ b b' → ko.cmp a b = ko'.cmp a' b'

theorem rd_rel {R : α → β → Prop} {l : List α} {l' : List β} (h : All2 R l l') (i : Nat) : ExR R (Noja.rd l i) (Noja.rd l' i) := by
  have := all2_get? h i
  unfold Noja.rd
  revert this
  cases l[i]? <;> cases l'[i]? <;> first | exact fun q => q | exact fun q => q.elim

theorem rdw_rel {l l' : List (Option Ref)} (h : All2 (Opt2 ρ) l l') (i : Nat) : ExR ρ (Map.rdw l i) (Map.rdw l' i) := by
  refine (rd_rel h i).bind fun a b r => ?_
  revert r
  cases a <;> cases b <;> first | exact fun q => q | exact fun q => q.elim

theorem wr_rel {R : α → β → Prop} {l : List α} {l' : List β} (h : All2 R l l') (i : Nat) {a : α} {b : β} (r : R a b) :
    ExR (All2 R) (LObj.wr l i a) (LObj.wr l' i b) := by
  unfold LObj.wr
  rw [All2.length h]
  by_cases q : i < l'.length
  · rw [if_pos q, if_pos q]; exact All2.set r i h
  · rw [if_neg q, if_neg q]; trivial

theorem copyVals_rel {l l' : List (Option Ref)} (h : All2 (Opt2 ρ) l l') : ∀ (n i : Nat) {k k' : List (Option Ref)}, All2 (Opt2 ρ) k k' →
    ExR (All2 (Opt2 ρ)) (LObj.copyVals l n i k) (LObj.copyVals l' n i k')
  | 0, i, k, k', hk => hk
  | n + 1, i, k, k', hk =>
    (rd_rel h i).bind fun _ _ r => (wr_rel hk i r).bind fun _ _ hk => copyVals_rel h n (i + 1) hk

theorem rehash_rel {ko ko' : Map.KeyOps Ref} (ho : OpsR ρ ko ko') (fuel size : Nat) {l l' : List (Option Ref)} (h : All2 (Opt2 ρ) l l') :
    ∀ (n i : Nat) (mapper : List (Option Nat)), ExR Eq (Map.rehash ko fuel size l n i mapper) (Map.rehash ko' fuel size l' n i mapper)
  | 0, i, mapper => rfl
  | n + 1, i, mapper => (rdw_rel h i).bind fun a b r => by
    rw [ho.hash a b r]
    refine (ExR.eq rfl).bind fun m m' q => ?_
    subst q
    exact rehash_rel ho fuel size h n (i + 1) m

theorem selectLoop_rel {ko ko' : Map.KeyOps Ref} (ho : OpsR ρ ko ko') {m m' : Map.MObj Ref Ref} (hm : MR ρ m m') {key key' : Ref}
    (rk : ρ key key') : ∀ (fuel : Nat) (pert : BitVec 32) (i : Nat),
      ExR (Opt2 ρ) (Map.selectLoop ko m key fuel pert i) (Map.selectLoop ko' m' key' fuel pert i)
  | 0, _, _ => trivial
  | fuel + 1, pert, i => by
    unfold Map.selectLoop
    rw [hm.mapper, hm.size]
    refine (ExR.eq rfl).bind fun k k' q => ?_
    subst q
    cases k with
    | none => trivial
    | some k =>
      refine (rdw_rel hm.keys k).bind fun a b r => ?_
      rw [ho.cmp key a key' b rk r]
      refine (ExR.eq rfl).bind fun c c' q => ?_
      subst q
      cases c with
      | true => exact (rdw_rel hm.vals k).bind fun a b r => r
      | false => exact selectLoop_rel ho hm rk fuel _ _

theorem select_rel {ko ko' : Map.KeyOps Ref} (ho : OpsR ρ ko ko') {m m' : Map.MObj Ref Ref} (hm : MR ρ m m') {key key' : Ref}
    (rk : ρ key key') (fuel : Nat) : ExR (Opt2 ρ) (Map.select ko fuel m key) (Map.select ko' fuel m' key') := by
  unfold Map.select
  rw [ho.hash key key' rk, hm.size]
  exact selectLoop_rel ho hm rk _ _ _

theorem none_rel (n : Nat) : All2 (Opt2 ρ) (List.replicate n none) (List.replicate n none) := All2.replicate trivial n

theorem grow_rel {ko ko' : Map.KeyOps Ref} (ho : OpsR ρ ko ko') {m m' : Map.MObj Ref Ref} (hm : MR ρ m m') (fuel : Nat) :
    ExR (MR ρ) (Map.grow ko fuel m) (Map.grow ko' fuel m') := by
  unfold Map.grow
  rw [hm.size, hm.count]
  refine (copyVals_rel hm.keys _ 0 (none_rel _)).bind fun k k' hk => ?_
  refine (copyVals_rel hm.vals _ 0 (none_rel _)).bind fun v v' hv => ?_
  refine (rehash_rel ho fuel _ hk _ _ _).bind fun p p' q => ?_
  subst q
  exact ⟨rfl, rfl, rfl, hk, hv⟩

theorem insertLoop_rel {ko ko' : Map.KeyOps Ref} (ho : OpsR ρ ko ko') {m m' : Map.MObj Ref Ref} (hm : MR ρ m m') {key key' val val' : Ref}
    (rk : ρ key key') (rv : ρ val val') : ∀ (fuel : Nat) (pert : BitVec 32) (i : Nat),
      ExR (MR ρ) (Map.insertLoop ko m key val fuel pert i) (Map.insertLoop ko' m' key' val' fuel pert i)
  | 0, _, _ => trivial
  | fuel + 1, pert, i => by
    unfold Map.insertLoop
    rw [hm.mapper, hm.size, hm.count]
    refine (ExR.eq rfl).bind fun k k' q => ?_
    subst q
    cases k with
    | none =>
      dsimp only
      refine (ExR.eq rfl).bind fun p p' q => ?_
      subst q
      refine (wr_rel hm.keys _ (a := some key) (b := some key') rk).bind fun k k' hk => ?_
      refine (wr_rel hm.vals _ (a := some val) (b := some val') rv).bind fun v v' hv => ?_
      exact ⟨rfl, rfl, rfl, hk, hv⟩
    | some k =>
      refine (rdw_rel hm.keys k).bind fun a b r => ?_
      rw [ho.cmp key a key' b rk r]
      refine (ExR.eq rfl).bind fun c c' q => ?_
      subst q
      cases c with
      | true =>
        refine (wr_rel hm.vals _ (a := some val) (b := some val') rv).bind fun v v' hv => ?_
        exact ⟨rfl, rfl, rfl, hm.keys, hv⟩
      | false => exact insertLoop_rel ho hm rk rv fuel _ _

theorem insert_rel {ko ko' : Map.KeyOps Ref} (ho : OpsR ρ ko ko') {m m' : Map.MObj Ref Ref} (hm : MR ρ m m') {key key' val val' : Ref}
    (rk : ρ key key') (rv : ρ val val') (fuel : Nat) : ExR (MR ρ) (Map.insert ko fuel m key val) (Map.insert ko' fuel m' key' val') := by
  unfold Map.insert
  rw [hm.size, hm.count, ho.hash key key' rk]
  have h : ExR (MR ρ) (if m'.count = Map.calcCapacity m'.mapperSize then Map.grow ko fuel m else .ok m)
      (if m'.count = Map.calcCapacity m'.mapperSize then Map.grow ko' fuel m' else .ok m') := by
    by_cases q : m'.count = Map.calcCapacity m'.mapperSize
    · rw [if_pos q, if_pos q]; exact grow_rel ho hm fuel
    · rw [if_neg q, if_neg q]; exact hm
  refine h.bind fun a b hm => ?_
  rw [hm.size]
  exact insertLoop_rel ho hm rk rv _ _ _

/-- The entry in two slots. -/
def slotPair : Option Ref × Option Ref → Option (Ref × Ref)
  | (some k, some v) => some (k, v)
  | _ => none

theorem entries_eq (m : Map.MObj Ref Ref) : Map.entries m = ((m.keys.zip m.vals).take m.count).filterMap slotPair := by
  unfold Map.entries
  congr 1
  funext p
  obtain ⟨_ | _, _ | _⟩ := p <;> rfl

theorem slots_rel : ∀ (n : Nat) {k k' v v' : List (Option Ref)}, All2 (Opt2 ρ) k k' → All2 (Opt2 ρ) v v' →
    All2 (Pair2 ρ) (((k.zip v).take n).filterMap slotPair) (((k'.zip v').take n).filterMap slotPair)
  | 0, _, _, _, _, _, _ => trivial
  | n + 1, [], [], _, _, _, _ => by simp only [List.zip_nil_left, List.take_nil, List.filterMap_nil]; trivial
  | n + 1, _ :: _, _ :: _, [], [], _, _ => by simp only [List.zip_nil_right, List.take_nil, List.filterMap_nil]; trivial
  | n + 1, a :: k, a' :: k', b :: v, b' :: v', hk, hv => by
    have ih := slots_rel n hk.2 hv.2
    have h1 := hk.1
    have h2 := hv.1
    rw [List.zip_cons_cons, List.zip_cons_cons, List.take_succ_cons, List.take_succ_cons, List.filterMap_cons, List.filterMap_cons]
    revert h1 h2
    cases a <;> cases a' <;> first | exact fun q => q.elim | skip
    · exact fun _ _ => ih
    · cases b <;> cases b' <;> first | exact fun _ q => q.elim | skip
      · exact fun _ _ => ih
      · exact fun h1 h2 => ⟨⟨h1, h2⟩, ih⟩

theorem entries_rel {m m' : Map.MObj Ref Ref} (hm : MR ρ m m') : All2 (Pair2 ρ) (Map.entries m) (Map.entries m') := by
  rw [entries_eq, entries_eq, hm.count]
  exact slots_rel _ hm.keys hm.vals

theorem newMap_rel (fuel : Nat) (num : Int) : ExR (MR ρ) (Map.newMap fuel num) (Map.newMap fuel num) := by
  unfold Map.newMap
  refine (ExR.eq rfl).bind fun a b q => ?_
  subst q
  exact ⟨rfl, rfl, rfl, none_rel _, none_rel _⟩

theorem kops_rel {C D : Config} (hf : C.fuel = D.fuel) {h h' : Heap} (hh : HR ρ N h h') (e : Bool) : OpsR ρ (kops C h e) (kops D h' e) where
  hash a b r := by
    show (match Graph.hash h C.fuel a with | .ok x => x | _ => 0) = (match Graph.hash h' D.fuel b with | .ok x => x | _ => 0)
    rw [hf, hash_rel hh D.fuel a b r]
  cmp a b a' b' r s := by
    unfold kops
    dsimp only
    rw [compare_rel hh r s]

/-! ## What is in the arrays -/

/-- The first `count` slots are the entries, the others have not been written. -/
structure Tidy (m : Map.MObj Ref Ref) : Prop where
  full : ∀ i, i < m.count → ∃ k v, m.keys[i]? = some (some k) ∧ m.vals[i]? = some (some v)
  freeK : ∀ i k, m.keys[i]? = some (some k) → i < m.count
  freeV : ∀ i v, m.vals[i]? = some (some v) → i < m.count

theorem Tidy.entry {m : Map.MObj Ref Ref} (h : Tidy m) {i : Nat} {k v : Ref} (hk : m.keys[i]? = some (some k))
    (hv : m.vals[i]? = some (some v)) : (k, v) ∈ Map.entries m := by
  rw [entries_eq]
  refine List.mem_filterMap.2 ⟨(some k, some v), ?_, rfl⟩
  refine List.mem_of_getElem? (i := i) ?_
  rw [List.getElem?_take_of_lt (h.freeK i k hk), List.getElem?_zip_eq_some]
  exact ⟨hk, hv⟩

/-- Every reference in the arrays is one of an entry. -/
theorem Tidy.kids {m : Map.MObj Ref Ref} (h : Tidy m) {r : Ref} (hr : some r ∈ m.keys ∨ some r ∈ m.vals) :
    ∃ e ∈ Map.entries m, r = e.1 ∨ r = e.2 := by
  rcases hr with hr | hr
  · obtain ⟨i, hi⟩ := List.getElem?_of_mem hr
    obtain ⟨k, v, h1, h2⟩ := h.full i (h.freeK i r hi)
    rw [hi] at h1
    cases h1
    exact ⟨_, h.entry hi h2, .inl rfl⟩
  · obtain ⟨i, hi⟩ := List.getElem?_of_mem hr
    obtain ⟨k, v, h1, h2⟩ := h.full i (h.freeV i r hi)
    rw [hi] at h2
    cases h2
    exact ⟨_, h.entry h1 hi, .inr rfl⟩

theorem newMap_tidy {fuel : Nat} {num : Int} {m : Map.MObj Ref Ref} (h : Map.newMap fuel num = .ok m) : Tidy m ∧ Map.entries m = [] := by
  unfold Map.newMap at h
  obtain ⟨s, -, h⟩ := Exec.bind_eq_ok.1 h
  cases h
  refine ⟨⟨fun i hi => absurd hi (Nat.not_lt_zero i), fun i k hk => ?_, fun i k hk => ?_⟩, rfl⟩
  · have := List.mem_of_getElem? hk
    rw [List.mem_replicate] at this
    cases this.2
  · have := List.mem_of_getElem? hk
    rw [List.mem_replicate] at this
    cases this.2

theorem wr_ok {l r : List α} {i : Nat} {v : α} (h : LObj.wr l i v = .ok r) : i < l.length ∧ r = l.set i v := by
  unfold LObj.wr at h
  by_cases q : i < l.length
  · rw [if_pos q] at h; cases h; exact ⟨q, rfl⟩
  · rw [if_neg q] at h; cases h

theorem copyVals_get {old : List (Option α)} : ∀ (n i : Nat) {new r : List (Option α)}, LObj.copyVals old n i new = .ok r →
    ∀ j, (i ≤ j ∧ j < i + n → r[j]? = old[j]?) ∧ (¬ (i ≤ j ∧ j < i + n) → r[j]? = new[j]?)
  | 0, i, new, r, h, j => by
    cases h
    exact ⟨fun q => absurd q.2 (by omega), fun _ => rfl⟩
  | n + 1, i, new, r, h, j => by
    unfold LObj.copyVals at h
    obtain ⟨v, h1, h⟩ := Exec.bind_eq_ok.1 h
    obtain ⟨x, h2, h⟩ := Exec.bind_eq_ok.1 h
    obtain ⟨hl, rfl⟩ := wr_ok h2
    have ih := copyVals_get n (i + 1) h j
    have h1 := rd_ok_iff.1 h1
    by_cases q : j = i
    · subst q
      have := ih.2 (by omega)
      rw [List.getElem?_set_self hl] at this
      exact ⟨fun _ => this.trans h1.symm, fun q => absurd ⟨Nat.le_refl _, by omega⟩ q⟩
    · refine ⟨fun q' => ih.1 (by omega), fun q' => ?_⟩
      rw [ih.2 (by omega), List.getElem?_set_ne (by omega)]

theorem grow_tidy {ko : Map.KeyOps Ref} {fuel : Nat} {m m' : Map.MObj Ref Ref} (h : Map.grow ko fuel m = .ok m') (ht : Tidy m) : Tidy m' := by
  unfold Map.grow at h
  obtain ⟨k, h1, h⟩ := Exec.bind_eq_ok.1 h
  obtain ⟨v, h2, h⟩ := Exec.bind_eq_ok.1 h
  obtain ⟨p, h3, h⟩ := Exec.bind_eq_ok.1 h
  cases h
  have hk := copyVals_get _ _ h1
  have hv := copyVals_get _ _ h2
  refine ⟨fun i hi => ?_, fun i x hx => ?_, fun i x hx => ?_⟩
  · obtain ⟨x, y, q1, q2⟩ := ht.full i hi
    refine ⟨x, y, ?_, ?_⟩
    · show k[i]? = _
      rw [(hk i).1 ⟨Nat.zero_le _, by rw [Nat.zero_add]; exact hi⟩]; exact q1
    · show v[i]? = _
      rw [(hv i).1 ⟨Nat.zero_le _, by rw [Nat.zero_add]; exact hi⟩]; exact q2
  · by_cases q : 0 ≤ i ∧ i < 0 + m.count
    · show i < m.count
      omega
    · have hx : k[i]? = some (some x) := hx
      rw [(hk i).2 q] at hx
      have := List.mem_of_getElem? hx
      rw [List.mem_replicate] at this
      cases this.2
  · by_cases q : 0 ≤ i ∧ i < 0 + m.count
    · show i < m.count
      omega
    · have hx : v[i]? = some (some x) := hx
      rw [(hv i).2 q] at hx
      have := List.mem_of_getElem? hx
      rw [List.mem_replicate] at this
      cases this.2

theorem insertLoop_tidy {ko : Map.KeyOps Ref} {m : Map.MObj Ref Ref} {key val : Ref} (ht : Tidy m) : ∀ (fuel : Nat) (pert : BitVec 32)
    (i : Nat) {m' : Map.MObj Ref Ref}, Map.insertLoop ko m key val fuel pert i = .ok m' → Tidy m'
  | 0, _, _, m', h => by cases h
  | fuel + 1, pert, i, m', h => by
    unfold Map.insertLoop at h
    obtain ⟨k, h1, h⟩ := Exec.bind_eq_ok.1 h
    cases k with
    | none =>
      dsimp only at h
      obtain ⟨p, h2, h⟩ := Exec.bind_eq_ok.1 h
      obtain ⟨k, h3, h⟩ := Exec.bind_eq_ok.1 h
      obtain ⟨v, h4, h⟩ := Exec.bind_eq_ok.1 h
      cases h
      obtain ⟨l1, rfl⟩ := wr_ok h3
      obtain ⟨l2, rfl⟩ := wr_ok h4
      refine ⟨fun i hi => ?_, fun i x hx => ?_, fun i x hx => ?_⟩
      · show ∃ x y, (m.keys.set m.count (some key))[i]? = some (some x) ∧ (m.vals.set m.count (some val))[i]? = some (some y)
        by_cases q : m.count = i
        · subst q
          exact ⟨key, val, List.getElem?_set_self l1, List.getElem?_set_self l2⟩
        · rw [List.getElem?_set_ne q, List.getElem?_set_ne q]
          exact ht.full i (by have : i < m.count + 1 := hi; omega)
      · have hx : (m.keys.set m.count (some key))[i]? = some (some x) := hx
        show i < m.count + 1
        by_cases q : m.count = i
        · omega
        · rw [List.getElem?_set_ne q] at hx
          have := ht.freeK i x hx
          omega
      · have hx : (m.vals.set m.count (some val))[i]? = some (some x) := hx
        show i < m.count + 1
        by_cases q : m.count = i
        · omega
        · rw [List.getElem?_set_ne q] at hx
          have := ht.freeV i x hx
          omega
    | some k =>
      obtain ⟨kk, h2, h⟩ := Exec.bind_eq_ok.1 h
      obtain ⟨c, h3, h⟩ := Exec.bind_eq_ok.1 h
      cases c with
      | false => exact insertLoop_tidy ht fuel _ _ h
      | true =>
        have hk : k < m.count := by
          unfold Map.rdw at h2
          obtain ⟨o, h4, h2⟩ := Exec.bind_eq_ok.1 h2
          cases o with
          | none => cases h2
          | some x => exact ht.freeK k x (rd_ok_iff.1 h4)
        obtain ⟨v, h4, h⟩ := Exec.bind_eq_ok.1 h
        cases h
        obtain ⟨l2, rfl⟩ := wr_ok h4
        refine ⟨fun i hi => ?_, ht.freeK, fun i x hx => ?_⟩
        · show ∃ x y, m.keys[i]? = some (some x) ∧ (m.vals.set k (some val))[i]? = some (some y)
          obtain ⟨x, y, q1, q2⟩ := ht.full i hi
          by_cases q : k = i
          · subst q
            exact ⟨x, val, q1, List.getElem?_set_self l2⟩
          · rw [List.getElem?_set_ne q]
            exact ⟨x, y, q1, q2⟩
        · have hx : (m.vals.set k (some val))[i]? = some (some x) := hx
          show i < m.count
          by_cases q : k = i
          · omega
          · rw [List.getElem?_set_ne q] at hx
            exact ht.freeV i x hx

theorem insert_tidy {ko : Map.KeyOps Ref} {fuel : Nat} {m m' : Map.MObj Ref Ref} {key val : Ref}
    (h : Map.insert ko fuel m key val = .ok m') (ht : Tidy m) : Tidy m' := by
  unfold Map.insert at h
  obtain ⟨x, h1, h⟩ := Exec.bind_eq_ok.1 h
  refine insertLoop_tidy ?_ _ _ _ h
  by_cases q : m.count = Map.calcCapacity m.mapperSize
  · rw [if_pos q] at h1; exact grow_tidy h1 ht
  · rw [if_neg q] at h1; cases h1; exact ht

/-! ## A table with other references -/

def renTable (φ : Ref → Ref) (m : Map.MObj Ref Ref) : Map.MObj Ref Ref :=
  { m with
    keys := m.keys.map (Option.map φ)
    vals := m.vals.map (Option.map φ) }

theorem ren_slot {l : List (Option Ref)} {φ : Ref → Ref} {i : Nat} {k : Ref} (h : (l.map (Option.map φ))[i]? = some (some k)) :
    ∃ x, l[i]? = some (some x) ∧ k = φ x := by
  rw [List.getElem?_map] at h
  cases hl : l[i]? with
  | none => rw [hl] at h; cases h
  | some o =>
    rw [hl] at h
    cases o with
    | none => cases h
    | some x => cases h; exact ⟨x, rfl, rfl⟩

theorem ren_tidy (φ : Ref → Ref) {m : Map.MObj Ref Ref} (h : Tidy m) : Tidy (renTable φ m) where
  full i hi := by
    obtain ⟨k, v, h1, h2⟩ := h.full i hi
    refine ⟨φ k, φ v, ?_, ?_⟩
    · show (m.keys.map (Option.map φ))[i]? = _
      rw [List.getElem?_map, h1]; rfl
    · show (m.vals.map (Option.map φ))[i]? = _
      rw [List.getElem?_map, h2]; rfl
  freeK i k hk := by
    obtain ⟨x, h1, -⟩ := ren_slot hk
    exact h.freeK i x h1
  freeV i k hk := by
    obtain ⟨x, h1, -⟩ := ren_slot hk
    exact h.freeV i x h1

theorem ren_slots (φ : Ref → Ref) : ∀ (n : Nat) (k v : List (Option Ref)),
    (((k.map (Option.map φ)).zip (v.map (Option.map φ))).take n).filterMap slotPair =
      (((k.zip v).take n).filterMap slotPair).map fun e => (φ e.1, φ e.2)
  | 0, _, _ => rfl
  | n + 1, [], _ => by simp
  | n + 1, _ :: _, [] => by simp
  | n + 1, a :: k, b :: v => by
    rw [List.map_cons, List.map_cons, List.zip_cons_cons, List.zip_cons_cons, List.take_succ_cons, List.take_succ_cons,
      List.filterMap_cons, List.filterMap_cons, ren_slots φ n k v]
    cases a <;> cases b <;> rfl

theorem ren_entries (φ : Ref → Ref) (m : Map.MObj Ref Ref) :
    Map.entries (renTable φ m) = (Map.entries m).map fun e => (φ e.1, φ e.2) := by
  rw [entries_eq, entries_eq]
  exact ren_slots φ m.count m.keys m.vals

end Noja.VM.Move
