import Verif.VM.Tables
import Verif.VM.Book.Colls

/-!
# Maps that do not lose keys

While the tables hold what they should, the layer with the tables does what the layer does in which a
map is a list of entries; and the watched layer keeps the tables like that.
-/

set_option linter.unusedVariables false
set_option linter.unusedSimpArgs false
set_option linter.unusedSectionVars false

namespace Noja.VM

open Noja.Graph (Obj Kind Heap)

variable {α β : Type}

/-! ## Keys -/

/-- The key that an object is. -/
def keyAt (h : Heap) (r : Ref) : Option Obj :=
  match h[r]? with
  | some o => if isAtom o then some o else none
  | none => none

def aops (h : Heap) : Map.KeyOps Ref where
  hash r :=
    match keyAt h r with
    | some o =>
      match Graph.hashBody (fun _ => .ub) o with
      | .ok x => x
      | _ => 0
    | none => 0
  cmp a b := .ok (decide (keyAt h a = keyAt h b))

theorem aops_consistent (h : Heap) : Map.Consistent (aops h) (keyAt h) :=
  ⟨fun _ _ => rfl, fun a b q => by simp only [aops, q]⟩

theorem isKey_iff {h : Heap} {r : Ref} : isKey h r = true ↔ ∃ o, h[r]? = some o ∧ isAtom o = true := by
  unfold isKey
  cases h[r]? with
  | none => simp
  | some o => simp

theorem keyAt_key {h : Heap} {r : Ref} {o : Obj} (ho : h[r]? = some o) (ha : isAtom o = true) : keyAt h r = some o := by
  unfold keyAt
  rw [ho]
  exact if_pos ha

theorem atom_name {h : Heap} {r : Ref} {s : Str.Str} (hr : h[r]? = some (.str s)) (ha : isAtom (.str s) = true) :
    IsName h r (s.body.take s.bytes) := by
  simp only [isAtom, Bool.and_eq_true, decide_eq_true_eq, Bool.not_eq_true'] at ha
  refine ⟨s, _, _, hr, ha.1, rfl, ?_⟩
  have := ha.2
  intro hm
  rw [List.contains_iff_mem.2 hm] at this
  cases this

theorem atom_str_inj {s t : Str.Str} (hs : isAtom (.str s) = true) (ht : isAtom (.str t) = true)
    (h : s.body.take s.bytes = t.body.take t.bytes) (hb : s.bytes = t.bytes) : s = t := by
  simp only [isAtom, Bool.and_eq_true, decide_eq_true_eq] at hs ht
  have := hs.1
  rw [h, hb, ht.1] at this
  cases this
  rfl

theorem wf_atom {s : Str.Str} (hs : isAtom (.str s) = true) : s.body.length = s.bytes + 1 := by
  simp only [isAtom, Bool.and_eq_true, decide_eq_true_eq] at hs
  exact (Str.wf_fromString hs.1).1

theorem compare_keys {h : Heap} {a b : Ref} {x y : Obj} (ha : h[a]? = some x) (hb : h[b]? = some y)
    (hx : isAtom x = true) (hy : isAtom y = true) : Graph.compare h a b = .ok (decide (x = y)) := by
  cases x with
  | str s =>
    cases y with
    | str t =>
      rw [compare_names (atom_name ha hx) (atom_name hb hy)]
      congr 1
      refine decide_eq_decide.2 ⟨fun q => ?_, fun q => by cases q; rfl⟩
      have l1 := wf_atom hx
      have l2 := wf_atom hy
      have := congrArg List.length q
      simp only [List.length_take] at this
      rw [atom_str_inj hx hy q (by omega)]
    | _ => rw [Graph.compare_eq ha hb]; first | (cases hy; done) | rfl
  | none =>
    cases y <;> rw [Graph.compare_eq ha hb] <;> first | (cases hy; done) | rfl
  | bool u =>
    cases y <;> rw [Graph.compare_eq ha hb] <;> first | (cases hy; done) | rfl | skip
    all_goals first | rfl | (show Exec.ok _ = _; congr 1; simp)
  | int u =>
    cases y <;> rw [Graph.compare_eq ha hb] <;> first | (cases hy; done) | rfl | skip
    all_goals first | rfl | (show Exec.ok _ = _; congr 1; simp)
  | float u =>
    cases y with
    | float v =>
      rw [Graph.compare_eq ha hb]
      show Exec.ok (Graph.floatEq u v) = _
      congr 1
      simp only [isAtom, Bool.and_eq_true, Bool.not_eq_true'] at hx hy
      unfold Graph.floatEq
      rw [hx.1, hx.2, hy.1]
      by_cases q : u = v <;> simp [q]
    | _ => rw [Graph.compare_eq ha hb]; first | (cases hy; done) | rfl
  | _ => cases hx

theorem hash_key {h : Heap} {r : Ref} {o : Obj} (hr : h[r]? = some o) (ho : isAtom o = true) {fuel : Nat} (hf : 0 < fuel) :
    Graph.hash h fuel r = .ok ((aops h).hash r) := by
  have hx : ∃ x, Graph.hash h fuel r = .ok x := by
    obtain ⟨f, rfl⟩ : ∃ f, fuel = f + 1 := ⟨fuel - 1, by omega⟩
    cases o with
    | none => rw [Graph.hash_succ hr]; exact ⟨_, rfl⟩
    | bool b => rw [Graph.hash_succ hr]; exact ⟨_, rfl⟩
    | int v =>
      rw [Graph.hash_succ hr]
      have hl : ∀ n v, (IntKey.leBytes n v).length = n := by
        intro n
        induction n with
        | zero => intro v; rfl
        | succ n ih => intro v; simp [IntKey.leBytes, ih]
      exact Str.hashbytes_safe _ _ (by rw [hl]; exact Nat.le_refl 8) (by rw [hl]; decide)
    | float v =>
      rw [Graph.hash_succ hr]
      have hl : ∀ n v, (IntKey.leBytes n v).length = n := by
        intro n
        induction n with
        | zero => intro v; rfl
        | succ n ih => intro v; simp [IntKey.leBytes, ih]
      exact Str.hashbytes_safe _ _ (by rw [hl]; exact Nat.le_refl 8) (by rw [hl]; decide)
    | str s => exact hash_name (atom_name hr ho) (Nat.succ_pos f)
    | _ => cases ho
  obtain ⟨x, hx⟩ := hx
  rw [hx]
  obtain ⟨f, rfl⟩ : ∃ f, fuel = f + 1 := ⟨fuel - 1, by omega⟩
  rw [Graph.hash_succ hr] at hx
  unfold aops
  simp only [keyAt_key hr ho]
  have : Graph.hashBody (fun _ => .ub) o = .ok x := by
    rw [← hx]
    cases o <;> first | (cases ho; done) | rfl
  rw [this]

/-! ## Tables that hold what they should -/

def HoldsAt (h : Heap) (m : Map.MObj Ref Ref) (es : List (Nat × Nat)) : Prop :=
  (∃ e, Map.Holds (aops h) (keyAt h) m e es) ∧ ∀ p ∈ es, isKey h p.1 = true

def TH (x : TWorld) : Prop := ∀ (r : Ref) (es : List (Nat × Nat)), x.w.heap[r]? = some (.map es) → HoldsAt x.w.heap (x.t r) es

/-- Maps and keys stay what they are. -/
structure Keep (w w' : World) : Prop where
  maps : ∀ (r : Ref) (es : List (Nat × Nat)), w'.heap[r]? = some (.map es) → w.heap[r]? = some (.map es)
  keys : ∀ (r : Ref) (o : Obj), w.heap[r]? = some o → isAtom o = true → w'.heap[r]? = some o

theorem HoldsAt.keys {h h' : Heap} {m : Map.MObj Ref Ref} {es : List (Nat × Nat)} (hh : HoldsAt h m es)
    (hk : ∀ (r : Ref) (o : Obj), h[r]? = some o → isAtom o = true → h'[r]? = some o) : HoldsAt h' m es := by
  obtain ⟨⟨e, hh⟩, ha⟩ := hh
  have hkey : ∀ p ∈ es, keyAt h' p.1 = keyAt h p.1 := by
    intro p hp
    obtain ⟨o, h1, h2⟩ := isKey_iff.1 (ha p hp)
    rw [keyAt_key h1 h2, keyAt_key (hk _ _ h1 h2) h2]
  refine ⟨⟨e, hh.congr (fun p hp => ?_) fun p hp q hq => ?_⟩, fun p hp => ?_⟩
  · simp only [aops, hkey p hp]
  · rw [hkey p hp, hkey q hq]; exact id
  · obtain ⟨o, h1, h2⟩ := isKey_iff.1 (ha p hp)
    exact isKey_iff.2 ⟨o, hk _ _ h1 h2, h2⟩

theorem TH.keep {w w' : World} {t : Ref → Map.MObj Ref Ref} (h : TH ⟨w, t⟩) (k : Keep w w') : TH ⟨w', t⟩ :=
  fun r es hr => (h r es (k.maps r es hr)).keys k.keys

theorem Keep.refl (w : World) : Keep w w := ⟨fun _ _ h => h, fun _ _ h _ => h⟩

theorem Keep.trans {a b c : World} (h : Keep a b) (h' : Keep b c) : Keep a c :=
  ⟨fun r es q => h.maps r es (h'.maps r es q), fun r o q ho => h'.keys r o (h.keys r o q ho) ho⟩

theorem Keep.same {w w' : World} (h : w'.dyn = w.dyn) : Keep w w' := by
  have : w'.heap = w.heap := by unfold World.heap; rw [h]
  exact ⟨fun r es q => by rw [← this]; exact q, fun r o q _ => by rw [this]; exact q⟩

theorem Keep.alloc (w : World) {o : Obj} (ho : o.kind ≠ .map) : Keep w (w.alloc o).1 where
  maps r es h := by
    have h : (w.heap ++ [o])[r]? = some (.map es) := by
      have : (w.alloc o).1.heap = w.heap ++ [o] := by simp [World.heap, World.alloc]
      rw [← this]; exact h
    rw [List.getElem?_append] at h
    split at h
    · exact h
    · rename_i hl
      have : [o][r - w.heap.length]? = some (.map es) := h
      cases hq : r - w.heap.length with
      | zero => rw [hq] at this; cases this; exact absurd rfl ho
      | succ n => rw [hq] at this; cases this
  keys r o' h _ := by
    have : (w.alloc o).1.heap = w.heap ++ [o] := by simp [World.heap, World.alloc]
    rw [this, List.getElem?_append_left (List.getElem?_eq_some_iff.1 h).1]
    exact h

/-- An object that is no key is replaced by one that is no map. -/
theorem Keep.set (w : World) {r : Ref} {o o' : Obj} (hr : w.heap[r]? = some o) (ho : isAtom o = false) (hs : statics.length ≤ r)
    (ho' : o'.kind ≠ .map) : Keep w (w.withHeap (w.heap.set r o')) := by
  have hl := (List.getElem?_eq_some_iff.1 hr).1
  have e : (w.withHeap (w.heap.set r o')).heap = w.heap.set r o' := heap_set hs
  constructor
  · intro x es h
    rw [e] at h
    by_cases q : r = x
    · subst q
      rw [List.getElem?_set_self hl] at h
      cases h
      exact absurd rfl ho'
    · rwa [List.getElem?_set_ne q] at h
  · intro x y h hy
    rw [e]
    by_cases q : r = x
    · subst q
      rw [hr] at h
      cases h
      rw [ho] at hy
      cases hy
    · rwa [List.getElem?_set_ne q]

/-- `Keep` for the outcome of an operation. -/
def Kept (w : World) : Out World α → Prop
  | .ok w' _ => Keep w w'
  | .err w' => Keep w w'
  | .ub => True

theorem Kept.bind {w : World} {o : Out World α} {f : α → World → Out World β} (h : Kept w o)
    (hf : ∀ a w', o = .ok w' a → Kept w' (f a w')) : Kept w (o.bind f) := by
  cases o with
  | ok w' a =>
    have := hf a w' rfl
    show Kept w (f a w')
    cases hq : f a w' with
    | ok u b => rw [hq] at this; exact Keep.trans h this
    | err u => rw [hq] at this; exact Keep.trans h this
    | ub => trivial
  | err w' => exact h
  | ub => trivial

theorem Kept.ok (w : World) (a : α) : Kept w (.ok w a) := Keep.refl w

theorem Kept.outOf (w : World) (x : Exec α) : Kept w (outOf w x) := by
  cases x <;> first | exact Keep.refl w | trivial

theorem Kept.mk (w : World) {o : Obj} (ho : o.kind ≠ .map) : Kept w (mk w o) := Keep.alloc w ho

/-! ## The relation -/

def Rt (x : TWorld) (w : World) : Prop := x.w = w ∧ TH x

theorem up_ref {f : World → Out World α} {x : TWorld} {w : World} (hr : Rt x w) (hk : Kept w (f w)) :
    Refine.ORef Rt (up f x) (f w) := by
  obtain ⟨rfl, ht⟩ := hr
  unfold up
  cases hf : f x.w with
  | ok w a => rw [hf] at hk; exact ⟨w, rfl, rfl, TH.keep ht hk⟩
  | err w => rw [hf] at hk; exact ⟨w, rfl, rfl, TH.keep ht hk⟩
  | ub => trivial

theorem bind_ref {x : Out TWorld α} {y : Out World α} {f : α → TWorld → Out TWorld β} {g : α → World → Out World β}
    (h : Refine.ORef Rt x y) (hf : ∀ a x w, Rt x w → Refine.ORef Rt (f a x) (g a w)) :
    Refine.ORef Rt (x.bind f) (y.bind g) := by
  cases x with
  | ok u a =>
    obtain ⟨w, rfl, hr⟩ := h
    exact hf a u w hr
  | err u =>
    obtain ⟨w, rfl, hr⟩ := h
    exact ⟨w, rfl, hr⟩
  | ub => trivial

/-! ## Searching and inserting -/

theorem kops_hash {C : Config} (hC : 0 < C.fuel) {h : Heap} {e : Bool} {r : Ref} (hr : isKey h r = true) :
    (kops C h e).hash r = (aops h).hash r := by
  obtain ⟨o, h1, h2⟩ := isKey_iff.1 hr
  unfold kops
  simp only [hash_key h1 h2 hC]

theorem kops_cmp {C : Config} {h : Heap} {a b : Ref} (ha : isKey h a = true) (hb : isKey h b = true) :
    (kops C h false).cmp a b = (aops h).cmp a b := by
  obtain ⟨x, h1, h2⟩ := isKey_iff.1 ha
  obtain ⟨y, h3, h4⟩ := isKey_iff.1 hb
  unfold kops aops
  simp only [compare_keys h1 h3 h2 h4, keyAt_key h1 h2, keyAt_key h3 h4]
  by_cases q : x = y <;> simp [q]

theorem lookup_spec {hit : Nat → Nat → Bool} (hit1 : ∀ k k', hit k k' = true) {h : Heap} {key : Ref} (hk : isKey h key = true) :
    ∀ (es : List (Nat × Nat)), (∀ p ∈ es, isKey h p.1 = true) →
      Graph.lookup hit h key es false = .ok (Map.Spec.lookup (keyAt h) es key, false)
  | [], _ => rfl
  | (k, v) :: es, ha => by
    obtain ⟨x, h1, h2⟩ := isKey_iff.1 hk
    obtain ⟨y, h3, h4⟩ := isKey_iff.1 (ha (k, v) (List.mem_cons_self ..))
    have ih := lookup_spec hit1 hk es fun p hp => ha p (List.mem_cons_of_mem _ hp)
    unfold Graph.lookup Map.Spec.lookup
    rw [if_pos (hit1 _ _), compare_keys h1 h3 h2 h4, keyAt_key h1 h2, keyAt_key h3 h4]
    by_cases q : x = y
    · simp [q]
    · simp only [q, decide_false, Option.some.injEq, if_false]
      exact ih

/-- A search in a table that holds these entries. -/
theorem lookT_ref {C : Config} (hC : 0 < C.fuel) (hit1 : ∀ k k', C.hit k k' = true) {x : TWorld} {col key : Ref}
    {es : List (Nat × Nat)} (hh : HoldsAt x.w.heap (x.t col) es) (e : Bool) :
    lookT C true x col key e = .ub ∨ lookT C true x col key e = Graph.lookup C.hit x.w.heap key es e := by
  unfold lookT
  by_cases hg : (true && (e || !isKey x.w.heap key)) = true
  · exact .inl (if_pos hg)
  · right
    rw [if_neg hg]
    simp only [Bool.true_and, Bool.or_eq_true, Bool.not_eq_true', not_or, Bool.not_eq_true, Bool.not_eq_false] at hg
    obtain ⟨rfl, hk⟩ := hg
    obtain ⟨⟨e, hh⟩, ha⟩ := hh
    rw [Map.select_congr hh (kops_hash hC hk) (fun p hp => kops_cmp hk (ha p hp)),
      hh.select (aops_consistent _) key _ (by unfold tfuel; rw [hh.w.size]; omega), lookup_spec hit1 hk es ha]

theorem findKey_spec {hit : Nat → Nat → Bool} (hit1 : ∀ k k', hit k k' = true) {h : Heap} {key : Ref} (hk : isKey h key = true) (val : Ref) :
    ∀ (es : List (Nat × Nat)) (i : Nat), (∀ p ∈ es, isKey h p.1 = true) →
      (Graph.findKey hit h key es i = .ok none ∧ Map.Spec.insert (keyAt h) es key val = es ++ [(key, val)]) ∨
      ∃ j k v, Graph.findKey hit h key es i = .ok (some (i + j)) ∧ es[j]? = some (k, v) ∧
        Map.Spec.insert (keyAt h) es key val = es.set j (k, val)
  | [], _, _ => .inl ⟨rfl, rfl⟩
  | (k, v) :: es, i, ha => by
    obtain ⟨x, h1, h2⟩ := isKey_iff.1 hk
    obtain ⟨y, h3, h4⟩ := isKey_iff.1 (ha (k, v) (List.mem_cons_self ..))
    have ih := findKey_spec hit1 hk val es (i + 1) fun p hp => ha p (List.mem_cons_of_mem _ hp)
    unfold Graph.findKey Map.Spec.insert
    rw [if_pos (hit1 _ _), compare_keys h1 h3 h2 h4, keyAt_key h1 h2, keyAt_key h3 h4, Exec.bind_ok]
    by_cases q : x = y
    · right
      refine ⟨0, k, v, ?_, rfl, ?_⟩
      · simp [q]
      · simp [q]
    · simp only [q, decide_false, Option.some.injEq, if_false]
      rcases ih with ⟨a, b⟩ | ⟨j, k', v', a, b, c⟩
      · exact .inl ⟨a, by rw [b]; rfl⟩
      · refine .inr ⟨j + 1, k', v', ?_, b, by rw [c]; rfl⟩
        show Graph.findKey hit h key es (i + 1) = _
        rw [a, Nat.add_assoc, Nat.add_comm 1 j]

theorem copy_key {hit : Nat → Nat → Bool} {h : Heap} {r : Ref} {o : Obj} (hr : h[r]? = some o) (ho : isAtom o = true)
    {fuel : Nat} (hf : 0 < fuel) : Graph.copy hit fuel h r = .ok (h, r) := by
  obtain ⟨f, rfl⟩ : ∃ f, fuel = f + 1 := ⟨fuel - 1, by omega⟩
  rw [Graph.copy_succ _ hr]
  cases o <;> first | (cases ho; done) | rfl

theorem mapInsert_spec {C : Config} (hC : 0 < C.fuel) (hit1 : ∀ k k', C.hit k k' = true) {h : Heap} {col key val : Ref}
    {es : List (Nat × Nat)} (hc : h[col]? = some (.map es)) (ha : ∀ p ∈ es, isKey h p.1 = true) (hk : isKey h key = true) :
    Graph.mapInsert C.hit (fun h => Graph.hash h C.fuel) (Graph.copy C.hit C.fuel) h col key val =
      .ok (h.set col (.map (Map.Spec.insert (keyAt h) es key val))) := by
  obtain ⟨x, h1, h2⟩ := isKey_iff.1 hk
  unfold Graph.mapInsert
  rw [rd_ok_iff.mpr hc, Exec.bind_ok]
  dsimp only
  rw [hash_key h1 h2 hC, Exec.bind_ok]
  rcases findKey_spec hit1 hk val es 0 ha with ⟨a, b⟩ | ⟨j, k, v, a, b, c⟩
  · rw [a, Exec.bind_ok, b]
    dsimp only
    rw [copy_key h1 h2 hC, Exec.bind_ok]
  · rw [a, Exec.bind_ok, c]
    dsimp only
    rw [Nat.zero_add, b]

/-- An insertion in a table that holds these entries. -/
theorem insert_ref {C : Config} (hC : 0 < C.fuel) {h : Heap} {m : Map.MObj Ref Ref} {key val : Ref}
    {es : List (Nat × Nat)} (hh : HoldsAt h m es) (hk : isKey h key = true) (hg : growOk C h m = true) :
    ∃ m', Map.insert (kops C h false) (tfuel m) m key val = .ok m' ∧
      HoldsAt h m' (Map.Spec.insert (keyAt h) es key val) := by
  obtain ⟨⟨e, hh⟩, ha⟩ := hh
  have hha : ∀ p ∈ es, (kops C h false).hash p.1 = (aops h).hash p.1 := fun p hp => kops_hash hC (ha p hp)
  have hca : ∀ p ∈ es, (kops C h false).cmp key p.1 = (aops h).cmp key p.1 := fun p hp => kops_cmp hk (ha p hp)
  have hkeys : ∀ p ∈ Map.Spec.insert (keyAt h) es key val, isKey h p.1 = true := by
    intro p hp
    rcases (Map.spec_insert_keys (keyAt h) es key val).1 p hp with q | ⟨y, hy, q⟩
    · rw [q]; exact hk
    · rw [← q]; exact ha y hy
  have hf : 2 ^ (e + 1) + 7 ≤ tfuel m := by unfold tfuel; rw [hh.w.size, Nat.pow_succ]; omega
  have hle : 2 ^ e ≤ 2 ^ (e + 1) := Nat.pow_le_pow_right (by omega) (by omega)
  unfold Map.insert
  unfold growOk at hg
  by_cases hc : m.count = Map.calcCapacity m.mapperSize
  · rw [if_pos hc] at hg ⊢
    cases hm : Map.grow (kops C h false) (tfuel m) m with
    | ok m1 =>
      rw [hm] at hg
      have hm' := hm
      rw [Map.grow_congr hh hha] at hm'
      have h1 := hh.grown hm' hha hg
      obtain ⟨-, -, hlt⟩ := hh.w.grow _ _ hm'
      obtain ⟨m2, h2, h3⟩ := h1.insertLoop (aops_consistent h) hlt key val (tfuel m) hf
      refine ⟨m2, ?_, ⟨_, h3⟩, hkeys⟩
      rw [Exec.bind_ok, Map.insertLoop_congr h1 hca, kops_hash hC hk]
      exact h2
    | _ => rw [hm] at hg; cases hg
  · have hlt : m.count < Map.calcCapacity m.mapperSize := by have := hh.w.cle; omega
    obtain ⟨m2, h2, h3⟩ := hh.insertLoop (aops_consistent h) hlt key val (tfuel m) (by omega)
    refine ⟨m2, ?_, ⟨_, h3⟩, hkeys⟩
    rw [if_neg hc, Exec.bind_ok, Map.insertLoop_congr hh hca, kops_hash hC hk]
    exact h2

end Noja.VM
