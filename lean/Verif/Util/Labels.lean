import Verif.Str.Lemmas2
import Verif.ListAux

/-!
# `src/lib/utils/labellist.c` and property C09

A label's promise is represented by its number in creation order and whether it
has been resolved.  Memory exhaustion is not modelled.  Label names come from
the assembler's identifiers and contain no NUL byte.
-/

namespace Noja.Labels

/-! ## Model -/

/-- labellist.c:4-10 `struct LabelInfo`. -/
structure Info where
  name : List UInt8
  promise : Nat
  value : Option Int

/-- labellist.c:12-15 `struct LabelList`; `fresh` numbers the promises. -/
structure LL where
  infos : List Info
  fresh : Nat

/-- labellist.c:17-25 `LabelList_New`. -/
def new : LL := ⟨[], 0⟩

/-- labellist.c:56-57, the name test (reads `name_len` bytes of both names). -/
def sameName (a b : List UInt8) : Exec Bool :=
  if a.length = b.length then Str.strncmpEq a b a.length 0 else .ok false

/-- labellist.c:52-62, the search loop. -/
def find (name : List UInt8) : List Info → Exec (Option Nat)
  | [] => .ok none
  | i :: is => do
    let e ← sameName name i.name
    if e then .ok (some i.promise) else find name is

/-- labellist.c:46-86 `LabelList_GetLabel`. -/
def getLabel (l : LL) (name : List UInt8) : Exec (LL × Nat) := do
  let r ← find name l.infos
  match r with
  | some p => .ok (l, p)
  | none => .ok (⟨⟨name, l.fresh, none⟩ :: l.infos, l.fresh + 1⟩, l.fresh)

/-- labellist.c:37-44 `LabelList_SetLabel`. -/
def setLabel (l : LL) (name : List UInt8) (v : Int) : Exec (LL × Nat) := do
  let (l, p) ← getLabel l name
  .ok ({ l with infos := l.infos.map fun i => if i.promise = p then { i with value := some v } else i }, p)

/-- labellist.c:88-99 `LabelList_GetUnresolvedCount`. -/
def unresolved (l : LL) : Nat := (l.infos.filter fun i => i.value.isNone).length

/-! ## Specification -/

/-- A use of a label: a reference, or its definition. -/
inductive Op
  | use (name : List UInt8)
  | define (name : List UInt8) (v : Int)

/-- The label named by an operation. -/
def Op.name : Op → List UInt8
  | .use n => n
  | .define n _ => n

/-- The history defines this name. -/
def Defined (ops : List Op) (n : List UInt8) : Prop := ∃ v, Op.define n v ∈ ops

/-- One operation; returns the promise of the label. -/
def step (l : LL) : Op → Exec (LL × Nat)
  | .use n => getLabel l n
  | .define n v => setLabel l n v

/-- A history of operations; returns the promises in order. -/
def run : LL → List Op → Exec (LL × List Nat)
  | l, [] => .ok (l, [])
  | l, o :: os => do
    let (l, p) ← step l o
    let (l, ps) ← run l os
    .ok (l, p :: ps)

/-! ## Proof -/

/-- A name without NUL bytes. -/
def Name (n : List UInt8) : Prop := (0 : UInt8) ∉ n

theorem sameName_spec {a b : List UInt8} (ha : Name a) (hb : Name b) :
    sameName a b = .ok (decide (a = b)) := by
  unfold sameName
  by_cases e : a.length = b.length
  · rw [if_pos e]
    obtain ⟨r, hr, hs⟩ := Str.strncmpEq_spec a b a.length 0 (by omega) (by omega)
    rw [hr]
    congr 1
    rw [Bool.eq_iff_iff, hs, decide_eq_true_eq]
    simp only [List.drop_zero]
    rw [List.take_length, e, List.take_length, Str.takeWhile_eq_self_of_noNul a ha,
      Str.takeWhile_eq_self_of_noNul b hb]
  · rw [if_neg e]
    have : a ≠ b := by rintro rfl; exact e rfl
    simp [this]

/-- Invariant: `names`/`defd` are the names mentioned/defined so far. -/
structure Inv (l : LL) (ops : List Op) : Prop where
  nodup : (l.infos.map Info.name).Nodup
  ids : (l.infos.map Info.promise).Nodup
  bound : ∀ i ∈ l.infos, i.promise < l.fresh
  noNul : ∀ i ∈ l.infos, Name i.name
  mentioned : ∀ n, n ∈ l.infos.map Info.name ↔ n ∈ ops.map Op.name
  resolved : ∀ i ∈ l.infos, i.value.isSome ↔ Defined ops i.name

theorem find_spec (name : List UInt8) (hn : Name name) : ∀ (is : List Info),
    (∀ i ∈ is, Name i.name) →
    (∃ i ∈ is, i.name = name ∧ find name is = .ok (some i.promise)) ∨
    (name ∉ is.map Info.name ∧ find name is = .ok none) := by
  intro is
  induction is with
  | nil => intro _; right; simp [find]
  | cons i is ih =>
    intro h
    unfold find
    rw [sameName_spec hn (h i (by simp))]
    by_cases e : name = i.name
    · left; exact ⟨i, by simp, e.symm, by simp [e]⟩
    · rcases ih (fun j hj => h j (by simp [hj])) with ⟨j, hj, hj2, hj3⟩ | ⟨h1, h2⟩
      · left; exact ⟨j, by simp [hj], hj2, by simp [e, hj3]⟩
      · right; exact ⟨by simp at h1 ⊢; exact ⟨e, h1⟩, by simp [e, h2]⟩

/-- The promise a name has in a list. -/
def Has (l : LL) (n : List UInt8) (p : Nat) : Prop := ∃ i ∈ l.infos, i.name = n ∧ i.promise = p

theorem getLabel_spec (l : LL) (ops : List Op) (h : Inv l ops) (n : List UInt8) (hn : Name n) :
    ∃ l' p, getLabel l n = .ok (l', p) ∧ Inv l' (ops ++ [.use n]) ∧ Has l' n p ∧
      ∀ m q, Has l m q → Has l' m q := by
  have hd : ∀ m, Defined (ops ++ [.use n]) m ↔ Defined ops m := by
    intro m; simp [Defined]
  rcases find_spec n hn l.infos h.noNul with ⟨i, hi, e, hf⟩ | ⟨hne, hf⟩
  · refine ⟨l, i.promise, by simp [getLabel, hf], ?_, ⟨i, hi, e, rfl⟩, fun _ _ h => h⟩
    refine ⟨h.nodup, h.ids, h.bound, h.noNul, ?_, ?_⟩
    · intro m
      rw [h.mentioned m]
      simp only [List.map_append, List.mem_append, List.map_cons, List.map_nil, List.mem_singleton]
      constructor
      · exact .inl
      · rintro (h' | h')
        · exact h'
        · rw [h']
          show (Op.use n).name ∈ _
          rw [show (Op.use n).name = n from rfl, ← h.mentioned, ← e]
          exact List.mem_map.mpr ⟨i, hi, rfl⟩
    · intro j hj; rw [hd]; exact h.resolved j hj
  · refine ⟨⟨⟨n, l.fresh, none⟩ :: l.infos, l.fresh + 1⟩, l.fresh, by simp [getLabel, hf], ?_,
      ⟨⟨n, l.fresh, none⟩, by simp, rfl, rfl⟩, ?_⟩
    · refine ⟨?_, ?_, ?_, ?_, ?_, ?_⟩
      · simp only [List.map_cons, List.nodup_cons]; exact ⟨hne, h.nodup⟩
      · simp only [List.map_cons, List.nodup_cons]
        refine ⟨?_, h.ids⟩
        intro hm
        obtain ⟨j, hj, e⟩ := List.mem_map.mp hm
        have := h.bound j hj; omega
      · intro j hj
        rcases List.mem_cons.mp hj with rfl | hj
        · exact Nat.lt_succ_self _
        · have := h.bound j hj; show _ < l.fresh + 1; omega
      · intro j hj
        rcases List.mem_cons.mp hj with rfl | hj
        · exact hn
        · exact h.noNul j hj
      · intro m
        have := h.mentioned m
        simp only [List.map_cons, List.mem_cons, List.map_append, List.mem_append, List.map_nil,
          this, Op.name, List.not_mem_nil, or_false]
        exact or_comm
      · intro j hj
        rw [hd]
        rcases List.mem_cons.mp hj with rfl | hj
        · constructor
          · intro h; cases h
          · rintro ⟨v, hv⟩
            exact absurd ((h.mentioned n).mpr (List.mem_map.mpr ⟨_, hv, rfl⟩)) hne
        · exact h.resolved j hj
    · rintro m q ⟨j, hj, e⟩
      exact ⟨j, List.mem_cons_of_mem _ hj, e⟩

theorem inv_same_id {l : LL} {ops : List Op} (h : Inv l ops) {i j : Info} (hi : i ∈ l.infos)
    (hj : j ∈ l.infos) : i.promise = j.promise ↔ i.name = j.name := by
  constructor
  · intro e
    have := nodup_map_inj h.ids hi hj e
    rw [this]
  · intro e
    have := nodup_map_inj h.nodup hi hj e
    rw [this]

theorem step_spec (l : LL) (ops : List Op) (h : Inv l ops) (o : Op) (hn : Name o.name) :
    ∃ l' p, step l o = .ok (l', p) ∧ Inv l' (ops ++ [o]) ∧ Has l' o.name p ∧
      ∀ m q, Has l m q → Has l' m q := by
  cases o with
  | use n => exact getLabel_spec l ops h n hn
  | define n v =>
    obtain ⟨l1, p, e, hi, hp, hk⟩ := getLabel_spec l ops h n hn
    let g : Info → Info := fun i => if i.promise = p then { i with value := some v } else i
    have gn : ∀ i, (g i).name = i.name := by intro i; simp only [g]; split <;> rfl
    have gp : ∀ i, (g i).promise = i.promise := by intro i; simp only [g]; split <;> rfl
    have mn : (l1.infos.map g).map Info.name = l1.infos.map Info.name := by
      simp [List.map_map, Function.comp_def, gn]
    have mp : (l1.infos.map g).map Info.promise = l1.infos.map Info.promise := by
      simp [List.map_map, Function.comp_def, gp]
    obtain ⟨i0, hi0, en0, ep0⟩ := hp
    refine ⟨{ l1 with infos := l1.infos.map g }, p, by simp [step, setLabel, e, g], ?_, ?_, ?_⟩
    · refine ⟨by rw [mn]; exact hi.nodup, by rw [mp]; exact hi.ids, ?_, ?_, ?_, ?_⟩
      · intro j hj
        obtain ⟨i, hi', rfl⟩ := List.mem_map.mp hj
        rw [gp]; exact hi.bound i hi'
      · intro j hj
        obtain ⟨i, hi', rfl⟩ := List.mem_map.mp hj
        rw [gn]; exact hi.noNul i hi'
      · intro m; rw [mn, hi.mentioned m]
        simp [Op.name]
      · intro j hj
        obtain ⟨i, hi', rfl⟩ := List.mem_map.mp hj
        rw [gn]
        have hr := hi.resolved i hi'
        by_cases e1 : i.promise = p
        · have : i.name = n := by
            rw [← en0]; exact (inv_same_id hi hi' hi0).mp (by rw [e1, ep0])
          simp only [g, if_pos e1]
          constructor
          · intro _; exact ⟨v, by simp [this]⟩
          · intro _; rfl
        · have : i.name ≠ n := by
            intro h2; apply e1; rw [← ep0]
            exact (inv_same_id hi hi' hi0).mpr (by rw [h2, en0])
          simp only [g, if_neg e1]
          rw [hr]
          simp [Defined, this]
    · exact ⟨g i0, List.mem_map.mpr ⟨i0, hi0, rfl⟩, by rw [gn, en0]; rfl, by rw [gp, ep0]⟩
    · intro m q hm
      obtain ⟨j, hj, e1, e2⟩ := hk m q hm
      exact ⟨g j, List.mem_map.mpr ⟨j, hj, rfl⟩, by rw [gn, e1], by rw [gp, e2]⟩

theorem run_spec (ops : List Op) : ∀ (l : LL) (done : List Op), Inv l done →
    (∀ o ∈ ops, Name o.name) →
    ∃ l' ps, run l ops = .ok (l', ps) ∧ ps.length = ops.length ∧ Inv l' (done ++ ops) ∧
      (∀ m q, Has l m q → Has l' m q) ∧
      ∀ (k : Nat) (o : Op) (p : Nat), ops[k]? = some o → ps[k]? = some p → Has l' o.name p := by
  induction ops with
  | nil => intro l done h _; exact ⟨l, [], rfl, rfl, by simpa using h, fun _ _ h => h, by simp⟩
  | cons o os ih =>
    intro l done h hn
    obtain ⟨l1, p, e1, i1, p1, k1⟩ := step_spec l done h o (hn o (by simp))
    obtain ⟨l2, ps, e2, n2, i2, k2, q2⟩ := ih l1 (done ++ [o]) i1 (fun x hx => hn x (by simp [hx]))
    refine ⟨l2, p :: ps, by simp [run, e1, e2], by simp [n2], by simpa using i2,
      fun m q hm => k2 m q (k1 m q hm), ?_⟩
    intro k x y hx hy
    cases k with
    | zero => simp at hx hy; subst hx hy; exact k2 _ _ p1
    | succ k => simp at hx hy; exact q2 k x y hx hy

/-- **C09**: in any history of label uses and definitions, two operations get the same promise
exactly when they name the same label, and the unresolved count is the number of distinct
names mentioned but never defined. -/
theorem C09_labels (ops : List Op) (hn : ∀ o ∈ ops, Name o.name) :
    ∃ l ps, run new ops = .ok (l, ps) ∧ ps.length = ops.length ∧
      (∀ (i j : Nat) (oi oj : Op) (pi pj : Nat), ops[i]? = some oi → ops[j]? = some oj →
        ps[i]? = some pi → ps[j]? = some pj → (pi = pj ↔ oi.name = oj.name)) ∧
      ∃ missing : List (List UInt8), missing.Nodup ∧
        (∀ n, n ∈ missing ↔ n ∈ ops.map Op.name ∧ ¬ Defined ops n) ∧
        unresolved l = missing.length := by
  obtain ⟨l, ps, e, hl, hi, -, hp⟩ := run_spec ops new []
    ⟨by simp [new], by simp [new], by simp [new], by simp [new], by simp [new], by simp [new]⟩ hn
  simp only [List.nil_append] at hi
  refine ⟨l, ps, e, hl, ?_, (l.infos.filter fun i => i.value.isNone).map Info.name, ?_, ?_, ?_⟩
  · intro i j oi oj pi pj h1 h2 h3 h4
    obtain ⟨a, ha, ha1, ha2⟩ := hp i oi pi h1 h3
    obtain ⟨b, hb, hb1, hb2⟩ := hp j oj pj h2 h4
    rw [← ha1, ← hb1, ← ha2, ← hb2]
    exact inv_same_id hi ha hb
  · exact List.Nodup.sublist (List.Sublist.map _ List.filter_sublist) hi.nodup
  · intro n
    simp only [List.mem_map, List.mem_filter]
    constructor
    · rintro ⟨a, ⟨ha, hv⟩, rfl⟩
      refine ⟨?_, ?_⟩
      · have := (hi.mentioned a.name).mp (List.mem_map.mpr ⟨a, ha, rfl⟩)
        simpa using this
      · rw [← hi.resolved a ha]
        cases h : a.value <;> simp [h] at hv ⊢
    · rintro ⟨⟨o, ho, rfl⟩, hd⟩
      have := (hi.mentioned o.name).mpr (List.mem_map.mpr ⟨o, ho, rfl⟩)
      obtain ⟨a, ha, e⟩ := List.mem_map.mp this
      refine ⟨a, ⟨ha, ?_⟩, e⟩
      rw [← e, ← hi.resolved a ha] at hd
      cases h : a.value <;> simp [h] at hd ⊢
  · simp [unresolved]

example : (∀ o ∈ [Op.use [97], .define [98] 3, .use [97, 98], .use [98]], Name o.name) ∧
    (∃ l, run new [.use [97], .define [98] 3, .use [97, 98], .use [98]] = .ok (l, [0, 1, 2, 1]) ∧
      unresolved l = 2) := by
  refine ⟨by simp [Op.name, Name], _, rfl, rfl⟩

end Noja.Labels
