import Verif.Gc.Model

/-! # C26, C28: what a collection does -/

set_option linter.unusedVariables false
set_option linter.unusedSimpArgs false

namespace Noja.Gc

/-! ## References during a collection -/

/-- Following the forwarding pointers there are. -/
def mv (f : Nat → Option Nat) : Option Ref → Option Ref
  | some (.old a) =>
    match f a with
    | some b => some (.new b)
    | none => some (.old a)
  | r => r

/-- The object has been moved, if it is one of the heap. -/
def Def (f : Nat → Option Nat) : Option Ref → Prop
  | some (.old a) => (f a).isSome = true
  | _ => True

/-- More objects have been moved. -/
def Le (f f' : Nat → Option Nat) : Prop := ∀ a b, f a = some b → f' a = some b

theorem Le.refl (f : Nat → Option Nat) : Le f f := fun _ _ h => h
theorem Le.trans {f g k : Nat → Option Nat} (h1 : Le f g) (h2 : Le g k) : Le f k := fun a b h => h2 a b (h1 a b h)

theorem Def.mono {f f' : Nat → Option Nat} (h : Le f f') {r : Option Ref} (hd : Def f r) : Def f' r := by
  match r, hd with
  | none, _ => trivial
  | some (.static _), _ => trivial
  | some (.new _), _ => trivial
  | some (.old a), hd =>
    have hd : (f a).isSome = true := hd
    obtain ⟨b, hb⟩ := Option.isSome_iff_exists.1 hd
    show (f' a).isSome = true
    rw [h a b hb]; rfl

theorem mv_mono {f f' : Nat → Option Nat} (h : Le f f') {r : Option Ref} (hd : Def f r) : mv f' r = mv f r := by
  match r, hd with
  | none, _ => rfl
  | some (.static _), _ => rfl
  | some (.new _), _ => rfl
  | some (.old a), hd =>
    have hd : (f a).isSome = true := hd
    obtain ⟨b, hb⟩ := Option.isSome_iff_exists.1 hd
    simp only [mv, hb, h a b hb]

theorem map_mv_mono {f f' : Nat → Option Nat} (h : Le f f') {l : List (Option Ref)} (hd : ∀ r ∈ l, Def f r) :
    l.map (mv f') = l.map (mv f) :=
  List.map_congr_left fun r hr => mv_mono h (hd r hr)

/-! ## Byte counts -/

/-- The bytes of the object and its extensions in the new space, at most. -/
def cost (o : Obj) : Nat := align o.size + (o.exts.map align).sum

def costOf (h : Old) (a : Nat) : Nat :=
  match h[a]? with
  | some (o, _) => cost o
  | none => 0

def movedList (h : Old) (f : Nat → Option Nat) : List Nat := (List.range h.length).filter fun a => (f a).isSome

/-- The bytes of all objects moved so far. -/
def weight (h : Old) (f : Nat → Option Nat) : Nat := ((movedList h f).map (costOf h)).sum

def unmoved (h : Old) (f : Nat → Option Nat) : Nat := ((List.range h.length).filter fun a => (f a).isNone).length

theorem align_ge (u : Nat) : u ≤ align u := by unfold align; split <;> omega
theorem align_mod (u : Nat) : align u % 8 = 0 := by unfold align; split <;> omega
theorem align_align (u : Nat) : align (align u) = align u := by
  have := align_mod u
  generalize align u = v at *
  unfold align; split <;> omega
theorem align_add (u n : Nat) : align (align u + n) = align u + align n := by
  have := align_mod u
  generalize align u = v at *
  unfold align
  split <;> split <;> omega

def upd (f : Nat → Option Nat) (a b : Nat) : Nat → Option Nat := fun x => if x = a then some b else f x

theorem filter_length_le {p q : Nat → Bool} (h : ∀ x, q x = true → p x = true) :
    ∀ l : List Nat, (l.filter q).length ≤ (l.filter p).length
  | [] => Nat.le_refl _
  | x :: l => by
    have ih := filter_length_le h l
    by_cases hq : q x = true
    · rw [List.filter_cons_of_pos hq, List.filter_cons_of_pos (h x hq)]
      simpa using ih
    · rw [List.filter_cons_of_neg hq]
      by_cases hp : p x = true
      · rw [List.filter_cons_of_pos hp]; simp; omega
      · rw [List.filter_cons_of_neg hp]; exact ih

theorem filter_length_lt {p q : Nat → Bool} (h : ∀ x, q x = true → p x = true) {a : Nat} (hp : p a = true) (hq : q a = false) :
    ∀ l : List Nat, a ∈ l → (l.filter q).length < (l.filter p).length
  | x :: l, hm => by
    by_cases hx : x = a
    · subst hx
      rw [List.filter_cons_of_pos hp, List.filter_cons_of_neg (by simp [hq])]
      have := filter_length_le h l
      simp; omega
    · have hm : a ∈ l := by
        rcases List.mem_cons.1 hm with rfl | h
        · exact absurd rfl hx
        · exact h
      have ih := filter_length_lt h hp hq l hm
      by_cases hqx : q x = true
      · rw [List.filter_cons_of_pos hqx, List.filter_cons_of_pos (h x hqx)]
        simpa using ih
      · rw [List.filter_cons_of_neg hqx]
        by_cases hpx : p x = true
        · rw [List.filter_cons_of_pos hpx]; simp; omega
        · rw [List.filter_cons_of_neg hpx]; exact ih

theorem unmoved_le (h : Old) {f f' : Nat → Option Nat} (hl : Le f f') : unmoved h f' ≤ unmoved h f := by
  refine filter_length_le (fun x hx => ?_) _
  cases hf : f x with
  | none => rfl
  | some b => rw [hl x b hf] at hx; cases hx

theorem unmoved_upd (h : Old) {f : Nat → Option Nat} {a b : Nat} (ha : a < h.length) (hn : f a = none) :
    unmoved h (upd f a b) < unmoved h f := by
  refine filter_length_lt (a := a) (fun x hx => ?_) (by simp [hn]) (by simp [upd]) _ (List.mem_range.2 ha)
  unfold upd at hx
  by_cases hxa : x = a
  · rw [if_pos hxa] at hx; cases hx
  · rw [if_neg hxa] at hx; exact hx

theorem sum_filter_upd {f : Nat → Option Nat} {a b : Nat} (hn : f a = none) (c : Nat → Nat) :
    ∀ l : List Nat, l.Nodup →
      ((l.filter fun x => (upd f a b x).isSome).map c).sum =
        ((l.filter fun x => (f x).isSome).map c).sum + (if a ∈ l then c a else 0)
  | [], _ => by simp
  | x :: l, hd => by
    obtain ⟨hx, hd⟩ := List.nodup_cons.1 hd
    have ih := sum_filter_upd (b := b) hn c l hd
    by_cases hxa : x = a
    · subst hxa
      rw [List.filter_cons_of_pos (by simp [upd]), List.filter_cons_of_neg (by simp [hn])]
      rw [if_neg hx] at ih
      simp [ih]; omega
    · have he : upd f a b x = f x := by simp [upd, hxa]
      have hm : (a ∈ x :: l) = (a ∈ l) := by
        simp only [List.mem_cons, eq_iff_iff]
        constructor
        · rintro (h | h)
          · exact absurd h.symm hxa
          · exact h
        · exact .inr
      simp only [hm]
      by_cases hf : (f x).isSome = true
      · rw [List.filter_cons_of_pos (by rw [he]; exact hf), List.filter_cons_of_pos (p := fun x => (f x).isSome) (a := x) hf]
        simp only [List.map_cons, List.sum_cons, ih]
        omega
      · rw [List.filter_cons_of_neg (by rw [he]; exact hf), List.filter_cons_of_neg (p := fun x => (f x).isSome) (a := x) hf]
        exact ih

theorem weight_upd (h : Old) {f : Nat → Option Nat} {a b : Nat} (ha : a < h.length) (hn : f a = none) :
    weight h (upd f a b) = weight h f + costOf h a := by
  have := sum_filter_upd (b := b) hn (costOf h) (List.range h.length) List.nodup_range
  rw [if_pos (List.mem_range.2 ha)] at this
  exact this

/-! ## The invariant -/

/-- `P` holds of the objects that may be moved: it holds of what they refer to. -/
structure Closed (h : Old) (P : Nat → Prop) : Prop where
  obj : ∀ a, P a → ∃ o rooms, h[a]? = some (o, rooms) ∧ (∀ r ∈ o.slots, RefOk h r ∧ ∀ c, r = some (.old c) → P c)

/-- The extensions can be copied: nothing is read beyond the end of the old one's block. -/
def RoomOk : List Nat → List Nat → Prop
  | [], _ => True
  | n :: ns, rooms => n ≤ rooms.headD 0 ∧ RoomOk ns rooms.tail

structure WF (h : Old) (P : Nat → Prop) (g : GS) : Prop where
  lt : ∀ a b, g.fwd a = some b → b < g.new.length
  inj : ∀ a a' b, g.fwd a = some b → g.fwd a' = some b → a = a'
  onto : ∀ b, b < g.new.length → ∃ a, g.fwd a = some b
  old : ∀ a b, g.fwd a = some b → a < h.length
  may : ∀ a b, g.fwd a = some b → P a

/-- The object `b` of the new space is a finished copy. -/
def Done (h : Old) (g : GS) (b : Nat) : Prop :=
  ∃ a o rooms, g.fwd a = some b ∧ h[a]? = some (o, rooms) ∧ g.new[b]? = some (o.fill (o.slots.map (mv g.fwd))) ∧
    ∀ r ∈ o.slots, Def g.fwd r

/-- There is room for all objects that may be moved. -/
def Fits (h : Old) (P : Nat → Prop) (size : Nat) : Prop :=
  ∀ l : List Nat, l.Nodup → (∀ a ∈ l, P a) → (l.map (costOf h)).sum ≤ size

/-- There was room for everything so far. -/
def Fit (h : Old) (P : Nat → Prop) (g : GS) : Prop := Fits h P g.size ∧ g.failed = false ∧ align g.used ≤ weight h g.fwd

/-- What a part of a collection does: it leaves the objects before number `n` other than `b` alone. -/
structure Grows (h : Old) (P : Nat → Prop) (keep : Nat → Prop) (g g' : GS) : Prop where
  wf : WF h P g'
  le : Le g.fwd g'.fwd
  size : g'.size = g.size
  len : g.new.length ≤ g'.new.length
  same : ∀ b, b < g.new.length → keep b → g'.new[b]? = g.new[b]?
  failed : g.failed = true → g'.failed = true

theorem Grows.refl {h : Old} {P keep : Nat → Prop} {g : GS} (hw : WF h P g) : Grows h P keep g g :=
  ⟨hw, Le.refl _, rfl, Nat.le_refl _, fun _ _ _ => rfl, id⟩

theorem Grows.trans {h : Old} {P keep : Nat → Prop} {g g' g'' : GS} (h1 : Grows h P keep g g') (h2 : Grows h P keep g' g'') :
    Grows h P keep g g'' :=
  ⟨h2.wf, h1.le.trans h2.le, h2.size.trans h1.size, Nat.le_trans h1.len h2.len,
    fun b hb hk => (h2.same b (Nat.lt_of_lt_of_le hb h1.len) hk).trans (h1.same b hb hk), fun h => h2.failed (h1.failed h)⟩

theorem Grows.weaken {h : Old} {P keep keep' : Nat → Prop} {g g' : GS} (h1 : Grows h P keep g g') (hk : ∀ b, keep' b → keep b) :
    Grows h P keep' g g' :=
  ⟨h1.wf, h1.le, h1.size, h1.len, fun b hb hb' => h1.same b hb (hk b hb'), h1.failed⟩

theorem Done.mono {h : Old} {P keep : Nat → Prop} {g g' : GS} (hg : Grows h P keep g g') {b : Nat} (hk : keep b) (hb : b < g.new.length)
    (hd : Done h g b) : Done h g' b := by
  obtain ⟨a, o, rooms, h1, h2, h3, h4⟩ := hd
  refine ⟨a, o, rooms, hg.le a b h1, h2, ?_, fun r hr => (h4 r hr).mono hg.le⟩
  rw [hg.same b hb hk, h3, map_mv_mono hg.le h4]

/-! ## Extensions -/

theorem alloc_fields (n : Nat) (g : GS) : (alloc n g).fwd = g.fwd ∧ (alloc n g).new = g.new ∧ (alloc n g).size = g.size ∧
    (g.failed = true → (alloc n g).failed = true) := by
  unfold alloc
  split <;> simp

theorem alloc_ok (n : Nat) (g : GS) (h : (alloc n g).failed = false) : g.failed = false ∧ (alloc n g).used = align g.used + n := by
  unfold alloc at *
  split at h
  · cases h
  · rename_i hn
    rw [if_neg hn]
    exact ⟨h, rfl⟩

theorem alloc_fits (n : Nat) (g : GS) (h : g.failed = false) (hs : align g.used + n ≤ g.size) :
    (alloc n g).failed = false ∧ (alloc n g).used = align g.used + n := by
  unfold alloc
  rw [if_neg (by omega)]
  exact ⟨h, rfl⟩

/-- Copying the extensions changes nothing but the amount of memory used. -/
theorem exts_ok : ∀ (ns rooms : List Nat) (g : GS), RoomOk ns rooms →
    ∃ g', collectExts ns rooms g = .ok g' ∧ g'.fwd = g.fwd ∧ g'.new = g.new ∧ g'.size = g.size ∧
      (g.failed = true → g'.failed = true) ∧
      (g.failed = false → align g.used + (ns.map align).sum ≤ g.size →
        g'.failed = false ∧ align g'.used ≤ align g.used + (ns.map align).sum)
  | [], rooms, g, _ => ⟨g, rfl, rfl, rfl, rfl, id, fun h _ => ⟨h, by simp⟩⟩
  | n :: ns, rooms, g, ⟨hr, hrs⟩ => by
    unfold collectExts
    by_cases hf : g.failed = true
    · rw [if_pos hf]
      obtain ⟨g', h1, h2, h3, h4, h5, h6⟩ := exts_ok ns rooms.tail g hrs
      exact ⟨g', h1, h2, h3, h4, h5, fun h => by rw [h] at hf; cases hf⟩
    · rw [if_neg hf]
      obtain ⟨a1, a2, a3, a4⟩ := alloc_fields n g
      dsimp only
      obtain ⟨g', h1, h2, h3, h4, h5, h6⟩ := exts_ok ns rooms.tail (alloc n g) hrs
      by_cases hf' : (alloc n g).failed = true
      · rw [if_pos hf']
        refine ⟨g', h1, h2.trans a1, h3.trans a2, h4.trans a3, fun h => absurd h hf, ?_⟩
        intro hff hs
        have := (alloc_fits n g hff (by simp only [List.map_cons, List.sum_cons] at hs; have := align_ge n; omega)).1
        rw [this] at hf'; cases hf'
      · rw [if_neg hf', if_neg (by omega)]
        refine ⟨g', h1, h2.trans a1, h3.trans a2, h4.trans a3, fun h => absurd h hf, ?_⟩
        intro hff hs
        simp only [List.map_cons, List.sum_cons] at hs ⊢
        have hu := (alloc_fits n g hff (by have := align_ge n; omega)).2
        have ha : align (alloc n g).used = align g.used + align n := by rw [hu, align_add]
        have := h6 (by simpa using hf') (by rw [ha, a3]; omega)
        refine ⟨this.1, ?_⟩
        rw [ha] at this
        omega

/-! ## The walk -/

/-- The references of `o`, of which the first `k` have been replaced. -/
def part (f : Nat → Option Nat) (o : Obj) (k : Nat) : List (Option Ref) := (o.slots.take k).map (mv f) ++ o.slots.drop k

theorem part_length (f : Nat → Option Nat) (o : Obj) (k : Nat) : (part f o k).length = o.slots.length := by
  simp [part]; omega

theorem part_zero (f : Nat → Option Nat) (o : Obj) : part f o 0 = o.slots := by simp [part]

theorem part_all (f : Nat → Option Nat) (o : Obj) : part f o o.slots.length = o.slots.map (mv f) := by simp [part]

theorem part_get (f : Nat → Option Nat) (o : Obj) (k : Nat) (hk : k < o.slots.length) : (part f o k)[k]? = o.slots[k]? := by
  unfold part
  rw [List.getElem?_append_right (by simp; omega)]
  simp only [List.length_map, List.length_take]
  rw [List.getElem?_drop]
  congr 1
  omega

theorem part_set (f : Nat → Option Nat) (o : Obj) (k : Nat) (r : Option Ref) (hr : o.slots[k]? = some r) :
    (part f o k).set k (mv f r) = part f o (k + 1) := by
  obtain ⟨hk, hr'⟩ := List.getElem?_eq_some_iff.1 hr
  unfold part
  rw [List.set_append_right _ _ (by simp; omega)]
  simp only [List.length_map, List.length_take]
  rw [show k - min k o.slots.length = 0 by omega]
  rw [List.drop_eq_getElem_cons hk, List.set_cons_zero, List.take_succ_eq_append_getElem hk, List.map_append, hr']
  simp

theorem part_mono {f f' : Nat → Option Nat} (hl : Le f f') (o : Obj) (k : Nat) (hd : ∀ r ∈ o.slots.take k, Def f r) :
    part f' o k = part f o k := by
  unfold part
  rw [map_mv_mono hl hd]

/-- What is known about collecting one reference. -/
def ColSpec (h : Old) (P : Nat → Prop) (n : Nat) (col : Option Ref → GS → Exec (Option Ref × GS)) : Prop :=
  ∀ r g, WF h P g → unmoved h g.fwd < n →
    (g.failed = false → RefOk h r ∧ ∀ c, r = some (.old c) → P c) →
    ∃ r' g', col r g = .ok (r', g') ∧ Grows h P (fun _ => True) g g' ∧
      (Fit h P g → Fit h P g') ∧
      (g'.failed = false → g.failed = false ∧ r' = mv g'.fwd r ∧ Def g'.fwd r ∧
        ∀ b, g.new.length ≤ b → b < g'.new.length → Done h g' b)

theorem setSlot_fields (b k : Nat) (r : Option Ref) (g : GS) : (setSlot b k r g).fwd = g.fwd ∧
    (setSlot b k r g).size = g.size ∧ (setSlot b k r g).used = g.used ∧ (setSlot b k r g).failed = g.failed ∧
    (setSlot b k r g).new.length = g.new.length ∧ (∀ c, c ≠ b → (setSlot b k r g).new[c]? = g.new[c]?) ∧
    (∀ o, g.new[b]? = some o → (setSlot b k r g).new[b]? = some (o.fill (o.slots.set k r))) := by
  refine ⟨rfl, rfl, rfl, rfl, ?_, ?_, ?_⟩
  · simp [setSlot]
  · intro c hc
    simp only [setSlot]
    rw [List.getElem?_modify]
    have hc' : ¬ b = c := fun h => hc h.symm
    simp [hc']
  · intro o ho
    simp only [setSlot]
    rw [List.getElem?_modify]
    simp [ho]

theorem WF.congr {h : Old} {P : Nat → Prop} {g g' : GS} (hw : WF h P g) (hf : g'.fwd = g.fwd) (hl : g'.new.length = g.new.length) :
    WF h P g' := by
  obtain ⟨h1, h2, h3, h4, h5⟩ := hw
  constructor
  · intro a b hab; rw [hf] at hab; rw [hl]; exact h1 a b hab
  · intro a a' b hab hab'; rw [hf] at hab hab'; exact h2 a a' b hab hab'
  · intro b hb; rw [hl] at hb; rw [hf]; exact h3 b hb
  · intro a b hab; rw [hf] at hab; exact h4 a b hab
  · intro a b hab; rw [hf] at hab; exact h5 a b hab

theorem walk_ok {h : Old} {P : Nat → Prop} {n : Nat} {col : Option Ref → GS → Exec (Option Ref × GS)}
    (hcol : ColSpec h P n col) (o : Obj) (hslots : ∀ r ∈ o.slots, RefOk h r ∧ ∀ c, r = some (.old c) → P c)
    (b : Nat) : ∀ (m k : Nat) (g : GS), m + k = o.slots.length → WF h P g → unmoved h g.fwd < n →
      b < g.new.length → (g.failed = false → g.new[b]? = some (o.fill (part g.fwd o k)) ∧ ∀ r ∈ o.slots.take k, Def g.fwd r) →
      ∃ g', walkSlots col b m k g = .ok g' ∧ Grows h P (· ≠ b) g g' ∧ (Fit h P g → Fit h P g') ∧
        (g'.failed = false → g.failed = false ∧ g'.new[b]? = some (o.fill (o.slots.map (mv g'.fwd))) ∧
          (∀ r ∈ o.slots, Def g'.fwd r) ∧ ∀ c, g.new.length ≤ c → c < g'.new.length → Done h g' c)
  | 0, k, g, hmk, hw, hu, hb, hg => by
    refine ⟨g, rfl, Grows.refl hw, id, fun hf => ?_⟩
    obtain ⟨h1, h2⟩ := hg hf
    have hk : k = o.slots.length := by omega
    subst hk
    rw [part_all] at h1
    rw [List.take_length] at h2
    exact ⟨hf, h1, h2, fun c hc hc' => by omega⟩
  | m + 1, k, g, hmk, hw, hu, hb, hg => by
    unfold walkSlots
    have hget : g.new[b]? = some (g.new[b]) := List.getElem?_eq_getElem hb
    rw [hget]
    dsimp only
    have hk : k < o.slots.length := by omega
    have hrk : o.slots[k]? = some o.slots[k] := List.getElem?_eq_getElem hk
    -- the reference that is read
    have hread : g.failed = false → (g.new[b]).slots[k]?.join = o.slots[k] := by
      intro hf
      have h1 := (hg hf).1
      rw [hget] at h1
      rw [Option.some.inj h1, slots_fill _ _ (part_length _ _ _), part_get _ _ _ hk, hrk]
      rfl
    obtain ⟨r', g1, e1, G1, F1, D1⟩ := hcol ((g.new[b]).slots[k]?.join) g hw hu
      (fun hf => by rw [hread hf]; exact hslots _ (List.getElem_mem hk))
    rw [e1]
    simp only [Exec.bind_ok]
    obtain ⟨s1, s2, s3, s4, s5, s6, s7⟩ := setSlot_fields b k r' g1
    have hb1 : b < g1.new.length := Nat.lt_of_lt_of_le hb G1.len
    have G2 : Grows h P (· ≠ b) g (setSlot b k r' g1) := by
      refine ⟨G1.wf.congr s1 s5, by rw [s1]; exact G1.le, s2.trans G1.size, by rw [s5]; exact G1.len, ?_, ?_⟩
      · intro c hc hcb
        rw [s6 c hcb]
        exact G1.same c hc trivial
      · intro hf; rw [s4]; exact G1.failed hf
    obtain ⟨g', e', G', F', D'⟩ := walk_ok hcol o hslots b m (k + 1) (setSlot b k r' g1) (by omega) G2.wf
      (by rw [s1]; exact Nat.lt_of_le_of_lt (unmoved_le h G1.le) hu) (by rw [s5]; exact hb1) (by
        intro hf
        rw [s4] at hf
        obtain ⟨hf0, hr', hd', hdone⟩ := D1 hf
        rw [hread hf0] at hr' hd'
        have h1 := (hg hf0).1
        have hnew : g1.new[b]? = some (o.fill (part g1.fwd o k)) := by
          rw [G1.same b hb trivial, h1, part_mono G1.le o k (hg hf0).2]
        constructor
        · rw [s7 _ hnew, slots_fill _ _ (part_length _ _ _), s1, hr', part_set _ _ _ _ hrk]
          rw [fill_fill _ _ _ (part_length _ _ _) (part_length _ _ _)]
        · intro r hr
          rw [s1]
          rw [List.take_succ_eq_append_getElem hk, List.mem_append, List.mem_singleton] at hr
          rcases hr with hr | rfl
          · exact ((hg hf0).2 r hr).mono G1.le
          · exact hd')
    refine ⟨g', e', G2.trans G', fun hF => F' ?_, ?_⟩
    · obtain ⟨f0, f1, f2⟩ := F1 hF
      exact ⟨by rw [s2]; exact f0, by rw [s4]; exact f1, by rw [s3, s1]; exact f2⟩
    · intro hf
      obtain ⟨d1, d2, d3, d4⟩ := D' hf
      rw [s4] at d1
      obtain ⟨hf0, hr', hd', hdone⟩ := D1 d1
      refine ⟨hf0, d2, d3, fun c hc hc' => ?_⟩
      by_cases hcl : c < g1.new.length
      · have hne : c ≠ b := by omega
        have hd1 := hdone c hc hcl
        have hd2 : Done h (setSlot b k r' g1) c := by
          obtain ⟨a, o', rooms, q1, q2, q3, q4⟩ := hd1
          exact ⟨a, o', rooms, by rw [s1]; exact q1, q2, by rw [s6 c hne, s1]; exact q3, by rw [s1]; exact q4⟩
        exact hd2.mono G' hne (by rw [s5]; exact hcl)
      · exact d4 c (by rw [s5]; omega) hc'

/-! ## One reference -/

theorem weight_le {h : Old} {P : Nat → Prop} {g : GS} (hw : WF h P g)
    (hsum : Fits h P g.size) {a : Nat} (ha : P a) (hn : g.fwd a = none) :
    weight h g.fwd + costOf h a ≤ g.size := by
  have := hsum (a :: movedList h g.fwd) (by
    rw [List.nodup_cons]
    refine ⟨?_, List.Pairwise.filter _ List.nodup_range⟩
    intro hm
    have := (List.mem_filter.1 hm).2
    rw [hn] at this
    cases this) (by
    intro x hx
    rcases List.mem_cons.1 hx with rfl | hx
    · exact ha
    · have := (List.mem_filter.1 hx).2
      obtain ⟨b, hb⟩ := Option.isSome_iff_exists.1 this
      exact hw.may x b hb)
  simp only [List.map_cons, List.sum_cons] at this
  unfold weight
  omega

theorem WF.push {h : Old} {P : Nat → Prop} {g : GS} (hw : WF h P g) {a : Nat} (ha : a < h.length) (hPa : P a) (hn : g.fwd a = none)
    {g' : GS} {o : Obj} (hf : g'.fwd = upd g.fwd a g.new.length) (hnew : g'.new = g.new ++ [o]) : WF h P g' := by
  have hl : g'.new.length = g.new.length + 1 := by rw [hnew]; simp
  constructor
  · intro x b hxb
    rw [hf] at hxb
    unfold upd at hxb
    by_cases hx : x = a
    · rw [if_pos hx] at hxb; cases hxb; omega
    · rw [if_neg hx] at hxb; have := hw.lt x b hxb; omega
  · intro x x' b hxb hxb'
    rw [hf] at hxb hxb'
    unfold upd at hxb hxb'
    by_cases hx : x = a
    · by_cases hx' : x' = a
      · rw [hx, hx']
      · rw [if_pos hx] at hxb; rw [if_neg hx'] at hxb'
        cases hxb
        exact absurd (hw.lt _ _ hxb') (Nat.lt_irrefl _)
    · rw [if_neg hx] at hxb
      by_cases hx' : x' = a
      · rw [if_pos hx'] at hxb'
        cases hxb'
        exact absurd (hw.lt _ _ hxb) (Nat.lt_irrefl _)
      · rw [if_neg hx'] at hxb'
        exact hw.inj x x' b hxb hxb'
  · intro b hb
    rw [hf]
    by_cases hb' : b < g.new.length
    · obtain ⟨x, hx⟩ := hw.onto b hb'
      refine ⟨x, ?_⟩
      unfold upd
      rw [if_neg (by rintro rfl; rw [hn] at hx; cases hx)]
      exact hx
    · refine ⟨a, ?_⟩
      have : b = g.new.length := by omega
      simp [upd, this]
  · intro x b hxb
    rw [hf] at hxb
    unfold upd at hxb
    by_cases hx : x = a
    · rw [hx]; exact ha
    · rw [if_neg hx] at hxb; exact hw.old x b hxb
  · intro x b hxb
    rw [hf] at hxb
    unfold upd at hxb
    by_cases hx : x = a
    · rw [hx]; exact hPa
    · rw [if_neg hx] at hxb; exact hw.may x b hxb

theorem collect_ok {h : Old} {P : Nat → Prop} (hP : Closed h P)
    (hroom : ∀ a, P a → ∀ o rooms, h[a]? = some (o, rooms) → RoomOk o.exts rooms) :
    ∀ n, ColSpec h P n (collect h n)
  | 0, r, g, _, hu, _ => absurd hu (by omega)
  | n + 1, r, g, hw, hu, hr => by
    have ih := collect_ok hP hroom n
    unfold collect
    by_cases hgf : g.failed = true
    · rw [if_pos hgf]
      exact ⟨r, g, rfl, Grows.refl hw, id, fun h => by rw [h] at hgf; cases hgf⟩
    rw [if_neg hgf]
    have hgf : g.failed = false := by simpa using hgf
    obtain ⟨hro, hrp⟩ := hr hgf
    match r, hro, hrp with
    | none, _, _ => exact ⟨none, g, rfl, Grows.refl hw, id, fun h => ⟨h, rfl, trivial, fun b h1 h2 => by omega⟩⟩
    | some (.static i), _, _ => exact ⟨_, g, rfl, Grows.refl hw, id, fun h => ⟨h, rfl, trivial, fun b h1 h2 => by omega⟩⟩
    | some (.new i), hro, _ => exact hro.elim
    | some (.old a), hro, hrp =>
      have hal : a < h.length := hro
      have hPa : P a := hrp a rfl
      dsimp only
      cases hfa : g.fwd a with
      | some b =>
        refine ⟨_, g, rfl, Grows.refl hw, id, fun h => ⟨h, ?_, ?_, fun b h1 h2 => by omega⟩⟩
        · simp only [mv, hfa]
        · show (g.fwd a).isSome = true
          rw [hfa]; rfl
      | none =>
        obtain ⟨o, rooms, hoa, hslots⟩ := hP.obj a hPa
        simp only [hoa]
        obtain ⟨a1, a2, a3, a4⟩ := alloc_fields o.size g
        have hcost : costOf h a = align o.size + (o.exts.map align).sum := by unfold costOf; rw [hoa]; rfl
        by_cases hf1 : (alloc o.size g).failed = true
        · rw [if_pos hf1]
          refine ⟨_, _, rfl, ⟨hw.congr a1 (by rw [a2]), by rw [a1]; exact Le.refl _, a3, by rw [a2]; exact Nat.le_refl _,
            fun b _ _ => by rw [a2], a4⟩, ?_, fun h => by rw [h] at hf1; cases hf1⟩
          rintro ⟨f0, f1, f2⟩
          have hwl := weight_le hw f0 hPa hfa
          have := (alloc_fits o.size g f1 (by have := align_ge o.size; omega)).1
          rw [this] at hf1; cases hf1
        · rw [if_neg hf1]
          have hf1' : (alloc o.size g).failed = false := by simpa using hf1
          generalize hg2 : ({ alloc o.size g with new := (alloc o.size g).new ++ [o], fwd := fun x => if x = a then some (alloc o.size g).new.length else (alloc o.size g).fwd x } : GS) = g2
          have f2 : g2.fwd = upd g.fwd a g.new.length := by rw [← hg2]; funext x; simp only [upd, a1, a2]
          have n2 : g2.new = g.new ++ [o] := by rw [← hg2]; simp only [a2]
          have z2 : g2.size = g.size := by rw [← hg2]; exact a3
          have e2 : g2.failed = false := by rw [← hg2]; exact hf1'
          have u2 : g2.used = align g.used + o.size := by rw [← hg2]; exact (alloc_ok _ _ hf1').2
          obtain ⟨g3, c3, f3, n3, z3, e3, w3⟩ := exts_ok o.exts rooms g2 (hroom a hPa o rooms hoa)
          rw [c3]
          simp only [Exec.bind_ok]
          have hw3 : WF h P g3 := hw.push hal hPa hfa (f3.trans f2) (n3.trans n2)
          have hl3 : g3.new.length = g.new.length + 1 := by rw [n3, n2]; simp
          have hle3 : Le g.fwd g3.fwd := by
            rw [f3, f2]
            intro x b hx
            unfold upd
            rw [if_neg (by rintro rfl; rw [hfa] at hx; cases hx)]
            exact hx
          have hun : unmoved h g3.fwd < n := by
            rw [f3, f2]
            have := unmoved_upd h (b := g.new.length) hal hfa
            omega
          have hb3 : g3.new[g.new.length]? = some o := by rw [n3, n2]; simp
          obtain ⟨g4, c4, G4, F4, D4⟩ := walk_ok ih o hslots g.new.length o.slots.length 0 g3 (by omega) hw3 hun (by omega)
            (fun _ => ⟨by rw [hb3, part_zero, fill_slots], by simp⟩)
          rw [a2, c4]
          simp only [Exec.bind_ok]
          have hfab : g4.fwd a = some g.new.length := G4.le a _ (by rw [f3, f2]; simp [upd])
          refine ⟨_, g4, rfl, ⟨G4.wf, hle3.trans G4.le, G4.size.trans (z3.trans z2), by have := G4.len; omega, ?_, ?_⟩, ?_, ?_⟩
          · intro b hb _
            rw [G4.same b (by omega) (by show b ≠ _; omega), n3, n2, List.getElem?_append_left hb]
          · intro h; rw [h] at hgf; cases hgf
          · rintro ⟨q0, q1, q2⟩
            have hwl := weight_le hw q0 hPa hfa
            have ha2 : align g2.used = align g.used + align o.size := by rw [u2, align_add]
            have := w3 e2 (by rw [ha2, z2]; omega)
            refine F4 ⟨by rw [z3, z2]; exact q0, this.1, ?_⟩
            have hwt : weight h g3.fwd = weight h g.fwd + costOf h a := by rw [f3, f2]; exact weight_upd h hal hfa
            rw [ha2] at this
            omega
          · intro hf4
            obtain ⟨d1, d2, d3, d4⟩ := D4 hf4
            refine ⟨hgf, by simp only [mv, hfab], by show (g4.fwd a).isSome = true; rw [hfab]; rfl, ?_⟩
            intro b hb hb'
            by_cases hbe : b = g.new.length
            · rw [hbe]
              exact ⟨a, o, rooms, hfab, hoa, d2, d3⟩
            · exact d4 b (by omega) hb'

/-! ## All roots -/

theorem all_ok {h : Old} {P : Nat → Prop} {n : Nat} (hcol : ColSpec h P n (collect h n)) :
    ∀ (rs : List (Option Ref)) (g : GS), WF h P g → unmoved h g.fwd < n →
      (∀ r ∈ rs, RefOk h r ∧ ∀ c, r = some (.old c) → P c) →
      ∃ rs' g', collectAll h n rs g = .ok (rs', g') ∧ Grows h P (fun _ => True) g g' ∧ (Fit h P g → Fit h P g') ∧
        (g'.failed = false → g.failed = false ∧ rs' = rs.map (mv g'.fwd) ∧ (∀ r ∈ rs, Def g'.fwd r) ∧
          ∀ b, g.new.length ≤ b → b < g'.new.length → Done h g' b)
  | [], g, hw, _, _ => ⟨[], g, rfl, Grows.refl hw, id, fun h => ⟨h, rfl, by simp, fun b h1 h2 => by omega⟩⟩
  | r :: rs, g, hw, hu, hrs => by
    obtain ⟨r', g1, e1, G1, F1, D1⟩ := hcol r g hw hu (fun _ => hrs r List.mem_cons_self)
    obtain ⟨rs', g2, e2, G2, F2, D2⟩ := all_ok hcol rs g1 G1.wf (Nat.lt_of_le_of_lt (unmoved_le h G1.le) hu)
      (fun x hx => hrs x (List.mem_cons_of_mem _ hx))
    refine ⟨r' :: rs', g2, ?_, G1.trans G2, fun h => F2 (F1 h), ?_⟩
    · unfold collectAll
      rw [e1]
      simp only [Exec.bind_ok]
      rw [e2]
      rfl
    · intro hf
      obtain ⟨d1, d2, d3, d4⟩ := D2 hf
      obtain ⟨q1, q2, q3, q4⟩ := D1 d1
      refine ⟨q1, ?_, ?_, ?_⟩
      · rw [List.map_cons, d2, q2, mv_mono G2.le q3]
      · intro x hx
        rcases List.mem_cons.1 hx with rfl | hx
        · exact q3.mono G2.le
        · exact d3 x hx
      · intro b hb hb'
        by_cases hb1 : b < g1.new.length
        · exact (q4 b hb hb1).mono G2 trivial hb1
        · exact d4 b (by omega) hb'

theorem start_wf (h : Old) (P : Nat → Prop) (size : Nat) : WF h P (start size) := by
  constructor <;> intros <;> simp_all [start]

theorem start_unmoved (h : Old) (size : Nat) : unmoved h (start size).fwd < h.length + 1 := by
  have : unmoved h (start size).fwd ≤ (List.range h.length).length := List.length_filter_le _ _
  simp at this
  omega

theorem start_fit (h : Old) (P : Nat → Prop) (size : Nat) (hf : Fits h P size) : Fit h P (start size) := by
  refine ⟨hf, rfl, ?_⟩
  simp [start, align]

theorem reach_closed {h : Old} {roots : List (Option Ref)} (hv : Valid h roots) : Closed h (Reach h roots) := by
  constructor
  intro a ha
  have hlt : a < h.length := by
    cases ha with
    | root hm => exact hv.1 _ hm
    | step _ h1 h2 => exact hv.2 _ _ _ h1 _ h2
  obtain ⟨⟨o, rooms⟩, ho⟩ : ∃ x, h[a]? = some x := ⟨_, List.getElem?_eq_getElem hlt⟩
  refine ⟨o, rooms, ho, fun r hr => ?_⟩
  have hr' := (mem_slots o r).1 hr
  exact ⟨hv.2 _ _ _ ho _ hr', fun c hc => .step ha ho (hc ▸ hr')⟩

end Noja.Gc
