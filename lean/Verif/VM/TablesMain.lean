import Verif.VM.TablesRef

/-!
# The watched layer does what the layer of lists does
-/

set_option linter.unusedVariables false
set_option linter.unusedSimpArgs false

namespace Noja.VM

open Noja.Graph (Obj Kind Heap)

variable {α β : Type}

/-- The builtins that are not modelled leave maps and keys what they are. -/
structure Tame (B : Config) : Prop where
  fuel : 0 < B.fuel
  hit : ∀ k k', B.hit k k' = true
  slot : ∀ t n f w, B.slot t n = some f → Kept w (f w)
  native : ∀ id a w, Kept w (B.native id a w)
  selectX : ∀ o k w, Kept w (B.selectX o k w)
  insertX : ∀ o a b c w, Kept w (B.insertX o a b c w)

/-! ## What leaves maps and keys what they are -/

theorem Item.kept (i : Item) (w : World) : Kept w (i.value w) := by
  cases i with
  | type k => exact Kept.ok w _
  | any => exact Kept.mk w (by decide)
  | float x => exact Kept.mk w (by exact nofun)
  | table t => exact (Keep.alloc w (o := .opaque .smap) (by decide)).trans (Keep.same rfl)
  | fn id argc => exact (Keep.alloc w (o := .opaque .nfunc) (by decide)).trans (Keep.same rfl)

theorem stdSlot_kept {B : Config} (hB : Tame B) {t : Nat} {n : Name} {f : World → Out World Ref}
    (h : stdSlot B t n = some f) (w : World) : Kept w (f w) := by
  match t, h with
  | 0, h =>
    have h : (basicTable.lookup n).map Item.value = some f := h
    cases hl : basicTable.lookup n with
    | none => rw [hl] at h; cases h
    | some i => rw [hl] at h; cases h; exact i.kept w
  | 1, h =>
    have h : some (((stringTable.lookup n).map Item.value).getD fun _ => .ub) = some f := h
    cases hl : stringTable.lookup n with
    | none => rw [hl] at h; cases h; trivial
    | some i => rw [hl] at h; cases h; exact i.kept w
  | 2, h => exact hB.slot 2 n f w h
  | 3, h =>
    have h : (mathTable.lookup n).map Item.value = some f := h
    cases hl : mathTable.lookup n with
    | none => rw [hl] at h; cases h
    | some i => rw [hl] at h; cases h; exact i.kept w
  | 4, h => exact hB.slot 4 n f w h
  | 5, h =>
    have h : some (((bufferTable.lookup n).map Item.value).getD fun _ => .ub) = some f := h
    cases hl : bufferTable.lookup n with
    | none => rw [hl] at h; cases h; trivial
    | some i => rw [hl] at h; cases h; exact i.kept w
  | t + 6, h => exact hB.slot (t + 6) n f w h

theorem kindOf_kept (v : Ref) (w : World) : Kept w (kindOf v w) := by
  unfold kindOf
  cases w.heap[v]? with
  | some o => exact Kept.ok w _
  | none => trivial

theorem consecutive_kept (l : Ref) : ∀ (n i : Nat) (rs : List Ref) (w : World) (items : List Ref),
    w.heap[l]? = some (.list items) → Keep w (consecutive l n i rs w)
  | 0, _, _, w, _, _ => Keep.refl w
  | n + 1, i, rs, w, items, h => by
    unfold consecutive
    have hs := Book.list_ge h
    have h1 : (w.alloc (.int i)).1.heap[l]? = some (.list items) := by
      rw [alloc_heap, List.getElem?_append_left (get_lt h)]
      exact h
    refine ((Keep.alloc w (o := .int i) (by intro q; cases q)).trans
      (Keep.set _ (o' := .list (rs ++ [(w.alloc (.int i)).2])) h1 rfl hs (by intro q; cases q))).trans ?_
    exact consecutive_kept l n (i + 1) _ _ _ (Book.set_get h1 hs)

theorem keysOf_kept (r : Ref) (w : World) : Kept w (keysOf r w) := by
  unfold keysOf
  have key : ∀ n, Keep w (consecutive (w.alloc (.list [])).2 n 0 [] (w.alloc (.list [])).1) := fun n =>
    (Keep.alloc w (by decide)).trans (consecutive_kept _ n 0 [] _ [] (by
      rw [alloc_heap]
      exact List.getElem?_concat_length))
  cases w.heap[r]? with
  | none => trivial
  | some o =>
    cases o with
    | map es => exact Kept.mk w (by exact nofun)
    | _ =>
      dsimp only
      split
      · exact key _
      · exact Kept.ok w _

theorem assertAll_kept : ∀ (rs : List Ref) (w : World), Kept w (assertAll rs w)
  | [], w => Kept.ok w _
  | r :: rs, w => by
    unfold assertAll
    split
    · exact assertAll_kept rs w
    · exact Keep.refl w
    · trivial

theorem onArgs_kept (f : List Builtin.Arg → Exec Builtin.Ret) (args : List Ref) (w : World) : Kept w (onArgs f args w) := by
  unfold onArgs
  refine Kept.bind (Kept.outOf w _) fun r w' _ => ?_
  cases r with
  | int v => exact Kept.bind (Kept.mk w' (by exact nofun)) fun _ u _ => Kept.ok u _
  | float x => exact Kept.bind (Kept.mk w' (by exact nofun)) fun _ u _ => Kept.ok u _
  | str s => exact Kept.bind (Kept.mk w' (by exact nofun)) fun _ u _ => Kept.ok u _
  | buffer b => exact Kept.bind (Kept.mk w' (by exact nofun)) fun _ u _ => Kept.ok u _
  | fail _ => exact Kept.bind (Kept.outOf w' _) fun _ u _ => Kept.bind (Kept.mk u (by exact nofun)) fun _ u _ => Kept.ok u _

theorem stdNative_kept {B : Config} (hB : Tame B) (id : Nat) (args : List Ref) (w : World) :
    Kept w (stdNative B id args w) := by
  unfold stdNative
  split
  · exact Kept.bind (kindOf_kept _ w) fun _ u _ => Kept.ok u _
  · split
    · split
      · exact Kept.bind (Kept.mk w (by exact nofun)) fun _ u _ => Kept.ok u _
      · exact Keep.refl w
    · trivial
  · exact assertAll_kept _ w
  · exact Keep.refl w
  · refine Kept.bind (Kept.outOf w _) fun r u _ => ?_
    exact Keep.same rfl
  · exact Kept.bind (kindOf_kept _ w) fun _ u _ => Kept.bind (Kept.outOf u _) fun _ u _ =>
      Kept.bind (Kept.mk u (by exact nofun)) fun _ u _ => Kept.ok u _
  · exact Kept.bind (keysOf_kept _ w) fun _ u _ => Kept.ok u _
  · exact onArgs_kept _ _ w
  · exact onArgs_kept _ _ w
  · exact onArgs_kept _ _ w
  · exact onArgs_kept _ _ w
  · exact onArgs_kept _ _ w
  · exact onArgs_kept _ _ w
  · exact onArgs_kept _ _ w
  · exact onArgs_kept _ _ w
  · exact onArgs_kept _ _ w
  · exact onArgs_kept _ _ w
  · exact onArgs_kept _ _ w
  · exact hB.native _ _ w

theorem bufSelect_kept (b : List UInt8) (key : Ref) (w : World) : Kept w (bufSelect b key w) := by
  unfold bufSelect
  split
  · split
    · exact Keep.same rfl
    · split
      · exact Keep.alloc w (by exact nofun)
      · exact Keep.same rfl
  · exact Keep.same rfl

theorem bufInsert_kept {b : List UInt8} {col : Ref} (key val : Ref) {w : World} (h : w.heap[col]? = some (.buffer b)) :
    Kept w (bufInsert b col key val w) := by
  have hs := Book.buffer_ge h
  unfold bufInsert
  split
  · split
    · exact Keep.refl w
    · split
      · exact Keep.refl w
      · exact Keep.set w h rfl hs (by exact nofun)
  · exact Keep.refl w

theorem stdSelectX_kept {B : Config} (hB : Tame B) (o : Obj) (key : Ref) (w : World) : Kept w ((std B).selectX o key w) := by
  cases o with
  | buffer b => exact bufSelect_kept b key w
  | _ => exact hB.selectX _ _ w

theorem selectObj_kept {B : Config} (hB : Tame B) {col : Ref} (key : Ref) (w : World)
    (hm : ∀ es, w.heap[col]? ≠ some (.map es)) (hc : w.heap[col]? ≠ some (.opaque .closure)) :
    Kept w (selectObj (std B) 1 col key w) := by
  unfold selectObj
  cases hcol : w.heap[col]? with
  | none => trivial
  | some o =>
    cases o with
    | map es => exact absurd hcol (hm es)
    | list items =>
      dsimp only
      split
      · split
        · exact Keep.same rfl
        · exact Keep.refl w
      · exact Keep.same rfl
    | str s =>
      dsimp only
      split
      · exact Keep.alloc w (by exact nofun)
      · exact Keep.same rfl
      · trivial
    | «opaque» k =>
      cases k with
      | closure => exact absurd hcol hc
      | smap =>
        dsimp only
        split
        · exact Keep.refl w
        · split
          · exact Keep.refl w
          · rename_i f hf
            exact Kept.bind (stdSlot_kept hB hf w) fun _ u _ => Kept.ok u _
      | _ => exact hB.selectX _ _ w
    | buffer b => exact bufSelect_kept b key w
    | _ => exact hB.selectX _ _ w

theorem insertObj_kept {B : Config} (hB : Tame B) {col : Ref} (key val : Ref) (w : World)
    (hm : ∀ es, w.heap[col]? ≠ some (.map es)) : Kept w (insertObj (std B) col key val w) := by
  unfold insertObj
  cases hcol : w.heap[col]? with
  | none => trivial
  | some o =>
    cases o with
    | map es => exact absurd hcol (hm es)
    | list items =>
      have hs := Book.list_ge hcol
      dsimp only
      split
      · split
        · exact Keep.refl w
        · split
          · exact Keep.set w hcol rfl hs (by exact nofun)
          · exact Keep.set w hcol rfl hs (by exact nofun)
      · exact Keep.refl w
    | buffer b => exact bufInsert_kept key val hcol
    | _ => exact hB.insertX _ _ _ _ w

/-! ## Operation by operation -/

variable {B : Config}

theorem selectT_ref (hB : Tame B) : ∀ (fuel : Nat) (col key : Ref) (x : TWorld) (w : World), Rt x w →
    Refine.ORef Rt (selectT (std B) true fuel col key x) (selectObj (std B) fuel col key w)
  | 0, _, _, _, _, _ => trivial
  | fuel + 1, col, key, x, w, hr => by
    have hother : (∀ es, w.heap[col]? ≠ some (.map es)) → w.heap[col]? ≠ some (.opaque .closure) →
        Refine.ORef Rt (up (selectObj (std B) 1 col key) x) (selectObj (std B) (fuel + 1) col key w) := by
      intro h1 h2
      have e : selectObj (std B) (fuel + 1) col key w = selectObj (std B) 1 col key w := by
        simp only [selectObj]
        split
        · rfl
        · rfl
        · rfl
        · rfl
        · rename_i h; exact absurd h h2
        · rfl
        · rfl
      rw [e]
      exact up_ref hr (selectObj_kept hB key w h1 h2)
    obtain ⟨rfl, ht⟩ := hr
    cases hcol : x.w.heap[col]? with
    | none =>
      have h := hother (by rw [hcol]; exact nofun) (by rw [hcol]; exact nofun)
      unfold selectT
      simp only [hcol]
      exact h
    | some o =>
      by_cases hmap : ∃ es, o = .map es
      · obtain ⟨es, rfl⟩ := hmap
        unfold selectT selectObj
        simp only [hcol]
        cases Graph.hash x.w.heap (std B).fuel key with
        | ok _ =>
          dsimp only
          rcases lookT_ref (C := std B) hB.fuel hB.hit (ht col es hcol) (key := key) x.w.err with h | h
          · rw [h]; trivial
          · rw [h]
            cases Graph.lookup (std B).hit x.w.heap key es x.w.err with
            | ok r => exact ⟨_, rfl, rfl, TH.keep ht (Keep.same rfl)⟩
            | _ => trivial
        | _ => trivial
      · by_cases hclo : o = .opaque .closure
        · subst hclo
          unfold selectT selectObj
          simp only [hcol]
          cases x.w.clos col with
          | none => trivial
          | some p =>
            obtain ⟨prev, vars⟩ := p
            refine bind_ref (selectT_ref hB fuel vars key x x.w ⟨rfl, ht⟩) fun v x w hr => ?_
            obtain ⟨rfl, ht⟩ := hr
            by_cases he : x.w.err = true
            · rw [if_pos he, if_pos he]; exact ⟨_, rfl, rfl, ht⟩
            · rw [if_neg he, if_neg he]
              cases v with
              | some v => exact ⟨_, rfl, rfl, ht⟩
              | none =>
                cases prev with
                | none => exact ⟨_, rfl, rfl, ht⟩
                | some p => exact selectT_ref hB fuel p key x x.w ⟨rfl, ht⟩
        · have h := hother (by rw [hcol]; intro es q; cases q; exact hmap ⟨es, rfl⟩) (by rw [hcol]; intro q; cases q; exact hclo rfl)
          have e : selectT (std B) true (fuel + 1) col key x = up (selectObj (std B) 1 col key) x := by
            unfold selectT
            simp only [hcol]
            cases o with
            | map es => exact absurd ⟨es, rfl⟩ hmap
            | «opaque» k =>
              cases k with
              | closure => exact absurd rfl hclo
              | _ => rfl
            | _ => rfl
          rw [e]
          exact h

theorem insertT_ref (hB : Tame B) (col key val : Ref) (x : TWorld) (w : World) (hr : Rt x w) :
    Refine.ORef Rt (insertT (std B) true col key val x) (insertObj (std B) col key val w) := by
  have hother : (∀ es, w.heap[col]? ≠ some (.map es)) →
      Refine.ORef Rt (up (insertObj (std B) col key val) x) (insertObj (std B) col key val w) :=
    fun h => up_ref hr (insertObj_kept hB key val w h)
  obtain ⟨rfl, ht⟩ := hr
  by_cases hmap : ∃ es, x.w.heap[col]? = some (.map es)
  · obtain ⟨es, hcol⟩ := hmap
    unfold insertT
    simp only [hcol]
    by_cases hg : (true && !(isKey x.w.heap key && growOk (std B) x.w.heap (x.t col))) = true
    · rw [if_pos hg]
      split <;> trivial
    · rw [if_neg hg]
      simp only [Bool.true_and, Bool.not_eq_true', Bool.not_eq_false, Bool.and_eq_true] at hg
      obtain ⟨hk, hgr⟩ := hg
      obtain ⟨o, ho, ha⟩ := isKey_iff.1 hk
      have hh := ht col es hcol
      obtain ⟨m, h1, h2⟩ := insert_ref (C := std B) hB.fuel (val := val) hh hk hgr
      have hi : insertObj (std B) col key val x.w =
          .ok (x.w.withHeap (x.w.heap.set col (.map (Map.Spec.insert (keyAt x.w.heap) es key val)))) () := by
        unfold insertObj
        simp only [hcol]
        rw [mapInsert_spec (C := std B) hB.fuel hB.hit hcol hh.2 hk]
        rfl
      have hent : Map.entries m = Map.Spec.insert (keyAt x.w.heap) es key val := by
        obtain ⟨⟨e, h⟩, -⟩ := h2
        exact h.entries
      have hT : (match x.w.heap[key]? with
          | some (.list _) => .ub
          | some (.map _) => .ub
          | _ => match Graph.hash x.w.heap (std B).fuel key with
            | .ok _ => match Map.insert (kops (std B) x.w.heap false) (tfuel (x.t col)) (x.t col) key val with
              | .ok m => Out.ok (⟨x.w.withHeap (x.w.heap.set col (.map (Map.entries m))), setTable x.t col m⟩ : TWorld) ()
              | .err => .err x
              | _ => .ub
            | _ => .ub) = Out.ok (⟨x.w.withHeap (x.w.heap.set col (.map (Map.entries m))), setTable x.t col m⟩ : TWorld) () := by
        have hhk := hash_key (fuel := (std B).fuel) ho ha hB.fuel
        rw [hhk, h1, ho]
        cases o <;> first | (cases ha; done) | rfl
      refine (congrArg (fun y => Refine.ORef Rt y (insertObj (std B) col key val x.w)) hT).mpr ?_
      rw [hi, hent]
      refine ⟨_, rfl, rfl, ?_⟩
      intro r fs hr
      have hs := map_ge hcol
      have hr : (x.w.withHeap (x.w.heap.set col (.map (Map.Spec.insert (keyAt x.w.heap) es key val)))).heap[r]? = some (.map fs) := hr
      have hkeys : ∀ (r : Ref) (o : Obj), x.w.heap[r]? = some o → isAtom o = true →
          (x.w.withHeap (x.w.heap.set col (.map (Map.Spec.insert (keyAt x.w.heap) es key val)))).heap[r]? = some o := by
        intro r o hro hoa
        rw [heap_set hs]
        by_cases q : col = r
        · subst q
          rw [hcol] at hro
          cases hro
          cases hoa
        · rwa [List.getElem?_set_ne q]
      show HoldsAt (x.w.withHeap (x.w.heap.set col (.map (Map.Spec.insert (keyAt x.w.heap) es key val)))).heap
        (setTable x.t col m r) fs
      unfold setTable
      by_cases q : r = col
      · subst q
        rw [heap_set hs, List.getElem?_set_self (get_lt hcol)] at hr
        cases hr
        rw [if_pos rfl]
        exact h2.keys hkeys
      · rw [if_neg q]
        rw [heap_set hs, List.getElem?_set_ne (Ne.symm q)] at hr
        exact (ht r fs hr).keys hkeys
  · have h := hother fun es q => hmap ⟨es, q⟩
    unfold insertT
    split
    · rename_i es q; exact absurd ⟨es, q⟩ hmap
    · exact h

theorem after_one {h : List Obj} {o : Obj} {r : Nat} (hlt : ¬ r < h.length) (q : r ≠ h.length) : (h ++ [o]).length ≤ r := by
  rw [List.length_append, List.length_singleton]
  omega

theorem newMapT_ref (num : Int) (x : TWorld) (w : World) (hr : Rt x w) :
    Refine.ORef Rt (newMapT num x) (mk w (.map [])) := by
  obtain ⟨rfl, ht⟩ := hr
  obtain ⟨m, e, h1, h2, h3, -⟩ := Map.newMap_spec (K := Ref) (V := Ref) num
  unfold newMapT
  rw [h1 _ (Nat.lt_succ_self _)]
  refine ⟨_, rfl, rfl, ?_⟩
  intro r es hr
  have hr : (x.w.alloc (.map [])).1.heap[r]? = some (.map es) := hr
  rw [alloc_heap] at hr
  have hkeys : ∀ (r : Ref) (o : Obj), x.w.heap[r]? = some o → isAtom o = true → (x.w.alloc (.map [])).1.heap[r]? = some o := by
    intro r o hro _
    rw [alloc_heap, List.getElem?_append_left (get_lt hro)]
    exact hro
  show HoldsAt (x.w.alloc (.map [])).1.heap (setTable x.t (x.w.alloc (.map [])).2 m r) es
  unfold setTable
  by_cases q : r = (x.w.alloc (.map [])).2
  · rw [if_pos q]
    have q : r = x.w.heap.length := q
    subst q
    have hl : (x.w.heap ++ [Obj.map []])[x.w.heap.length]? = some (Obj.map []) := List.getElem?_concat_length
    rw [hl] at hr
    cases hr
    exact ⟨⟨e, Map.holds_new _ _ h2 h3⟩, nofun⟩
  · rw [if_neg q]
    have q : r ≠ x.w.heap.length := q
    by_cases hlt : r < x.w.heap.length
    · rw [List.getElem?_append_left hlt] at hr
      exact (ht r es hr).keys hkeys
    · rw [List.getElem?_eq_none (after_one hlt q)] at hr
      cases hr

theorem searchInT_ref (hB : Tame B) (key : Ref) : ∀ (ls : List (Option Ref)) (x : TWorld) (w : World), Rt x w →
    Refine.ORef Rt (searchInT (std B) true key ls x) (searchIn (std B) key ls w)
  | [], x, w, hr => ⟨_, rfl, hr⟩
  | none :: ls, x, w, hr => searchInT_ref hB key ls x w hr
  | some l :: ls, x, w, hr => by
    unfold searchInT searchIn
    have : selFuel w = selFuel x.w := by rw [hr.1]
    rw [this]
    refine bind_ref (selectT_ref hB _ l key x w hr) fun v x w hr => ?_
    cases v with
    | some r => exact ⟨_, rfl, hr⟩
    | none => exact searchInT_ref hB key ls x w hr

theorem Rt.str {x : TWorld} {w : World} (hr : Rt x w) (s : Str.Str) : Rt (strT s x) (w.alloc (.str s)).1 := by
  obtain ⟨rfl, ht⟩ := hr
  exact ⟨rfl, TH.keep ht (Keep.alloc _ (by exact nofun))⟩

theorem isTypeT_ref (hB : Tame B) {x : TWorld} (ht : TH x) : ∀ (fuel : Nat) (e : Bool) (t v : Nat),
    isTypeT (std B) true x fuel e t v = .ub ∨
      isTypeT (std B) true x fuel e t v = Graph.isTypeOf (std B).hit x.w.heap fuel e t v
  | 0, _, _, _ => .inr rfl
  | fuel + 1, e, t, v => by
    rw [isTypeT, Graph.isTypeOf]
    cases rd x.w.heap t with
    | ok ot =>
      rw [Exec.bind_ok, Exec.bind_ok]
      cases hv : rd x.w.heap v with
      | ok ov =>
        rw [Exec.bind_ok, Exec.bind_ok]
        unfold typeBodyT
        split
        · rename_i es fs
          exact entriesOf_watched (isTypeT_ref hB ht fuel)
            (fun k e => lookT_ref (C := std B) hB.fuel hB.hit (ht v _ (rd_ok_iff.mp hv)) e) es e
        · rename_i h
          exact typeBody_watched _ (isTypeT_ref hB ht fuel) e v _ _ fun es fs h1 h2 => h es fs h1 h2
      | _ => exact .inr rfl
    | _ => exact .inr rfl

theorem isTypeIT_ref (hB : Tame B) (t v : Ref) (x : TWorld) (w : World) (hr : Rt x w) :
    Refine.ORef Rt (isTypeIT (std B) true t v x) ((objects (std B)).isType t v w) := by
  obtain ⟨rfl, ht⟩ := hr
  unfold isTypeIT
  rcases isTypeT_ref hB ht (std B).fuel x.w.err t v with h | h
  · rw [h]; trivial
  · rw [h]
    show Refine.ORef Rt _ ((outOf x.w (Graph.isTypeOf (std B).hit x.w.heap (std B).fuel x.w.err t v)).bind _)
    cases Graph.isTypeOf (std B).hit x.w.heap (std B).fuel x.w.err t v with
    | ok r => exact ⟨_, rfl, rfl, TH.keep ht (Keep.same rfl)⟩
    | err => exact ⟨_, rfl, rfl, ht⟩
    | _ => trivial

theorem str_kept (s : Name) (w : World) : Kept w ((objects (std B)).str s w) :=
  Kept.bind (Kept.outOf w _) fun s u _ => Kept.mk u (by exact nofun)

theorem un_kept (o : UnOp) (a : Ref) (w : World) : Kept w ((objects (std B)).un o a w) := by
  show Kept w (unObj o a w)
  unfold unObj
  split
  · exact Kept.ok w _
  · exact Kept.mk w (by exact nofun)
  · split
    · exact Kept.bind (Kept.outOf w _) fun r u _ => Kept.mk u (by cases r <;> exact nofun)
    · trivial
  · split
    · exact Kept.ok w _
    · exact Keep.refl w
    · trivial

theorem bin_kept (o : BinOp) (a b : Ref) (w : World) : Kept w ((objects (std B)).bin o a b w) := by
  show Kept w (binObj (std B) o a b w)
  unfold binObj
  split
  · exact Kept.mk w (by exact nofun)
  · exact Kept.bind (Kept.outOf w _) fun r u _ => Kept.ok u _
  · exact Kept.bind (Kept.outOf w _) fun r u _ => Kept.ok u _
  · split
    · split
      · exact Kept.bind (Kept.outOf w _) fun r u _ => Kept.mk u (by cases r <;> exact nofun)
      · exact Kept.bind (Kept.outOf w _) fun r u _ => Kept.ok u _
      · exact Kept.bind (Kept.outOf w _) fun r u _ => Kept.mk u (by cases r <;> exact nofun)
    · trivial

theorem asBool_kept (a : Ref) (w : World) : Kept w ((objects (std B)).asBool a w) := by
  show Kept w (match w.heap[a]? with
    | some (.bool b) => .ok w b
    | some _ => .err w
    | none => .ub)
  split
  · exact Kept.ok w _
  · exact Keep.refl w
  · trivial

theorem newFunc_kept (c : Option Ref) (l : Ref) (w : World) : Kept w ((objects (std B)).newFunc c l w) := by
  show Keep w (newFunc c l w).1
  unfold newFunc newClosure
  refine ((Keep.alloc w (o := .opaque .closure) (by decide)).trans (Keep.same rfl)).trans ?_
  exact (Keep.alloc _ (o := .opaque .func) (by decide)).trans (Keep.same rfl)

theorem callee_kept (f : Ref) (w : World) : Kept w ((objects (std B)).callee f w) := by
  show Kept w (calleeOf f w)
  unfold calleeOf
  split
  · split
    · exact Kept.ok w _
    · trivial
  · split
    · exact Kept.ok w _
    · trivial
  · exact Kept.ok w _
  · trivial

/-- The watched layer does what the layer does in which maps are lists of entries. -/
theorem tables_ref (hB : Tame B) : Refine.LRef Rt (tables (std B) true) (objects (std B)) where
  none := rfl
  tru := rfl
  fls := rfl
  pending x w h := by rw [← h.1]; rfl
  int i x w h := up_ref (f := (objects (std B)).int i) h (Kept.mk w (o := .int i) (by intro q; cases q))
  float i x w h := up_ref (f := (objects (std B)).float i) h (Kept.mk w (o := .float i) (by intro q; cases q))
  str s x w h := up_ref h (str_kept s w)
  un o a x w h := up_ref h (un_kept o a w)
  bin o a b x w h := up_ref h (bin_kept o a b w)
  asBool a x w h := up_ref h (asBool_kept a w)
  isNone a x w h := up_ref h (Kept.bind (kindOf_kept a w) fun _ u _ => Kept.ok u _)
  isType a b x w h := isTypeIT_ref hB a b x w h
  newList n x w h := up_ref (f := (objects (std B)).newList n) h (Kept.mk w (o := .list []) (by intro q; cases q))
  newMap n x w h := newMapT_ref n x w h
  select a b x w h := by
    obtain ⟨rfl, ht⟩ := h
    refine bind_ref (selectT_ref hB _ a b _ { x.w with err := false } ⟨rfl, TH.keep ht (Keep.same rfl)⟩) fun v u w hr => ?_
    obtain ⟨rfl, hu⟩ := hr
    exact ⟨_, rfl, rfl, TH.keep hu (Keep.same rfl)⟩
  insert a b c x w h := insertT_ref hB a b c x w h
  newScope x w h := by
    show Refine.ORef Rt (newMapT (-1) x) (mk w (.map []))
    exact newMapT_ref (-1) x w h
  setVar a n c x w h := by
    refine bind_ref (up_ref h (Kept.outOf w _)) fun s x w hr => ?_
    rw [← hr.1]
    refine insertT_ref hB a _ c _ _ ?_
    exact Rt.str ⟨rfl, hr.2⟩ s
  getVar a c n x w h := by
    refine bind_ref (up_ref h (Kept.outOf w _)) fun s x w hr => ?_
    rw [← hr.1]
    refine bind_ref (searchInT_ref hB _ _ _ _ (Rt.str ⟨rfl, hr.2⟩ s)) fun v x w hr => ?_
    cases v with
    | some r => exact ⟨_, rfl, hr⟩
    | none => exact ⟨_, rfl, hr⟩
  newFunc c l x w h := up_ref h (newFunc_kept c l w)
  callee f x w h := up_ref h (callee_kept f w)
  native id args x w h := by
    show Refine.ORef Rt (nativeT (std B) true id args x) (stdNative B id args w)
    unfold nativeT
    split
    · rename_i t v
      have h1 := isTypeIT_ref hB t v x w h
      have e : stdNative B 4 [t, v] w = ((objects (std B)).isType t v w).bind fun b w => .ok w (.done [boolRef b]) := by
        show (outOf w (Graph.isTypeOf B.hit w.heap B.fuel w.err t v)).bind _ =
          ((outOf w (Graph.isTypeOf B.hit w.heap B.fuel w.err t v)).bind _).bind _
        cases Graph.isTypeOf B.hit w.heap B.fuel w.err t v <;> rfl
      rw [e]
      exact bind_ref h1 fun b x w hr => ⟨_, rfl, hr⟩
    · exact up_ref h (stdNative_kept hB _ _ w)

end Noja.VM
