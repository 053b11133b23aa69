import Verif.VM.Move.Collect

/-!
# The state after a collection is what the collector has left in memory

`Collects` says which state of the machine follows a collection in terms of the forwarding pointers.
Here it is compared with the new space and the new roots.
-/

set_option linter.unusedVariables false
set_option linter.unusedSimpArgs false

namespace Noja.VM.Move

open Noja.Graph (Obj Kind Heap)

/-- After the collection the new space is the heap. -/
def settle : Option Gc.Ref → Option Gc.Ref
  | some (.new d) => some (.old d)
  | r => r

/-- The shapes of the objects at their new locations. -/
def Shape.moved (S : Shape) (len : Nat) (fwd : Nat → Option Nat) : Shape where
  cap r := S.cap ((backRef len fwd r).getD r)
  mapperSize r := S.mapperSize ((backRef len fwd r).getD r)
  mapper r := S.mapper ((backRef len fwd r).getD r)
  code r := S.code ((backRef len fwd r).getD r)
  rooms r := S.rooms ((backRef len fwd r).getD r)

variable {fwd : Nat → Option Nat}

theorem mapRefs_comp (f g : Option Gc.Ref → Option Gc.Ref) (o : Gc.Obj) : (o.mapRefs f).mapRefs g = o.mapRefs (fun r => g (f r)) := by
  cases o <;> simp [Gc.Obj.mapRefs]

theorem settle_gref {w : World} (F : Fwd w.dyn.length fwd) (r : Ref) :
    settle (Gc.mv fwd (gref w.heap.length r)) = gref w.heap.length (fwdRef w.heap.length fwd r) := by
  have hl := heap_length w
  by_cases h1 : r < statics.length
  · rw [fwd_static h1]
    unfold gref
    rw [if_pos h1]
    rfl
  · by_cases h2 : r < w.heap.length
    · have e : gref w.heap.length r = some (.old (r - statics.length)) := by
        unfold gref
        rw [if_neg h1, if_pos h2]
      rw [e]
      unfold fwdRef
      rw [if_neg h1, if_pos h2]
      show settle (match fwd (r - statics.length) with | some b => some (.new b) | none => some (.old (r - statics.length))) = _
      cases hf : fwd (r - statics.length) with
      | none => exact e.symm
      | some d =>
        have hd := F.new _ _ hf
        show some (Gc.Ref.old d) = gref w.heap.length (statics.length + d)
        unfold gref
        rw [if_neg (Nat.not_lt.2 (Nat.le_add_right _ _)), if_pos (by rw [hl]; exact Nat.add_lt_add_left hd _), Nat.add_sub_cancel_left]
    · have e : gref w.heap.length r = none := by
        unfold gref
        rw [if_neg h1, if_neg h2]
      rw [fwd_late (by omega) (Nat.le_of_not_lt h2), e]
      rfl

theorem settle_opt {w : World} (F : Fwd w.dyn.length fwd) (r : Option Ref) :
    settle (Gc.mv fwd (r.bind (gref w.heap.length))) = (r.map (fwdRef w.heap.length fwd)).bind (gref w.heap.length) := by
  cases r with
  | none => rfl
  | some r => exact settle_gref F r

theorem moved_length (w : World) : (movedWorld fwd w).heap.length = w.heap.length := by
  rw [heap_length, heap_length]
  unfold movedWorld
  dsimp only
  rw [List.length_map, List.length_range]

/-- An object at its new location, seen by the collector. -/
theorem gobj_moved (S : Shape) {w : World} (F : Fwd w.dyn.length fwd) {a d : Nat} (hf : fwd a = some d) (o : Obj) :
    (gobj S w (statics.length + a) o).mapRefs (fun r => settle (Gc.mv fwd r)) =
      gobj (S.moved w.heap.length fwd) (movedWorld fwd w) (statics.length + d) (renObj (fwdRef w.heap.length fwd) o) := by
  have hl := heap_length w
  have hlive : Live w.heap.length fwd (statics.length + a) := by
    refine .inr (.inr ?_)
    rw [Nat.add_sub_cancel_left, hf]
    rfl
  have hφ : fwdRef w.heap.length fwd (statics.length + a) = statics.length + d := by
    have ha := F.old _ _ hf
    unfold fwdRef
    rw [if_neg (Nat.not_lt.2 (Nat.le_add_right _ _)), if_pos (by rw [hl]; exact Nat.add_lt_add_left ha _), Nat.add_sub_cancel_left, hf]
  have hb := back_fwd F hl hlive
  rw [hφ] at hb
  have e1 : ∀ {β : Type} (f : Ref → β), f ((backRef w.heap.length fwd (statics.length + d)).getD (statics.length + d)) =
      f (statics.length + a) := by
    intro β f
    rw [hb]
    rfl
  cases o with
  | list l =>
    show Gc.Obj.list (S.cap (statics.length + a)) ((l.map (gref w.heap.length)).map _) =
      .list (S.cap ((backRef w.heap.length fwd (statics.length + d)).getD (statics.length + d)))
        ((l.map (fwdRef w.heap.length fwd)).map (gref (movedWorld fwd w).heap.length))
    rw [e1 S.cap, moved_length, List.map_map, List.map_map]
    congr 1
    exact List.map_congr_left fun r _ => settle_gref F r
  | map es =>
    show Gc.Obj.map (S.mapperSize (statics.length + a)) (S.mapper (statics.length + a)) ((es.map _).map _) =
      .map (S.mapperSize ((backRef w.heap.length fwd (statics.length + d)).getD (statics.length + d)))
        (S.mapper ((backRef w.heap.length fwd (statics.length + d)).getD (statics.length + d)))
        ((es.map fun e => (fwdRef w.heap.length fwd e.1, fwdRef w.heap.length fwd e.2)).map
          fun e => (gref (movedWorld fwd w).heap.length e.1, gref (movedWorld fwd w).heap.length e.2))
    rw [e1 S.mapperSize, e1 S.mapper, moved_length, List.map_map, List.map_map]
    congr 1
    refine List.map_congr_left fun e _ => ?_
    exact Prod.ext (settle_gref F e.1) (settle_gref F e.2)
  | nullable x =>
    show Gc.Obj.nullable _ = .nullable (gref (movedWorld fwd w).heap.length (fwdRef w.heap.length fwd x))
    rw [moved_length]
    exact congrArg _ (settle_gref F x)
  | sum x y =>
    show Gc.Obj.sum (settle (Gc.mv fwd (gref w.heap.length x))) (settle (Gc.mv fwd (gref w.heap.length y))) =
      .sum (gref (movedWorld fwd w).heap.length (fwdRef w.heap.length fwd x))
        (gref (movedWorld fwd w).heap.length (fwdRef w.heap.length fwd y))
    rw [moved_length, settle_gref F x, settle_gref F y]
  | «opaque» k =>
    cases k with
    | closure =>
      have hc : (movedWorld fwd w).clos (statics.length + d) = (w.clos (statics.length + a)).map fun x =>
          (x.1.map (fwdRef w.heap.length fwd), fwdRef w.heap.length fwd x.2) := by
        show ((backRef w.heap.length fwd (statics.length + d)).bind w.clos).map _ = _
        rw [hb]
        rfl
      show _ = gobj (S.moved w.heap.length fwd) (movedWorld fwd w) (statics.length + d) (.opaque .closure)
      unfold gobj
      dsimp only
      rw [hc, moved_length]
      cases w.clos (statics.length + a) with
      | none => rfl
      | some x =>
        show Gc.Obj.closure (settle (Gc.mv fwd (x.1.bind (gref w.heap.length)))) (settle (Gc.mv fwd (gref w.heap.length x.2))) =
          .closure ((x.1.map (fwdRef w.heap.length fwd)).bind (gref w.heap.length)) (gref w.heap.length (fwdRef w.heap.length fwd x.2))
        rw [settle_opt F, settle_gref F]
    | func =>
      have hc : (movedWorld fwd w).fclo (statics.length + d) = (w.fclo (statics.length + a)).map (fwdRef w.heap.length fwd) := by
        show ((backRef w.heap.length fwd (statics.length + d)).bind w.fclo).map _ = _
        rw [hb]
        rfl
      show Gc.Obj.func (S.code (statics.length + a)) (settle (Gc.mv fwd ((w.fclo (statics.length + a)).bind (gref w.heap.length)))) =
        .func (S.code ((backRef w.heap.length fwd (statics.length + d)).getD (statics.length + d)))
          (((movedWorld fwd w).fclo (statics.length + d)).bind (gref (movedWorld fwd w).heap.length))
      rw [e1 S.code, hc, moved_length, settle_opt F]
    | nfunc => exact congrArg Gc.Obj.native (e1 S.code).symm
    | smap => exact congrArg Gc.Obj.smap (e1 S.code).symm
    | dir => exact congrArg Gc.Obj.dir (e1 S.code).symm
    | _ => exact congrArg Gc.Obj.file (e1 S.code).symm
  | int v => rfl
  | float v => rfl
  | str v => rfl
  | buffer v => exact congrArg (fun c => Gc.Obj.buffer c 0 v.length) (e1 S.code).symm
  | type k => exact congrArg Gc.Obj.file (e1 S.code).symm
  | none => exact congrArg Gc.Obj.file (e1 S.code).symm
  | bool k => exact congrArg Gc.Obj.file (e1 S.code).symm
  | any => exact congrArg Gc.Obj.file (e1 S.code).symm

/-- After a collection the machine goes on with what the collector has put into the new space and
with the roots it has left behind. -/
theorem collected (S : Shape) (b : Option Ref) (s : St World) {size n : Nat} {rs : List (Option Gc.Ref)} {g : Gc.GS}
    (hroom : ∀ a, Gc.Reach (gheap S s.w) (roots b s) a → ∀ o rooms, (gheap S s.w)[a]? = some (o, rooms) → Gc.RoomOk o.exts rooms)
    (hn : (gheap S s.w).length < n) (hc : Gc.collectAll (gheap S s.w) n (roots b s) (Gc.start size) = .ok (rs, g)) (hf : g.failed = false) :
    rs.map settle = roots (b.map (fwdRef s.w.heap.length g.fwd)) (movedState g.fwd s) ∧
    ∀ d, d < g.new.length →
      (g.new[d]?).map (Gc.Obj.mapRefs settle) =
        ((movedWorld g.fwd s.w).dyn[d]?).map (gobj (S.moved s.w.heap.length g.fwd) (movedWorld g.fwd s.w) (statics.length + d)) := by
  obtain ⟨rs2, g2, e2, -, hwf, hd⟩ := Gc.after (valid S b s) hroom size n hn
  rw [hc] at e2
  cases e2
  obtain ⟨h1, -, h3⟩ := hd hf
  have F : Fwd s.w.dyn.length g.fwd := by
    have := Fwd.ofWF hwf
    rw [gheap_length] at this
    exact this
  constructor
  · rw [h1, List.map_map]
    unfold roots
    rw [List.map_cons, List.map_append]
    show _ = (b.map (fwdRef s.w.heap.length g.fwd)).bind (gref (movedWorld g.fwd s.w).heap.length) ::
      ((s.frames.map (movedFrame (fwdRef s.w.heap.length g.fwd))).flatMap (frameRoots (movedWorld g.fwd s.w).heap.length) ++
        (s.stack.map (fwdRef s.w.heap.length g.fwd)).map (gref (movedWorld g.fwd s.w).heap.length))
    rw [moved_length]
    have e1 : (s.stack.map (gref s.w.heap.length)).map (settle ∘ Gc.mv g.fwd) =
        (s.stack.map (fwdRef s.w.heap.length g.fwd)).map (gref s.w.heap.length) := by
      rw [List.map_map, List.map_map]
      exact List.map_congr_left fun r _ => settle_gref F r
    have e2 : ∀ l : List Frame, (l.flatMap (frameRoots s.w.heap.length)).map (settle ∘ Gc.mv g.fwd) =
        (l.map (movedFrame (fwdRef s.w.heap.length g.fwd))).flatMap (frameRoots s.w.heap.length) := by
      intro l
      induction l with
      | nil => rfl
      | cons f l ih =>
        rw [List.flatMap_cons, List.map_append, ih, List.map_cons, List.flatMap_cons]
        congr 1
        cases f with
        | normal f =>
          show [settle (Gc.mv g.fwd (gref s.w.heap.length f.locals)), settle (Gc.mv g.fwd (f.closure.bind (gref s.w.heap.length)))] =
            [gref s.w.heap.length (fwdRef s.w.heap.length g.fwd f.locals),
              (f.closure.map (fwdRef s.w.heap.length g.fwd)).bind (gref s.w.heap.length)]
          rw [settle_gref F, settle_opt F]
        | native k => rfl
    rw [e1, e2]
    congr 1
    exact settle_opt F b
  · intro d hdl
    obtain ⟨a, o, rooms, q1, q2, q3, -⟩ := h3 d hdl
    rw [gheap_get] at q2
    cases ho : s.w.dyn[a]? with
    | none => rw [ho] at q2; cases q2
    | some x =>
      rw [ho] at q2
      cases q2
      rw [q3]
      have hlive : Live s.w.heap.length g.fwd (statics.length + a) := by
        refine .inr (.inr ?_)
        rw [Nat.add_sub_cancel_left, q1]
        rfl
      have hφ : fwdRef s.w.heap.length g.fwd (statics.length + a) = statics.length + d := by
        have ha := F.old _ _ q1
        unfold fwdRef
        rw [if_neg (Nat.not_lt.2 (Nat.le_add_right _ _)), if_pos (by rw [heap_length]; exact Nat.add_lt_add_left ha _), Nat.add_sub_cancel_left, q1]
      have hm := moved_get F hlive
      rw [hφ, heap_dyn, heap_dyn, ho] at hm
      rw [hm, Gc.fill_map]
      show some ((Gc.Obj.mapRefs (Gc.mv g.fwd) _).mapRefs settle) = some _
      rw [mapRefs_comp, gobj_moved S F q1]

end Noja.VM.Move
