import Verif.VM.Move.Opaque
import Verif.VM.Natives
import Verif.VM.Book.Inv

/-!
# The operations of the interpreter do not depend on where objects are
-/

set_option linter.unusedVariables false
set_option linter.unusedSimpArgs false

namespace Noja.VM.Move

open Noja.Graph (Obj Kind Heap Text text)
open Noja.VM.Book (All2)

variable {α β γ δ : Type} {ρ : Ref → Ref → Prop} {N : Nat}

/-- The same world under other names. -/
structure WR (ρ : Ref → Ref → Prop) (N : Nat) (w v : World) : Prop where
  heap : HR ρ N w.heap v.heap
  err : w.err = v.err
  clos : ∀ a b, ρ a b → Opt2 (fun x y => Opt2 ρ x.1 y.1 ∧ ρ x.2 y.2) (w.clos a) (v.clos b)
  fclo : ∀ a b, ρ a b → Opt2 ρ (w.fclo a) (v.fclo b)
  nat : ∀ a b, ρ a b → w.nat a = v.nat b
  tab : ∀ a b, ρ a b → w.tab a = v.tab b
  out : w.out = v.out
  /-- only closures and functions of the second world have the contents of closures and functions -/
  closed : ∀ r p, v.clos r = some p → v.heap[r]? = some (.opaque .closure)
  fclosed : ∀ r p, v.fclo r = some p → v.heap[r]? = some (.opaque .func)

def OutR {W V : Type} (R : W → V → Prop) (Q : α → β → Prop) : Out W α → Out V β → Prop
  | .ok w a, .ok v b => R w v ∧ Q a b
  | .err w, .err v => R w v
  | .ub, .ub => True
  | _, _ => False

theorem OutR.bind {W V : Type} {R : W → V → Prop} {Q : α → β → Prop} {P : γ → δ → Prop} {x : Out W α} {y : Out V β}
    {f : α → W → Out W γ} {g : β → V → Out V δ} (h : OutR R Q x y)
    (hf : ∀ a b w v, R w v → Q a b → OutR R P (f a w) (g b v)) : OutR R P (x.bind f) (y.bind g) := by
  cases x <;> cases y <;> first | exact hf _ _ _ _ h.1 h.2 | exact h | exact h.elim

variable {w v : World}

theorem WR.outOf (hw : WR ρ N w v) {Q : α → β → Prop} {x : Exec α} {y : Exec β} (h : ExR Q x y) :
    OutR (WR ρ N) Q (outOf w x) (outOf v y) := by
  cases x <;> cases y <;> first | exact ⟨hw, h⟩ | exact hw | exact h | exact h.elim

theorem WR.alloc (R : Ren ρ N) (hw : WR ρ N w v) {o o' : Obj} (ho : ObjR ρ o o') : WR ρ N (w.alloc o).1 (v.alloc o').1 where
  heap := by rw [alloc_heap, alloc_heap]; exact hw.heap.append R ho
  err := hw.err
  clos := hw.clos
  fclo := hw.fclo
  nat := hw.nat
  tab := hw.tab
  out := hw.out
  closed r p h := by rw [alloc_heap]; exact Opq.append _ _ r _ (hw.closed r p h)
  fclosed r p h := by rw [alloc_heap]; exact Opq.append _ _ r _ (hw.fclosed r p h)

theorem WR.next (R : Ren ρ N) (hw : WR ρ N w v) (o o' : Obj) : ρ (w.alloc o).2 (v.alloc o').2 := hw.heap.next R

theorem WR.make (R : Ren ρ N) (hw : WR ρ N w v) {o o' : Obj} (ho : ObjR ρ o o') : OutR (WR ρ N) ρ (VM.mk w o) (VM.mk v o') :=
  ⟨hw.alloc R ho, hw.next R o o'⟩

theorem WR.withErr (hw : WR ρ N w v) {e e' : Bool} (he : e = e') : WR ρ N { w with err := e } { v with err := e' } :=
  ⟨hw.heap, he, hw.clos, hw.fclo, hw.nat, hw.tab, hw.out, hw.closed, hw.fclosed⟩

theorem static_rel (R : Ren ρ N) {i : Nat} {o : Obj} (h : statics[i]? = some o) : ObjR ρ o o := by
  have : o ∈ statics := List.mem_of_getElem? h
  unfold statics at this
  rcases List.mem_append.1 this with q | q
  · simp only [List.mem_cons, List.not_mem_nil, or_false] at q
    rcases q with q | q | q <;> rw [q]
    · exact .none
    · exact .bool _
    · exact .bool _
  · obtain ⟨k, _, rfl⟩ := List.mem_map.1 q
    exact .type k

theorem Ren.small (R : Ren ρ N) {a b : Ref} (r : ρ a b) : a < statics.length ↔ b < statics.length := by
  constructor
  · intro h
    rw [← R.one a a b (R.stat a h) r]
    exact h
  · intro h
    rw [← R.two b a b (R.stat b h) r]
    exact h

theorem withHeap_opq {h : Heap} (hq : Opq v.heap h) : Opq v.heap (v.withHeap h).heap := by
  intro r k e
  have hr : ¬ r < statics.length := by
    intro hr
    unfold World.heap at e
    rw [List.getElem?_append_left hr] at e
    have : Obj.opaque k ∈ statics := List.mem_of_getElem? e
    unfold statics at this
    rcases List.mem_append.1 this with q | q
    · simp at q
    · obtain ⟨k, _, q⟩ := List.mem_map.1 q
      cases q
  have hr := Nat.le_of_not_lt hr
  unfold World.heap World.withHeap
  rw [List.getElem?_append_right hr, List.getElem?_drop, Nat.add_sub_cancel' hr]
  exact hq r k e

theorem WR.withHeap (R : Ren ρ N) (hN : statics.length ≤ N) (hw : WR ρ N w v) {h h' : Heap} (hh : HR ρ N h h') (hq : Opq v.heap h') :
    WR ρ N (w.withHeap h) (v.withHeap h') where
  heap :=
    { len := by
        unfold World.heap World.withHeap
        rw [List.length_append, List.length_append, List.length_drop, List.length_drop, hh.len]
      le := by
        unfold World.heap World.withHeap
        rw [List.length_append, List.length_drop]
        have := hh.le
        omega
      obj := fun a b r => by
        unfold World.heap World.withHeap
        by_cases ha : a < statics.length
        · have hb := R.one a a b (R.stat a ha) r
          subst hb
          rw [List.getElem?_append_left ha, List.getElem?_append_left ha]
          cases hs : statics[a]? with
          | none => trivial
          | some o => exact static_rel R hs
        · have hb : ¬ b < statics.length := fun q => ha ((R.small r).2 q)
          have ha := Nat.le_of_not_lt ha
          have hb := Nat.le_of_not_lt hb
          rw [List.getElem?_append_right ha, List.getElem?_append_right hb, List.getElem?_drop, List.getElem?_drop,
            Nat.add_sub_cancel' ha, Nat.add_sub_cancel' hb]
          exact hh.obj a b r }
  err := hw.err
  clos := hw.clos
  fclo := hw.fclo
  nat := hw.nat
  tab := hw.tab
  out := hw.out
  closed r p h := withHeap_opq hq r _ (hw.closed r p h)
  fclosed r p h := withHeap_opq hq r _ (hw.fclosed r p h)

/-! ## The configuration -/

def NResR (ρ : Ref → Ref → Prop) : NRes → NRes → Prop
  | .done l, .done l' => All2 ρ l l'
  | .load p, .load p' => p = p'
  | _, _ => False

structure CR (ρ : Ref → Ref → Prop) (N : Nat) (C D : Config) : Prop where
  hit : HitR ρ C.hit D.hit
  arith : C.arith = D.arith
  fuel : C.fuel = D.fuel
  builtins : Opt2 ρ C.builtins D.builtins
  slot : ∀ t n, Opt2 (fun f g => ∀ w v, WR ρ N w v → OutR (WR ρ N) ρ (f w) (g v)) (C.slot t n) (D.slot t n)
  native : ∀ id a b w v, All2 ρ a b → WR ρ N w v → OutR (WR ρ N) (NResR ρ) (C.native id a w) (D.native id b v)
  selectX : ∀ o o' k k' w v, ObjR ρ o o' → ρ k k' → WR ρ N w v → OutR (WR ρ N) (Opt2 ρ) (C.selectX o k w) (D.selectX o' k' v)
  insertX : ∀ o o' a a' b b' c c' w v, w.heap[a]? = some o → v.heap[a']? = some o' → ObjR ρ o o' → ρ a a' → ρ b b' → ρ c c' → WR ρ N w v →
    OutR (WR ρ N) (fun _ _ => True) (C.insertX o a b c w) (D.insertX o' a' b' c' v)

variable {C D : Config}

theorem WR.obj (hw : WR ρ N w v) {a b : Ref} (r : ρ a b) :
    (w.heap[a]? = none ∧ v.heap[b]? = none) ∨ ∃ o o', w.heap[a]? = some o ∧ v.heap[b]? = some o' ∧ ObjR ρ o o' := by
  have := hw.heap.obj a b r
  cases ha : w.heap[a]? with
  | none =>
    cases hb : v.heap[b]? with
    | none => exact .inl ⟨rfl, rfl⟩
    | some o => rw [ha, hb] at this; exact this.elim
  | some o =>
    cases hb : v.heap[b]? with
    | none => rw [ha, hb] at this; exact this.elim
    | some o' => rw [ha, hb] at this; exact .inr ⟨o, o', rfl, rfl, this⟩

theorem intKey_rel (hw : WR ρ N w v) {a b : Ref} (r : ρ a b) : intKey w.heap a = intKey v.heap b := by
  unfold intKey
  rcases hw.obj r with ⟨h1, h2⟩ | ⟨o, o', h1, h2, ho⟩
  · rw [h1, h2]
  · rw [h1, h2]
    cases ho <;> rfl

theorem textOf_rel (hw : WR ρ N w v) {a b : Ref} (r : ρ a b) : textOf w.heap a = textOf v.heap b := by
  unfold textOf
  rcases hw.obj r with ⟨h1, h2⟩ | ⟨o, o', h1, h2, ho⟩
  · rw [h1, h2]
  · rw [h1, h2]
    cases ho <;> rfl

theorem selectObj_rel (R : Ren ρ N) (hC : CR ρ N C D) : ∀ (fuel : Nat) (col key col' key' : Ref) (w v : World), WR ρ N w v →
    ρ col col' → ρ key key' → OutR (WR ρ N) (Opt2 ρ) (selectObj C fuel col key w) (selectObj D fuel col' key' v)
  | 0, _, _, _, _, _, _, _, _, _ => trivial
  | fuel + 1, col, key, col', key', w, v, hw, rc, rk => by
    unfold selectObj
    rcases hw.obj rc with ⟨h1, h2⟩ | ⟨o, o', h1, h2, ho⟩
    · rw [h1, h2]; trivial
    · rw [h1, h2]
      cases ho with
      | map he =>
        dsimp only
        rw [hC.fuel, hash_rel hw.heap _ _ _ rk, hw.err]
        cases Graph.hash v.heap D.fuel key' with
        | ok _ =>
          dsimp only
          have hl := lookup_rel hC.hit hw.heap rk he v.err
          revert hl
          cases Graph.lookup C.hit w.heap key _ v.err <;> cases Graph.lookup D.hit v.heap key' _ v.err <;>
            first | exact fun q => ⟨hw.withErr q.2, q.1⟩ | exact fun q => q.elim | exact fun q => trivial
        | _ => trivial
      | list hl =>
        dsimp only
        rw [intKey_rel hw rk]
        cases intKey v.heap key' with
        | none => exact ⟨hw.withErr rfl, trivial⟩
        | some i =>
          dsimp only
          rw [hl.length]
          split
          · exact ⟨hw.withErr rfl, trivial⟩
          · exact ⟨hw, all2_get? hl _⟩
      | str s =>
        dsimp only
        rw [intKey_rel hw rk]
        cases Str.select s (intKey v.heap key') with
        | ok t => exact ⟨hw.alloc R (.str t), hw.next R _ _⟩
        | err => exact ⟨hw.withErr rfl, trivial⟩
        | _ => trivial
      | «opaque» k =>
        cases k with
        | closure =>
          dsimp only
          have hc := hw.clos col col' rc
          revert hc
          cases w.clos col with
          | none =>
            cases v.clos col' with
            | none => exact fun _ => trivial
            | some _ => exact fun q => q.elim
          | some x =>
            cases v.clos col' with
            | none => exact fun q => q.elim
            | some y =>
              obtain ⟨prev, vars⟩ := x
              obtain ⟨prev', vars'⟩ := y
              intro q
              refine (selectObj_rel R hC fuel vars key vars' key' w v hw q.2 rk).bind fun a b w v hw hab => ?_
              rw [hw.err]
              by_cases he : v.err = true
              · rw [if_pos he, if_pos he]; exact ⟨hw, trivial⟩
              · rw [if_neg he, if_neg he]
                cases a with
                | some a =>
                  cases b with
                  | none => exact hab.elim
                  | some b => exact ⟨hw, hab⟩
                | none =>
                  cases b with
                  | some b => exact hab.elim
                  | none =>
                    have q1 : Opt2 ρ prev prev' := q.1
                    cases prev with
                    | none =>
                      cases prev' with
                      | none => exact ⟨hw, trivial⟩
                      | some _ => exact q1.elim
                    | some p =>
                      cases prev' with
                      | none => exact q1.elim
                      | some p' => exact selectObj_rel R hC fuel p key p' key' w v hw q1 rk
        | smap =>
          dsimp only
          rw [textOf_rel hw rk]
          cases textOf v.heap key' with
          | none => exact ⟨hw, trivial⟩
          | some n =>
            dsimp only
            rw [hw.tab col col' rc]
            have hs := hC.slot (v.tab col') n
            revert hs
            cases C.slot (v.tab col') n with
            | none =>
              cases D.slot (v.tab col') n with
              | none => exact fun _ => ⟨hw, trivial⟩
              | some _ => exact fun q => q.elim
            | some f =>
              cases D.slot (v.tab col') n with
              | none => exact fun q => q.elim
              | some g => exact fun q => (q w v hw).bind fun a b w v hw hab => ⟨hw, hab⟩
        | _ => exact hC.selectX _ _ _ _ _ _ (.opaque _) rk hw
      | type k => exact hC.selectX _ _ _ _ _ _ (.type k) rk hw
      | none => exact hC.selectX _ _ _ _ _ _ .none rk hw
      | bool k => exact hC.selectX _ _ _ _ _ _ (.bool k) rk hw
      | int k => exact hC.selectX _ _ _ _ _ _ (.int k) rk hw
      | float k => exact hC.selectX _ _ _ _ _ _ (.float k) rk hw
      | buffer k => exact hC.selectX _ _ _ _ _ _ (.buffer k) rk hw
      | nullable k => exact hC.selectX _ _ _ _ _ _ (.nullable k) rk hw
      | sum k l => exact hC.selectX _ _ _ _ _ _ (.sum k l) rk hw
      | any => exact hC.selectX _ _ _ _ _ _ .any rk hw

theorem selFuel_rel (hw : WR ρ N w v) : selFuel w = selFuel v := congrArg (· + 1) hw.heap.len

theorem insertObj_rel (R : Ren ρ N) (hN : statics.length ≤ N) (hC : CR ρ N C D) {col key val col' key' val' : Ref} (hw : WR ρ N w v)
    (rc : ρ col col') (rk : ρ key key') (rv : ρ val val') :
    OutR (WR ρ N) (fun _ _ => True) (insertObj C col key val w) (insertObj D col' key' val' v) := by
  unfold insertObj
  have hmi : OutR (WR ρ N) (fun _ _ => True)
      ((outOf w (Graph.mapInsert C.hit (fun h => Graph.hash h C.fuel) (Graph.copy C.hit C.fuel) w.heap col key val)).bind
        fun h w => .ok (w.withHeap h) ())
      ((outOf v (Graph.mapInsert D.hit (fun h => Graph.hash h D.fuel) (Graph.copy D.hit D.fuel) v.heap col' key' val')).bind
        fun h w => .ok (w.withHeap h) ()) := by
    rw [hC.fuel]
    have hm := mapInsert_rel R hC.hit (fun h h' a b hr r => hash_rel hr D.fuel a b r) (copy_rel R hC.hit D.fuel) hw.heap rc rk rv
    have hq := mapInsert_opq (hit := D.hit) (hs := fun h => Graph.hash h D.fuel) (copy_opq (hit := D.hit) D.fuel) v.heap col' key' val'
    revert hm hq
    cases Graph.mapInsert C.hit (fun h => Graph.hash h D.fuel) (Graph.copy C.hit D.fuel) w.heap col key val <;>
      cases Graph.mapInsert D.hit (fun h => Graph.hash h D.fuel) (Graph.copy D.hit D.fuel) v.heap col' key' val' <;>
      first | exact fun q _ => q.elim | exact fun q hq => ⟨hw.withHeap R hN q hq, trivial⟩ | exact fun _ _ => hw | exact fun _ _ => trivial
  rcases hw.obj rc with ⟨h1, h2⟩ | ⟨o, o', h1, h2, ho⟩
  · rw [h1, h2]; trivial
  · rw [h1, h2]
    cases ho with
    | map he => exact hmi
    | list hl =>
      have hno : ∀ k, v.heap[col']? ≠ some (.opaque k) := by
        intro k q
        rw [h2] at q
        cases q
      dsimp only
      rw [intKey_rel hw rk, hl.length]
      cases intKey v.heap key' with
      | none => exact hw
      | some i =>
        dsimp only
        split
        · exact hw
        · split
          · exact ⟨hw.withHeap R hN (hw.heap.set R rc (.list (hl.append (all2_one rv)))) ((Opq.refl _).set _ hno), trivial⟩
          · exact ⟨hw.withHeap R hN (hw.heap.set R rc (.list (hl.set rv _))) ((Opq.refl _).set _ hno), trivial⟩
    | «opaque» k => exact hC.insertX _ _ _ _ _ _ _ _ _ _ h1 h2 (.opaque k) rc rk rv hw
    | type k => exact hC.insertX _ _ _ _ _ _ _ _ _ _ h1 h2 (.type k) rc rk rv hw
    | none => exact hC.insertX _ _ _ _ _ _ _ _ _ _ h1 h2 .none rc rk rv hw
    | bool k => exact hC.insertX _ _ _ _ _ _ _ _ _ _ h1 h2 (.bool k) rc rk rv hw
    | int k => exact hC.insertX _ _ _ _ _ _ _ _ _ _ h1 h2 (.int k) rc rk rv hw
    | float k => exact hC.insertX _ _ _ _ _ _ _ _ _ _ h1 h2 (.float k) rc rk rv hw
    | str k => exact hC.insertX _ _ _ _ _ _ _ _ _ _ h1 h2 (.str k) rc rk rv hw
    | buffer k => exact hC.insertX _ _ _ _ _ _ _ _ _ _ h1 h2 (.buffer k) rc rk rv hw
    | nullable k => exact hC.insertX _ _ _ _ _ _ _ _ _ _ h1 h2 (.nullable k) rc rk rv hw
    | sum k l => exact hC.insertX _ _ _ _ _ _ _ _ _ _ h1 h2 (.sum k l) rc rk rv hw
    | any => exact hC.insertX _ _ _ _ _ _ _ _ _ _ h1 h2 .any rc rk rv hw

theorem searchIn_rel (R : Ren ρ N) (hC : CR ρ N C D) {key key' : Ref} (rk : ρ key key') : ∀ {l l' : List (Option Ref)},
    All2 (Opt2 ρ) l l' → ∀ (w v : World), WR ρ N w v → OutR (WR ρ N) (Opt2 ρ) (searchIn C key l w) (searchIn D key' l' v)
  | [], [], _, w, v, hw => ⟨hw, trivial⟩
  | none :: l, none :: l', h, w, v, hw => searchIn_rel R hC rk h.2 w v hw
  | some a :: l, some b :: l', h, w, v, hw => by
    unfold searchIn
    rw [selFuel_rel hw]
    refine (selectObj_rel R hC _ _ _ _ _ _ _ hw h.1 rk).bind fun a b w v hw hab => ?_
    cases a <;> cases b <;> first | exact hab.elim | exact ⟨hw, hab⟩ | skip
    exact searchIn_rel R hC rk h.2 w v hw
  | none :: l, some _ :: l', h, _, _, _ => h.1.elim
  | some _ :: l, none :: l', h, _, _, _ => h.1.elim

theorem getVar_rel (R : Ren ρ N) (hC : CR ρ N C D) {l l' : Ref} {c c' : Option Ref} (n : Name) (hw : WR ρ N w v) (rl : ρ l l')
    (rc : Opt2 ρ c c') : OutR (WR ρ N) ρ (getVar C l c n w) (getVar D l' c' n v) := by
  unfold getVar
  refine (hw.outOf (ExR.eq rfl)).bind fun s s' w v hw hs => ?_
  subst hs
  refine (searchIn_rel R hC (hw.next R _ _) (l := [some l, c, C.builtins]) (l' := [some l', c', D.builtins])
    ⟨rl, rc, hC.builtins, trivial⟩ _ _ (hw.alloc R (.str s))).bind fun a b w v hw hab => ?_
  cases a <;> cases b <;> first | exact hab.elim | exact ⟨hw, hab⟩ | exact hw

theorem setVar_rel (R : Ren ρ N) (hN : statics.length ≤ N) (hC : CR ρ N C D) {l l' a a' : Ref} (n : Name) (hw : WR ρ N w v) (rl : ρ l l')
    (ra : ρ a a') : OutR (WR ρ N) (fun _ _ => True) (setVar C l n a w) (setVar D l' n a' v) := by
  unfold setVar
  refine (hw.outOf (ExR.eq rfl)).bind fun s s' w v hw hs => ?_
  subst hs
  exact insertObj_rel R hN hC (hw.alloc R (.str s)) rl (hw.next R _ _) ra

theorem boolRef_rel (R : Ren ρ N) (b : Bool) : ρ (boolRef b) (boolRef b) := by
  cases b <;> exact R.stat _ (by decide)

theorem typeRef_rel (R : Ren ρ N) (k : Kind) : ρ (typeRef k) (typeRef k) := by
  cases k <;> exact R.stat _ (by decide)

theorem objOf_rel (n : Num.Num) : ObjR ρ (objOf n) (objOf n) := by
  cases n
  · exact .int _
  · exact .float _

theorem numOf_rel {o o' : Obj} (h : ObjR ρ o o') : numOf o = numOf o' := by cases h <;> rfl

theorem binObj_rel (R : Ren ρ N) (hC : CR ρ N C D) (op : BinOp) {a b a' b' : Ref} (hw : WR ρ N w v) (ra : ρ a a') (rb : ρ b b') :
    OutR (WR ρ N) ρ (binObj C op a b w) (binObj D op a' b' v) := by
  unfold binObj
  split
  · exact hw.make R (.sum ra rb)
  · rw [compare_rel hw.heap ra rb]
    refine (hw.outOf (ExR.eq rfl)).bind fun s s' w v hw hs => ?_
    subst hs
    exact ⟨hw, boolRef_rel R _⟩
  · rw [compare_rel hw.heap ra rb]
    refine (hw.outOf (ExR.eq rfl)).bind fun s s' w v hw hs => ?_
    subst hs
    exact ⟨hw, boolRef_rel R _⟩
  · rcases hw.obj ra with ⟨h1, h2⟩ | ⟨x, x', h1, h2, hx⟩
    · rw [h1, h2]
      cases w.heap[b]? <;> cases v.heap[b']? <;> trivial
    · rw [h1, h2]
      rcases hw.obj rb with ⟨h1, h2⟩ | ⟨y, y', h1, h2, hy⟩
      · rw [h1, h2]; trivial
      · rw [h1, h2, hC.arith]
        dsimp only
        rw [numOf_rel hx, numOf_rel hy]
        split
        · refine (hw.outOf (ExR.eq rfl)).bind fun s s' w v hw hs => ?_
          subst hs
          exact hw.make R (objOf_rel s)
        · refine (hw.outOf (ExR.eq rfl)).bind fun s s' w v hw hs => ?_
          subst hs
          exact ⟨hw, boolRef_rel R _⟩
        · refine (hw.outOf (ExR.eq rfl)).bind fun s s' w v hw hs => ?_
          subst hs
          exact hw.make R (objOf_rel s)

theorem unObj_rel (R : Ren ρ N) (op : UnOp) {a a' : Ref} (hw : WR ρ N w v) (ra : ρ a a') :
    OutR (WR ρ N) ρ (unObj op a w) (unObj op a' v) := by
  unfold unObj
  split
  · exact ⟨hw, ra⟩
  · exact hw.make R (.nullable ra)
  · rcases hw.obj ra with ⟨h1, h2⟩ | ⟨x, x', h1, h2, hx⟩
    · rw [h1, h2]; trivial
    · rw [h1, h2]
      dsimp only
      rw [numOf_rel hx]
      refine (hw.outOf (ExR.eq rfl)).bind fun s s' w v hw hs => ?_
      subst hs
      exact hw.make R (objOf_rel s)
  · rcases hw.obj ra with ⟨h1, h2⟩ | ⟨x, x', h1, h2, hx⟩
    · rw [h1, h2]; trivial
    · rw [h1, h2]
      cases hx with
      | bool b => exact ⟨hw, boolRef_rel R _⟩
      | _ => exact hw

theorem kindOf_rel {a a' : Ref} (hw : WR ρ N w v) (ra : ρ a a') : OutR (WR ρ N) Eq (kindOf a w) (kindOf a' v) := by
  unfold kindOf
  rcases hw.obj ra with ⟨h1, h2⟩ | ⟨x, x', h1, h2, hx⟩
  · rw [h1, h2]; trivial
  · rw [h1, h2]; exact ⟨hw, hx.kind⟩

/-- Something new about the newest object. -/
theorem update_rel {γ : Type} {S : γ → γ → Prop} {f g : Ref → γ} (R : Ren ρ N) {c c' : Ref} (rc : ρ c c') {x y : γ} (h : ∀ a b, ρ a b → S (f a) (g b))
    (hx : S x y) : ∀ a b, ρ a b → S (if a = c then x else f a) (if b = c' then y else g b) := by
  intro a b r
  by_cases q : a = c
  · subst q
    rw [if_pos rfl, if_pos (R.one _ _ _ r rc)]
    exact hx
  · rw [if_neg q, if_neg (fun e => q (by subst e; exact R.two _ _ _ r rc))]
    exact h a b r

theorem newClosure_rel (R : Ren ρ N) {p p' : Option Ref} {l l' : Ref} (hw : WR ρ N w v) (rp : Opt2 ρ p p') (rl : ρ l l') :
    WR ρ N (newClosure p l w).1 (newClosure p' l' v).1 ∧ ρ (newClosure p l w).2 (newClosure p' l' v).2 := by
  have h := hw.alloc R (.opaque .closure)
  have hn := hw.next R (.opaque .closure) (.opaque .closure)
  refine ⟨⟨h.heap, h.err, ?_, h.fclo, h.nat, h.tab, h.out, ?_, h.fclosed⟩, hn⟩
  · exact update_rel (S := Opt2 (fun x y => Opt2 ρ x.1 y.1 ∧ ρ x.2 y.2)) (x := some (p, l)) (y := some (p', l')) R hn h.clos ⟨rp, rl⟩
  · intro r q e
    have e : (if r = (v.alloc (.opaque .closure)).2 then some (p', l') else (v.alloc (.opaque .closure)).1.clos r) = some q := e
    by_cases hr : r = (v.alloc (.opaque .closure)).2
    · show (v.alloc (.opaque .closure)).1.heap[r]? = _
      rw [alloc_heap, hr]
      show (v.heap ++ [_])[v.heap.length]? = _
      exact List.getElem?_concat_length
    · rw [if_neg hr] at e
      exact h.closed r q e

theorem newFunc_rel (R : Ren ρ N) {p p' : Option Ref} {l l' : Ref} (hw : WR ρ N w v) (rp : Opt2 ρ p p') (rl : ρ l l') :
    WR ρ N (newFunc p l w).1 (newFunc p' l' v).1 ∧ ρ (newFunc p l w).2 (newFunc p' l' v).2 := by
  obtain ⟨h1, h2⟩ := newClosure_rel R hw rp rl
  have h := h1.alloc R (.opaque .func)
  have hn := h1.next R (.opaque .func) (.opaque .func)
  refine ⟨⟨h.heap, h.err, h.clos, ?_, h.nat, h.tab, h.out, h.closed, ?_⟩, hn⟩
  · exact update_rel (S := Opt2 ρ) (x := some (newClosure p l w).2) (y := some (newClosure p' l' v).2) R hn h.fclo h2
  · intro r q e
    generalize hv : newClosure p' l' v = x at *
    have e : (if r = (x.1.alloc (.opaque .func)).2 then some x.2 else (x.1.alloc (.opaque .func)).1.fclo r) = some q := by
      have : (newFunc p' l' v).1.fclo r = some q := e
      unfold newFunc at this
      rw [hv] at this
      exact this
    have goal : (x.1.alloc (.opaque .func)).1.heap[r]? = some (.opaque .func) := by
      by_cases hr : r = (x.1.alloc (.opaque .func)).2
      · rw [alloc_heap, hr]
        show (x.1.heap ++ [_])[x.1.heap.length]? = _
        exact List.getElem?_concat_length
      · rw [if_neg hr] at e
        exact h.fclosed r q e
    have : (newFunc p' l' v).1.heap = (x.1.alloc (.opaque .func)).1.heap := by
      unfold newFunc
      rw [hv]
      rfl
    show (newFunc p' l' v).1.heap[r]? = _
    rw [this]
    exact goal

theorem selectI_rel (R : Ren ρ N) (hC : CR ρ N C D) {a b a' b' : Ref} (hw : WR ρ N w v) (ra : ρ a a') (rb : ρ b b') :
    OutR (WR ρ N) ρ (selectI C a b w) (selectI D a' b' v) := by
  unfold selectI
  rw [selFuel_rel hw]
  have he := hw.err
  refine (selectObj_rel R hC _ _ _ _ _ _ _ (hw.withErr rfl) ra rb).bind fun x y w v hw hab => ⟨hw.withErr he, ?_⟩
  cases x <;> cases y <;> first | exact hab.elim | exact hab | exact R.stat 0 (by decide)

def CalR (ρ : Ref → Ref → Prop) : Callee → Callee → Prop
  | .no, .no => True
  | .noja a, .noja b => ρ a b
  | .native i n, .native j m => i = j ∧ n = m
  | _, _ => False

theorem calleeOf_rel {a a' : Ref} (hw : WR ρ N w v) (ra : ρ a a') : OutR (WR ρ N) (CalR ρ) (calleeOf a w) (calleeOf a' v) := by
  unfold calleeOf
  rcases hw.obj ra with ⟨h1, h2⟩ | ⟨x, x', h1, h2, hx⟩
  · rw [h1, h2]; trivial
  · rw [h1, h2]
    cases hx with
    | «opaque» k =>
      cases k with
      | func =>
        dsimp only
        have := hw.fclo a a' ra
        revert this
        cases w.fclo a <;> cases v.fclo a' <;> first | exact fun q => q.elim | exact fun q => ⟨hw, q⟩ | exact fun _ => trivial
      | nfunc =>
        dsimp only
        rw [hw.nat a a' ra]
        cases v.nat a' with
        | none => trivial
        | some x => exact ⟨hw, rfl, rfl⟩
      | _ => exact ⟨hw, trivial⟩
    | _ => exact ⟨hw, trivial⟩

/-! ## The interface -/

/-- The same interface to two worlds. -/
structure LayR {W V : Type} (R : W → V → Prop) (ρ : Ref → Ref → Prop) (L : Layer W) (K : Layer V) : Prop where
  none : ρ L.none K.none
  tru : ρ L.tru K.tru
  fls : ρ L.fls K.fls
  noneType : ρ L.noneType K.noneType
  pending : ∀ w v, R w v → L.pending w = K.pending v
  int : ∀ i w v, R w v → OutR R ρ (L.int i w) (K.int i v)
  float : ∀ i w v, R w v → OutR R ρ (L.float i w) (K.float i v)
  str : ∀ i w v, R w v → OutR R ρ (L.str i w) (K.str i v)
  un : ∀ o a a' w v, R w v → ρ a a' → OutR R ρ (L.un o a w) (K.un o a' v)
  bin : ∀ o a b a' b' w v, R w v → ρ a a' → ρ b b' → OutR R ρ (L.bin o a b w) (K.bin o a' b' v)
  asBool : ∀ a a' w v, R w v → ρ a a' → OutR R Eq (L.asBool a w) (K.asBool a' v)
  typeOf : ∀ a a' w v, R w v → ρ a a' → OutR R ρ (L.typeOf a w) (K.typeOf a' v)
  isType : ∀ a b a' b' w v, R w v → ρ a a' → ρ b b' → OutR R Eq (L.isType a b w) (K.isType a' b' v)
  newList : ∀ i w v, R w v → OutR R ρ (L.newList i w) (K.newList i v)
  newMap : ∀ i w v, R w v → OutR R ρ (L.newMap i w) (K.newMap i v)
  select : ∀ a b a' b' w v, R w v → ρ a a' → ρ b b' → OutR R ρ (L.select a b w) (K.select a' b' v)
  insert : ∀ a b c a' b' c' w v, R w v → ρ a a' → ρ b b' → ρ c c' → OutR R (fun _ _ => True) (L.insert a b c w) (K.insert a' b' c' v)
  newScope : ∀ w v, R w v → OutR R ρ (L.newScope w) (K.newScope v)
  setVar : ∀ a n c a' c' w v, R w v → ρ a a' → ρ c c' → OutR R (fun _ _ => True) (L.setVar a n c w) (K.setVar a' n c' v)
  getVar : ∀ a c n a' c' w v, R w v → ρ a a' → Opt2 ρ c c' → OutR R ρ (L.getVar a c n w) (K.getVar a' c' n v)
  newFunc : ∀ c a c' a' w v, R w v → Opt2 ρ c c' → ρ a a' → OutR R ρ (L.newFunc c a w) (K.newFunc c' a' v)
  callee : ∀ a a' w v, R w v → ρ a a' → OutR R (CalR ρ) (L.callee a w) (K.callee a' v)
  native : ∀ i a a' w v, R w v → All2 ρ a a' → OutR R (NResR ρ) (L.native i a w) (K.native i a' v)

theorem objects_rel (R : Ren ρ N) (hN : statics.length ≤ N) (hC : CR ρ N C D) : LayR (WR ρ N) ρ (objects C) (objects D) where
  none := R.stat 0 (by decide)
  tru := R.stat 1 (by decide)
  fls := R.stat 2 (by decide)
  noneType := typeRef_rel R .none
  pending w v h := h.err
  int i w v h := h.make R (.int i)
  float i w v h := h.make R (.float i)
  str i w v h := (h.outOf (ExR.eq rfl)).bind fun s s' w v hw hs => by
    subst hs
    exact hw.make R (.str s)
  un o a a' w v h r := unObj_rel R o h r
  bin o a b a' b' w v h r s := binObj_rel R hC o h r s
  asBool a a' w v h r := by
    show OutR (WR ρ N) Eq (match w.heap[a]? with
      | some (.bool b) => .ok w b
      | some _ => .err w
      | none => .ub) (match v.heap[a']? with
      | some (.bool b) => .ok v b
      | some _ => .err v
      | none => .ub)
    rcases h.obj r with ⟨h1, h2⟩ | ⟨x, x', h1, h2, hx⟩
    · rw [h1, h2]; trivial
    · rw [h1, h2]
      cases hx with
      | bool b => exact ⟨h, rfl⟩
      | _ => exact h
  typeOf a a' w v h r := (kindOf_rel h r).bind fun k k' w v hw hk => by
    subst hk
    exact ⟨hw, typeRef_rel R k⟩
  isType a b a' b' w v h r s := by
    show OutR (WR ρ N) Eq ((outOf w (Graph.isTypeOf C.hit w.heap C.fuel w.err a b)).bind _)
      ((outOf v (Graph.isTypeOf D.hit v.heap D.fuel v.err a' b')).bind _)
    rw [hC.fuel, h.err, isTypeOf_rel hC.hit h.heap D.fuel v.err a b a' b' r s]
    refine (h.outOf (ExR.eq rfl)).bind fun s s' w v hw hs => ?_
    subst hs
    exact ⟨hw.withErr rfl, rfl⟩
  newList i w v h := h.make R (.list all2_nil)
  newMap i w v h := h.make R (.map all2_nil)
  select a b a' b' w v h r s := selectI_rel R hC h r s
  insert a b c a' b' c' w v h r s t := insertObj_rel R hN hC h r s t
  newScope w v h := h.make R (.map all2_nil)
  setVar a n c a' c' w v h r s := setVar_rel R hN hC n h r s
  getVar a c n a' c' w v h r s := getVar_rel R hC n h r s
  newFunc c a c' a' w v h r s := newFunc_rel R h r s
  callee a a' w v h r := calleeOf_rel h r
  native i a a' w v h r := hC.native i a a' w v r h

/-! ## The builtins -/

variable {B B' : Config}

theorem Item.rel (R : Ren ρ N) (i : Item) (hw : WR ρ N w v) : OutR (WR ρ N) ρ (i.value w) (i.value v) := by
  cases i with
  | type k => exact ⟨hw, typeRef_rel R k⟩
  | any => exact hw.make R .any
  | float x => exact hw.make R (.float x)
  | table t =>
    have h := hw.alloc R (.opaque .smap)
    have hn := hw.next R (.opaque .smap) (.opaque .smap)
    exact ⟨⟨h.heap, h.err, h.clos, h.fclo, h.nat, update_rel (S := Eq) (x := t) (y := t) R hn h.tab rfl, h.out, h.closed, h.fclosed⟩, hn⟩
  | fn id argc =>
    have h := hw.alloc R (.opaque .nfunc)
    have hn := hw.next R (.opaque .nfunc) (.opaque .nfunc)
    exact ⟨⟨h.heap, h.err, h.clos, h.fclo, update_rel (S := Eq) (x := some (id, argc)) (y := some (id, argc)) R hn h.nat rfl, h.tab, h.out, h.closed, h.fclosed⟩, hn⟩

theorem stdSlot_rel (R : Ren ρ N) (hB : CR ρ N B B') (t : Nat) (n : Name) :
    Opt2 (fun f g => ∀ w v, WR ρ N w v → OutR (WR ρ N) ρ (f w) (g v)) (stdSlot B t n) (stdSlot B' t n) := by
  match t with
  | 0 =>
    show Opt2 _ ((basicTable.lookup n).map Item.value) ((basicTable.lookup n).map Item.value)
    cases basicTable.lookup n with
    | none => trivial
    | some i => exact fun w v h => Item.rel R i h
  | 1 =>
    show Opt2 _ (some (((stringTable.lookup n).map Item.value).getD fun _ => .ub)) (some (((stringTable.lookup n).map Item.value).getD fun _ => .ub))
    cases stringTable.lookup n with
    | none => exact fun w v h => trivial
    | some i => exact fun w v h => Item.rel R i h
  | 2 => exact hB.slot 2 n
  | 3 =>
    show Opt2 _ ((mathTable.lookup n).map Item.value) ((mathTable.lookup n).map Item.value)
    cases mathTable.lookup n with
    | none => trivial
    | some i => exact fun w v h => Item.rel R i h
  | 4 => exact hB.slot 4 n
  | 5 =>
    show Opt2 _ (some (((bufferTable.lookup n).map Item.value).getD fun _ => .ub)) (some (((bufferTable.lookup n).map Item.value).getD fun _ => .ub))
    cases bufferTable.lookup n with
    | none => exact fun w v h => trivial
    | some i => exact fun w v h => Item.rel R i h
  | t + 6 => exact hB.slot (t + 6) n

theorem one_rel (hw : WR ρ N w v) {a b : Ref} (h : ρ a b) : OutR (WR ρ N) (NResR ρ) (.ok w (.done [a])) (.ok v (.done [b])) :=
  ⟨hw, all2_one h⟩

theorem argOf_rel {o o' : Obj} (h : ObjR ρ o o') : argOf o = argOf o' := by cases h <;> rfl

theorem argsOf_rel (hw : WR ρ N w v) : ∀ {l l' : List Ref}, All2 ρ l l' → argsOf w.heap l = argsOf v.heap l'
  | [], [], _ => rfl
  | a :: l, b :: l', h => by
    refine ExR.toEq ?_
    unfold argsOf
    refine (hw.heap.rd h.1).bind fun o o' ho => ?_
    rw [argsOf_rel hw h.2, argOf_rel ho]
    exact ExR.eq rfl

theorem onArgs_rel (R : Ren ρ N) (f : List Builtin.Arg → Exec Builtin.Ret) {l l' : List Ref} (hl : All2 ρ l l') (hw : WR ρ N w v) :
    OutR (WR ρ N) (NResR ρ) (onArgs f l w) (onArgs f l' v) := by
  unfold onArgs
  rw [argsOf_rel hw hl]
  refine (hw.outOf (ExR.eq rfl)).bind fun r r' w v hw hs => ?_
  subst hs
  cases r with
  | int i => exact (hw.make R (.int i)).bind fun a b w v hw h => one_rel hw h
  | float i => exact (hw.make R (.float i)).bind fun a b w v hw h => one_rel hw h
  | str i => exact (hw.make R (.str i)).bind fun a b w v hw h => one_rel hw h
  | buffer i => exact (hw.make R (.buffer i)).bind fun a b w v hw h => one_rel hw h
  | fail _ =>
    refine (hw.outOf (ExR.eq rfl)).bind fun s s' w v hw hs => ?_
    subst hs
    exact (hw.make R (.str s)).bind fun a b w v hw h => ⟨hw, (⟨R.stat _ (by decide), all2_one h⟩ : All2 ρ [0, a] [0, b])⟩

theorem countOf_rel {o o' : Obj} (h : ObjR ρ o o') : countOf o = countOf o' := by
  cases h <;> first | rfl | exact congrArg some (All2.length ‹_›)

theorem consecutive_rel (R : Ren ρ N) (hN : statics.length ≤ N) {l l' : Ref} (rl : ρ l l') : ∀ (n i : Nat) {rs rs' : List Ref}, All2 ρ rs rs' →
    ∀ {w v : World}, WR ρ N w v → (∃ items, v.dyn[l' - statics.length]? = some (.list items)) → statics.length ≤ l' →
      WR ρ N (consecutive l n i rs w) (consecutive l' n i rs' v)
  | 0, _, _, _, _, _, _, hw, _, _ => hw
  | n + 1, i, rs, rs', hr, w, v, hw, ⟨items, hi⟩, hs => by
    unfold consecutive
    have h := hw.alloc R (.int i)
    have hn := hw.next R (.int i) (.int i)
    have hr2 := All2.append hr (all2_one hn)
    have hd : (v.alloc (.int i)).1.heap[l']? = some (.list items) := by
      rw [alloc_heap]
      unfold World.heap
      rw [List.append_assoc, List.getElem?_append_right hs]
      rw [List.getElem?_append_left (by rcases List.getElem?_eq_some_iff.1 hi with ⟨q, _⟩; exact q)]
      exact hi
    have hlt : l' < (v.alloc (.int i)).1.heap.length := by rcases List.getElem?_eq_some_iff.1 hd with ⟨q, _⟩; exact q
    refine consecutive_rel R hN rl n (i + 1) hr2 (h.withHeap R hN (h.heap.set R rl (.list hr2)) ((Opq.refl _).set _ ?_)) ?_ hs
    · intro k q
      rw [hd] at q
      cases q
    · refine ⟨rs' ++ [(v.alloc (.int i)).2], ?_⟩
      · show (((v.alloc (.int i)).1.heap.set l' _).drop statics.length)[l' - statics.length]? = _
        rw [List.getElem?_drop, Nat.add_sub_cancel' hs, List.getElem?_set_self hlt]

theorem keysOf_rel (R : Ren ρ N) (hN : statics.length ≤ N) {a a' : Ref} (r : ρ a a') (hw : WR ρ N w v) :
    OutR (WR ρ N) ρ (keysOf a w) (keysOf a' v) := by
  unfold keysOf
  have key : ∀ n, OutR (WR ρ N) ρ (.ok (consecutive (w.alloc (.list [])).2 n 0 [] (w.alloc (.list [])).1) (w.alloc (.list [])).2)
      (.ok (consecutive (v.alloc (.list [])).2 n 0 [] (v.alloc (.list [])).1) (v.alloc (.list [])).2) := by
    intro n
    refine ⟨consecutive_rel R hN (hw.next R _ _) n 0 all2_nil (hw.alloc R (.list all2_nil)) ⟨[], ?_⟩ ?_, hw.next R _ _⟩
    · show (v.dyn ++ [_])[v.heap.length - statics.length]? = _
      have : v.heap.length - statics.length = v.dyn.length := by
        unfold World.heap
        rw [List.length_append, Nat.add_sub_cancel_left]
      rw [this]
      exact List.getElem?_concat_length
    · show statics.length ≤ v.heap.length
      unfold World.heap
      rw [List.length_append]
      exact Nat.le_add_right _ _
  rcases hw.obj r with ⟨h1, h2⟩ | ⟨x, x', h1, h2, hx⟩
  · rw [h1, h2]; trivial
  · rw [h1, h2]
    have hc := countOf_rel hx
    have h0 : ρ 0 0 := R.stat 0 (by decide)
    cases hx with
    | map h => exact hw.make R (.list (all2_map (fun a b h => h.1) h))
    | list h =>
      dsimp only
      rw [hc]
      exact key _
    | str s => exact key _
    | buffer s => exact key _
    | _ => exact ⟨hw, h0⟩

theorem assertAll_rel (hw : WR ρ N w v) : ∀ {l l' : List Ref}, All2 ρ l l' → OutR (WR ρ N) (NResR ρ) (assertAll l w) (assertAll l' v)
  | [], [], _ => ⟨hw, (trivial : All2 ρ [] [])⟩
  | a :: l, b :: l', h => by
    unfold assertAll
    rcases hw.obj h.1 with ⟨h1, h2⟩ | ⟨x, x', h1, h2, hx⟩
    · rw [h1, h2]; trivial
    · rw [h1, h2]
      cases hx with
      | bool b =>
        cases b with
        | true => exact assertAll_rel hw h.2
        | false => exact hw
      | _ => exact hw

theorem stdNative_rel (R : Ren ρ N) (hN : statics.length ≤ N) (hB : CR ρ N B B') (id : Nat) {l l' : List Ref} (hl : All2 ρ l l')
    (hw : WR ρ N w v) : OutR (WR ρ N) (NResR ρ) (stdNative B id l w) (stdNative B' id l' v) := by
  have hother := hB.native id l l' w v hl hw
  match id, l, l', hl with
  | 0, [a], [b], hl =>
    refine (kindOf_rel hw hl.1).bind fun k k' w v hw hk => ?_
    subst hk
    exact ⟨hw, all2_one (typeRef_rel R k)⟩
  | 1, [a], [b], hl =>
    show OutR (WR ρ N) (NResR ρ)
      (match w.heap[a]? with
      | some o =>
        match countOf o with
        | some n => (VM.mk w (.int n)).bind fun r w => .ok w (.done [r])
        | none => .err w
      | none => .ub)
      (match v.heap[b]? with
      | some o =>
        match countOf o with
        | some n => (VM.mk v (.int n)).bind fun r w => .ok w (.done [r])
        | none => .err v
      | none => .ub)
    rcases hw.obj hl.1 with ⟨h1, h2⟩ | ⟨x, x', h1, h2, hx⟩
    · rw [h1, h2]; trivial
    · rw [h1, h2]
      dsimp only
      rw [countOf_rel hx]
      cases countOf x' with
      | some n => exact (hw.make R (.int n)).bind fun a b w v hw h => one_rel hw h
      | none => exact hw
  | 2, l, l', hl => exact assertAll_rel hw hl
  | 3, [a], [b], hl => exact hw
  | 4, [a, b], [a', b'], hl =>
    show OutR (WR ρ N) (NResR ρ)
      ((outOf w (Graph.isTypeOf B.hit w.heap B.fuel w.err a b)).bind fun r w => .ok { w with err := r.2 } (.done [boolRef r.1]))
      ((outOf v (Graph.isTypeOf B'.hit v.heap B'.fuel v.err a' b')).bind fun r w => .ok { w with err := r.2 } (.done [boolRef r.1]))
    rw [hB.fuel, hw.err, isTypeOf_rel hB.hit hw.heap B'.fuel v.err a b a' b' hl.1 hl.2.1]
    refine (hw.outOf (ExR.eq rfl)).bind fun s s' w v hw hs => ?_
    subst hs
    exact ⟨hw.withErr rfl, all2_one (boolRef_rel R _)⟩
  | 5, [a], [b], hl =>
    refine (kindOf_rel hw hl.1).bind fun k k' w v hw hk => ?_
    subst hk
    refine (hw.outOf (ExR.eq rfl)).bind fun s s' w v hw hs => ?_
    subst hs
    exact (hw.make R (.str s)).bind fun a b w v hw h => one_rel hw h
  | 6, [a], [b], hl => exact (keysOf_rel R hN hl.1 hw).bind fun a b w v hw h => one_rel hw h
  | 7, [a], [b], hl => exact onArgs_rel R _ hl hw
  | 8, [a], [b], hl => exact onArgs_rel R _ hl hw
  | 9, l, l', hl => exact onArgs_rel R _ hl hw
  | 10, l, l', hl => exact hother
  | 11, l, l', hl => exact hother
  | 12, l, l', hl => exact hother
  | 13, l, l', hl => exact hother
  | 14, l, l', hl => exact hother
  | 15, l, l', hl => exact hother
  | 16, l, l', hl => exact onArgs_rel R _ hl hw
  | 17, l, l', hl => exact onArgs_rel R _ hl hw
  | 18, l, l', hl => exact onArgs_rel R _ hl hw
  | 19, l, l', hl => exact onArgs_rel R _ hl hw
  | 20, l, l', hl => exact onArgs_rel R _ hl hw
  | 21, l, l', hl => exact onArgs_rel R _ hl hw
  | 22, l, l', hl => exact onArgs_rel R _ hl hw
  | 23, l, l', hl => exact onArgs_rel R _ hl hw
  | id + 24, l, l', hl => exact hother
  | 0, [], [], hl => exact hother
  | 1, [], [], hl => exact hother
  | 3, [], [], hl => exact hother
  | 4, [], [], hl => exact hother
  | 5, [], [], hl => exact hother
  | 6, [], [], hl => exact hother
  | 7, [], [], hl => exact hother
  | 8, [], [], hl => exact hother
  | 4, [_], [_], hl => exact hother
  | 0, _ :: _ :: _, _ :: _ :: _, hl => exact hother
  | 1, _ :: _ :: _, _ :: _ :: _, hl => exact hother
  | 3, _ :: _ :: _, _ :: _ :: _, hl => exact hother
  | 5, _ :: _ :: _, _ :: _ :: _, hl => exact hother
  | 6, _ :: _ :: _, _ :: _ :: _, hl => exact hother
  | 7, _ :: _ :: _, _ :: _ :: _, hl => exact hother
  | 8, _ :: _ :: _, _ :: _ :: _, hl => exact hother
  | 4, _ :: _ :: _ :: _, _ :: _ :: _ :: _, hl => exact hother

theorem bufSelect_rel (R : Ren ρ N) (b : List UInt8) {k k' : Ref} (rk : ρ k k') (hw : WR ρ N w v) :
    OutR (WR ρ N) (Opt2 ρ) (bufSelect b k w) (bufSelect b k' v) := by
  unfold bufSelect
  rw [intKey_rel hw rk]
  cases intKey v.heap k' with
  | none => exact ⟨hw.withErr rfl, trivial⟩
  | some i =>
    dsimp only
    split
    · exact ⟨hw.withErr rfl, trivial⟩
    · cases b[(toI32 i).toNat]? with
      | none => exact ⟨hw.withErr rfl, trivial⟩
      | some x => exact ⟨hw.alloc R (.int _), hw.next R _ _⟩

theorem bufInsert_rel (R : Ren ρ N) (hN : statics.length ≤ N) {b : List UInt8} {a a' k k' x x' : Ref} (h : v.heap[a']? = some (.buffer b))
    (ra : ρ a a') (rk : ρ k k') (rx : ρ x x') (hw : WR ρ N w v) :
    OutR (WR ρ N) (fun _ _ => True) (bufInsert b a k x w) (bufInsert b a' k' x' v) := by
  have hno : ∀ k, v.heap[a']? ≠ some (.opaque k) := by
    intro k q
    rw [h] at q
    cases q
  unfold bufInsert
  rw [intKey_rel hw rk, intKey_rel hw rx]
  cases intKey v.heap k' with
  | none => exact hw
  | some i =>
    cases intKey v.heap x' with
    | none => exact hw
    | some q =>
      dsimp only
      split
      · exact hw
      · split
        · exact hw
        · exact ⟨hw.withHeap R hN (hw.heap.set R ra (.buffer _)) ((Opq.refl _).set _ hno), trivial⟩

theorem std_rel (R : Ren ρ N) (hN : statics.length ≤ N) (hB : CR ρ N B B') : CR ρ N (std B) (std B') where
  hit := hB.hit
  arith := hB.arith
  fuel := hB.fuel
  builtins := hB.builtins
  slot := stdSlot_rel R hB
  native id a b w v h hw := stdNative_rel R hN hB id h hw
  selectX o o' k k' w v ho hk hw := by
    have h := hB.selectX o o' k k' w v ho hk hw
    cases ho with
    | buffer b => exact bufSelect_rel R b hk hw
    | _ => exact h
  insertX o o' a a' b b' c c' w v h1 h2 ho ha hb hc hw := by
    have h := hB.insertX o o' a a' b b' c c' w v h1 h2 ho ha hb hc hw
    cases ho with
    | buffer b => exact bufInsert_rel R hN h2 ha hb hc hw
    | _ => exact h

theorem printNative_rel (R : Ren ρ N) (fmt : BitVec 64 → Text) : ∀ {l l' : List Ref}, All2 ρ l l' → ∀ {w v : World}, WR ρ N w v →
    OutR (WR ρ N) (NResR ρ) (Book.printNative fmt l w) (Book.printNative fmt l' v)
  | [], [], _, w, v, hw => ⟨hw, (trivial : All2 ρ [] [])⟩
  | a :: l, b :: l', h, w, v, hw => by
    unfold Book.printNative
    have hp := print_rel R fmt hw.heap (v.heap.length + 1) (fun _ => false) (fun _ => false) a b (fun _ _ _ => rfl) h.1
    rw [hw.heap.len]
    revert hp
    cases Graph.print fmt w.heap (v.heap.length + 1) (fun _ => false) a <;>
      cases Graph.print fmt v.heap (v.heap.length + 1) (fun _ => false) b <;>
      first | exact fun q => q.elim | exact fun _ => hw | exact fun _ => trivial | skip
    rename_i x y
    intro q
    obtain ⟨t, f⟩ := x
    obtain ⟨t', f'⟩ := y
    have q : t = t' := q.1
    subst q
    refine printNative_rel R fmt h.2 ⟨hw.heap, hw.err, hw.clos, hw.fclo, hw.nat, hw.tab, ?_, hw.closed, hw.fclosed⟩
    show w.out ++ t = v.out ++ t
    rw [hw.out]

end Noja.VM.Move
