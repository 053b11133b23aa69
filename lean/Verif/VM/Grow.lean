import Verif.VM.TablesEnd

/-!
# What is written stays written (C111)

No operation takes back what was written: each adds to it or leaves it as it is.  So the machine, whenever it is looked at, has written a
beginning of what it will have written.
-/

set_option linter.unusedVariables false
set_option linter.unusedSimpArgs false

namespace Noja.VM.Grow

open Noja.Graph (Obj Kind Heap)

variable {W α β : Type}

/-- Whatever comes of an operation is related to the world before. -/
def OutP (P : W → W → Prop) (w : W) : Out W α → Prop
  | .ok u _ => P w u
  | .err u => P w u
  | .ub => True

/-- The operations of a layer go from a world to related ones. -/
structure Along (P : W → W → Prop) (L : Layer W) : Prop where
  refl : ∀ w, P w w
  trans : ∀ {a b c}, P a b → P b c → P a c
  int : ∀ v w, OutP P w (L.int v w)
  float : ∀ v w, OutP P w (L.float v w)
  str : ∀ v w, OutP P w (L.str v w)
  un : ∀ o a w, OutP P w (L.un o a w)
  bin : ∀ o a b w, OutP P w (L.bin o a b w)
  asBool : ∀ a w, OutP P w (L.asBool a w)
  typeOf : ∀ a w, OutP P w (L.typeOf a w)
  isType : ∀ a b w, OutP P w (L.isType a b w)
  newList : ∀ n w, OutP P w (L.newList n w)
  newMap : ∀ n w, OutP P w (L.newMap n w)
  select : ∀ a b w, OutP P w (L.select a b w)
  insert : ∀ a b c w, OutP P w (L.insert a b c w)
  newScope : ∀ w, OutP P w (L.newScope w)
  setVar : ∀ a b c w, OutP P w (L.setVar a b c w)
  getVar : ∀ a b c w, OutP P w (L.getVar a b c w)
  newFunc : ∀ a b w, OutP P w (L.newFunc a b w)
  callee : ∀ a w, OutP P w (L.callee a w)
  native : ∀ a b w, OutP P w (L.native a b w)

/-- Whatever the machine is doing, its world is related to this one. -/
def At (P : W → W → Prop) (w : W) : Status W → Prop
  | .run s => P w s.w
  | .done _ s => P w s.w
  | .err s => P w s.w
  | .limit s => P w s.w
  | .ub => True

section
variable {P : W → W → Prop} {L : Layer W} {cap : Nat}

theorem At.trans (H : Along P L) {a b : W} (h : P a b) {x : Status W} (hx : At P b x) : At P a x := by
  cases x <;> first | exact H.trans h hx | trivial

theorem at_push (H : Along P L) (v : Ref) (s : St W) : At P s.w (s.push cap v) := by
  unfold St.push
  split
  · split
    · exact H.refl _
    · split <;> exact H.refl _
  · exact H.refl _

theorem at_pushAll (H : Along P L) : ∀ (vs : List Ref) (s : St W), At P s.w (s.pushAll cap vs)
  | [], s => H.refl _
  | v :: vs, s => by
    unfold St.pushAll
    have h := at_push (cap := cap) H v s
    cases hx : s.push cap v with
    | run t => rw [hx] at h; exact At.trans H h (at_pushAll H vs t)
    | _ => rw [hx] at h; exact h

theorem at_pop (H : Along P L) (n : Nat) (s : St W) (k : List Ref → St W → Status W) (hk : ∀ l t, t.w = s.w → At P s.w (k l t)) :
    At P s.w (s.pop n k) := by
  unfold St.pop
  split
  · split
    · exact H.refl _
    · exact hk _ _ rfl
  · exact H.refl _

theorem at_peek (H : Along P L) (n : Nat) (s : St W) (k : List Ref → Status W) (hk : ∀ l, At P s.w (k l)) : At P s.w (s.peek n k) := by
  unfold St.peek
  split
  · split
    · exact H.refl _
    · exact hk _
  · exact H.refl _

theorem at_prim (H : Along P L) {s : St W} {w : W} (hs : s.w = w) {o : Out W α} (ho : OutP P w o) {k : α → St W → Status W}
    (hk : ∀ a t, At P t.w (k a t)) : At P w (s.prim o k) := by
  unfold St.prim
  cases o with
  | ok u a => exact At.trans H ho (hk a _)
  | err u => exact ho
  | ub => trivial

theorem at_goto (H : Along P L) (a : Nat) (s : St W) : At P s.w (s.goto a) := by
  unfold St.goto
  split <;> exact H.refl _

theorem at_deliver (H : Along P L) (want : Nat) (rets : List Ref) (s : St W) : At P s.w (deliver L cap want rets s) := by
  unfold deliver
  split
  · trivial
  · exact at_pushAll H _ s

theorem at_enter (H : Along P L) (exe addr : Nat) (c : Option Ref) (want : Nat) (args : List Ref) (s : St W) :
    At P s.w (enter L cap exe addr c want args s) := by
  unfold enter
  refine at_prim H rfl (H.newScope _) fun l t => ?_
  split
  · exact H.refl _
  · exact at_pushAll (cap := cap) H args ⟨t.w, t.funcs, t.exes, t.stack, _⟩

theorem at_leave (H : Along P L) (s : St W) : At P s.w (leave L cap s) := by
  unfold leave
  split
  · split
    · exact H.refl _
    · dsimp only
      split
      · exact H.refl _
      · exact at_deliver (cap := cap) H _ _ ⟨s.w, s.funcs, s.exes, _, _⟩
      · exact at_deliver (cap := cap) H _ _ ⟨s.w, s.funcs, s.exes, _, _⟩
  · exact H.refl _

theorem at_callObj (H : Along P L) (f : Ref) (argv : List Ref) (want : Nat) (s : St W) : At P s.w (callObj L cap f argv want s) := by
  unfold callObj
  refine at_prim H rfl (H.callee _ _) fun c t => ?_
  cases c with
  | no => exact H.refl _
  | noja clo =>
    dsimp only
    split
    · trivial
    · exact at_enter H _ _ _ _ _ t
  | native id argc =>
    dsimp only
    split
    · exact H.refl _
    · refine at_prim H rfl (H.native _ _ _) fun r u => ?_
      cases r with
      | done rets => exact at_deliver (cap := cap) H want rets ⟨u.w, u.funcs, u.exes, u.stack, _⟩
      | load p =>
        dsimp only
        split
        · exact at_enter (cap := cap) H _ _ _ _ _ ⟨u.w, u.funcs, _, u.stack, u.frames⟩
        · trivial

theorem at_execI (H : Along P L) (i : Instr) (s : St W) : At P s.w (execI L cap i s) := by
  have push : ∀ (r : Ref) (t : St W), At P t.w (t.push cap r) := at_push H
  have stay : ∀ t : St W, At P t.w (.run t) := fun t => H.refl _
  unfold execI
  split
  · exact H.refl _
  · exact at_peek H _ s _ fun _ => H.refl _
  · refine at_pop H _ s _ fun l t e => ?_
    split
    · exact at_prim H e (e ▸ H.un _ _ _) push
    · trivial
  · refine at_pop H _ s _ fun l t e => ?_
    split
    · exact at_prim H e (e ▸ H.bin _ _ _ _) push
    · trivial
  · refine at_peek H _ s _ fun l => ?_
    split
    · exact at_prim H rfl (H.setVar _ _ _ _) fun _ t => stay t
    · trivial
  · exact at_pop H _ s _ fun l t e => e ▸ H.refl _
  · refine at_peek H _ s _ fun l => ?_
    split
    · refine at_pop H _ s _ fun l t e => at_prim H e (e ▸ H.isType _ _ _) fun b u => ?_
      split <;> exact H.refl _
    · trivial
  · refine at_pop H _ s _ fun l t e => ?_
    split
    · split
      · exact e ▸ H.refl _
      · rw [← e]
        refine at_pop H _ t _ fun l u e' => ?_
        rw [← e']
        exact at_callObj H _ _ _ u
    · trivial
  · refine at_peek H _ s _ fun l => ?_
    split
    · exact at_pop H _ s _ fun l t e => at_prim H e (e ▸ H.select _ _ _) push
    · trivial
  · refine at_peek H _ s _ fun l => ?_
    split
    · exact at_pop H _ s _ fun l t e => at_prim H e (e ▸ H.select _ _ _) push
    · trivial
  · refine at_peek H _ s _ fun l => ?_
    split
    · exact at_pop H _ s _ fun l t e => at_prim H e (e ▸ H.insert _ _ _ _) fun _ t => stay t
    · trivial
  · refine at_peek H _ s _ fun l => ?_
    split
    · exact at_pop H _ s _ fun l t e => at_prim H e (e ▸ H.insert _ _ _ _) fun _ t => stay t
    · trivial
  · exact at_prim H rfl (H.int _ _) push
  · exact at_prim H rfl (H.float _ _) push
  · exact at_prim H rfl (H.str _ _) push
  · split
    · exact at_prim H rfl (H.getVar _ _ _ _) push
    · exact H.refl _
  · exact push _ s
  · exact push _ s
  · exact push _ s
  · split
    · exact at_prim H rfl (H.newFunc _ _ _) fun r t => at_push (cap := cap) H r ⟨t.w, _, t.exes, t.stack, t.frames⟩
    · exact H.refl _
  · exact at_prim H rfl (H.newList _ _) push
  · exact at_prim H rfl (H.newMap _ _) push
  · exact push _ s
  · refine at_peek H _ s _ fun l => ?_
    split
    · exact at_prim H rfl (H.typeOf _ _) push
    · trivial
  · split
    · rename_i f fs _
      have h := push f.locals s
      cases hx : s.push cap f.locals with
      | run t => rw [hx] at h; exact At.trans H h (at_leave H t)
      | _ => rw [hx] at h; exact h
    · exact H.refl _
  · exact at_leave H s
  · exact at_goto H _ s
  · refine at_pop H _ s _ fun l t e => ?_
    split
    · refine at_prim H e (e ▸ H.asBool _ _) fun b u => ?_
      split
      · exact at_goto H _ u
      · exact H.refl _
    · trivial
  · refine at_pop H _ s _ fun l t e => ?_
    split
    · refine at_prim H e (e ▸ H.asBool _ _) fun b u => ?_
      split
      · exact H.refl _
      · exact at_goto H _ u
    · trivial

theorem at_step (H : Along P L) (s : St W) : At P s.w (step L cap s) := by
  unfold step
  split
  · split
    · exact H.refl _
    · exact at_execI (cap := cap) H _ ⟨s.w, s.funcs, s.exes, s.stack, _⟩
  · exact H.refl _

theorem at_runN (H : Along P L) : ∀ (n : Nat) (s : St W), At P s.w (runN L cap n s)
  | 0, s => H.refl _
  | n + 1, s => by
    unfold runN
    have h := at_step (cap := cap) H s
    cases hx : step L cap s with
    | run t => rw [hx] at h; exact At.trans H h (at_runN H n t)
    | _ => rw [hx] at h; exact h

end

/-! ## The objects -/

/-- The output grows. -/
def Adds (w w' : World) : Prop := w.out <+: w'.out

theorem adds_same {w w' : World} (h : w'.out = w.out) : Adds w w' := by
  unfold Adds
  rw [h]
  exact List.prefix_rfl

def Out1 (w : World) (x : Out World α) : Prop := OutP Adds w x

theorem Out1.bind {w : World} {o : Out World α} {k : α → World → Out World β} (h : Out1 w o) (hk : ∀ a u, Out1 u (k a u)) :
    Out1 w (o.bind k) := by
  cases o with
  | ok u a =>
    have h : Adds w u := h
    have h2 := hk a u
    show Out1 w (k a u)
    revert h2
    cases k a u with
    | ok v b => exact fun q => List.IsPrefix.trans h q
    | err v => exact fun q => List.IsPrefix.trans h q
    | ub => exact fun _ => trivial
  | err u => exact h
  | ub => trivial

theorem Out1.ok (w : World) (a : α) : Out1 w (.ok w a) := List.prefix_rfl
theorem Out1.err (w : World) : Out1 w (.err w : Out World α) := List.prefix_rfl
theorem Out1.outOf (w : World) (x : Exec α) : Out1 w (VM.outOf w x) := by
  cases x <;> first | exact List.prefix_rfl | trivial
theorem Out1.mk (w : World) (o : Obj) : Out1 w (VM.mk w o) := adds_same rfl

/-- The builtins that are not modelled take nothing back. -/
structure Calm (B : Config) : Prop where
  slot : ∀ t n f w, B.slot t n = some f → Out1 w (f w)
  native : ∀ id a w, Out1 w (B.native id a w)
  selectX : ∀ o k w, Out1 w (B.selectX o k w)
  insertX : ∀ o a b c w, Out1 w (B.insertX o a b c w)

theorem item_adds (i : Item) (w : World) : Out1 w (i.value w) := by
  cases i <;> exact adds_same rfl

theorem stdSlot_adds {B : Config} (hB : Calm B) {t : Nat} {n : Name} {f : World → Out World Ref}
    (h : stdSlot B t n = some f) (w : World) : Out1 w (f w) := by
  match t, h with
  | 0, h =>
    have h : (basicTable.lookup n).map Item.value = some f := h
    cases hl : basicTable.lookup n with
    | none => rw [hl] at h; cases h
    | some i => rw [hl] at h; cases h; exact item_adds i w
  | 1, h =>
    have h : some (((stringTable.lookup n).map Item.value).getD fun _ => .ub) = some f := h
    cases hl : stringTable.lookup n with
    | none => rw [hl] at h; cases h; trivial
    | some i => rw [hl] at h; cases h; exact item_adds i w
  | 2, h => exact hB.slot 2 n f w h
  | 3, h =>
    have h : (mathTable.lookup n).map Item.value = some f := h
    cases hl : mathTable.lookup n with
    | none => rw [hl] at h; cases h
    | some i => rw [hl] at h; cases h; exact item_adds i w
  | 4, h => exact hB.slot 4 n f w h
  | 5, h =>
    have h : some (((bufferTable.lookup n).map Item.value).getD fun _ => .ub) = some f := h
    cases hl : bufferTable.lookup n with
    | none => rw [hl] at h; cases h; trivial
    | some i => rw [hl] at h; cases h; exact item_adds i w
  | t + 6, h => exact hB.slot (t + 6) n f w h

theorem kindOf_adds (v : Ref) (w : World) : Out1 w (kindOf v w) := by
  unfold kindOf
  cases w.heap[v]? with
  | some o => exact Out1.ok w _
  | none => trivial

theorem consecutive_out (l : Ref) : ∀ (n i : Nat) (rs : List Ref) (w : World), (consecutive l n i rs w).out = w.out
  | 0, _, _, w => rfl
  | n + 1, i, rs, w => by
    unfold consecutive
    rw [consecutive_out l n]
    rfl

theorem keysOf_adds (r : Ref) (w : World) : Out1 w (keysOf r w) := by
  unfold keysOf
  split
  · exact Out1.mk w _
  · split
    · exact adds_same (consecutive_out ..)
    · exact Out1.ok w _
  · trivial

theorem assertAll_adds : ∀ (rs : List Ref) (w : World), Out1 w (assertAll rs w)
  | [], w => Out1.ok w _
  | r :: rs, w => by
    unfold assertAll
    split
    · exact assertAll_adds rs w
    · exact Out1.err w
    · trivial

theorem onArgs_adds (f : List Builtin.Arg → Exec Builtin.Ret) (args : List Ref) (w : World) : Out1 w (onArgs f args w) := by
  unfold onArgs
  refine (Out1.outOf w _).bind fun r w' => ?_
  cases r with
  | int v => exact (Out1.mk w' _).bind fun _ u => Out1.ok u _
  | float x => exact (Out1.mk w' _).bind fun _ u => Out1.ok u _
  | str s => exact (Out1.mk w' _).bind fun _ u => Out1.ok u _
  | buffer b => exact (Out1.mk w' _).bind fun _ u => Out1.ok u _
  | fail _ => exact (Out1.outOf w' _).bind fun _ u => (Out1.mk u _).bind fun _ u => Out1.ok u _

theorem stdNative_adds {B : Config} (hB : Calm B) (id : Nat) (args : List Ref) (w : World) : Out1 w (stdNative B id args w) := by
  unfold stdNative
  split
  · exact (kindOf_adds _ w).bind fun _ u => Out1.ok u _
  · split
    · split
      · exact (Out1.mk w _).bind fun _ u => Out1.ok u _
      · exact Out1.err w
    · trivial
  · exact assertAll_adds _ w
  · exact Out1.err w
  · exact (Out1.outOf w _).bind fun r u => adds_same rfl
  · exact (kindOf_adds _ w).bind fun _ u => (Out1.outOf u _).bind fun _ u => (Out1.mk u _).bind fun _ u => Out1.ok u _
  · exact (keysOf_adds _ w).bind fun _ u => Out1.ok u _
  all_goals first
    | exact onArgs_adds _ _ w
    | exact hB.native _ _ w

theorem bufSelect_adds (b : List UInt8) (key : Ref) (w : World) : Out1 w (bufSelect b key w) := by
  unfold bufSelect
  split
  · split
    · exact adds_same rfl
    · split <;> exact adds_same rfl
  · exact adds_same rfl

theorem bufInsert_adds (b : List UInt8) (col key val : Ref) (w : World) : Out1 w (bufInsert b col key val w) := by
  unfold bufInsert
  split
  · split
    · exact Out1.err w
    · split <;> exact adds_same rfl
  · exact Out1.err w

theorem selectX_adds {B : Config} (hB : Calm B) (o : Obj) (key : Ref) (w : World) : Out1 w ((std B).selectX o key w) := by
  cases o with
  | buffer b => exact bufSelect_adds b key w
  | _ => exact hB.selectX _ _ w

theorem insertX_adds {B : Config} (hB : Calm B) (o : Obj) (a b c : Ref) (w : World) : Out1 w ((std B).insertX o a b c w) := by
  cases o with
  | buffer x => exact bufInsert_adds x a b c w
  | _ => exact hB.insertX _ _ _ _ w

theorem select_adds {B : Config} (hB : Calm B) : ∀ (fuel : Nat) (col key : Ref) (w : World), Out1 w (selectObj (std B) fuel col key w)
  | 0, _, _, _ => trivial
  | fuel + 1, col, key, w => by
    unfold selectObj
    split
    · trivial
    · split
      · split
        · exact adds_same rfl
        · trivial
      · trivial
    · split
      · split <;> exact adds_same rfl
      · exact adds_same rfl
    · split
      · exact adds_same rfl
      · exact adds_same rfl
      · trivial
    · split
      · trivial
      · refine (select_adds hB fuel _ _ w).bind fun v u => ?_
        split
        · exact Out1.ok u _
        · split
          · exact select_adds hB fuel _ _ u
          · exact Out1.ok u _
    · split
      · exact Out1.ok w _
      · split
        · exact Out1.ok w _
        · rename_i f hf
          exact (stdSlot_adds hB hf w).bind fun _ u => Out1.ok u _
    · exact selectX_adds hB _ _ w

theorem insert_adds {B : Config} (hB : Calm B) (col key val : Ref) (w : World) : Out1 w (insertObj (std B) col key val w) := by
  unfold insertObj
  split
  · trivial
  · exact (Out1.outOf w _).bind fun h u => adds_same rfl
  · split
    · split
      · exact Out1.err w
      · split <;> exact adds_same rfl
    · exact Out1.err w
  · exact insertX_adds hB _ _ _ _ w

theorem search_adds {B : Config} (hB : Calm B) (key : Ref) : ∀ (ls : List (Option Ref)) (w : World), Out1 w (searchIn (std B) key ls w)
  | [], w => Out1.ok w _
  | none :: ls, w => search_adds hB key ls w
  | some l :: ls, w => by
    unfold searchIn
    refine (select_adds hB _ _ _ w).bind fun v u => ?_
    split
    · exact Out1.ok u _
    · exact search_adds hB key ls u

theorem un_adds (o : UnOp) (a : Ref) (w : World) : Out1 w (unObj o a w) := by
  unfold unObj
  split
  · exact Out1.ok w _
  · exact Out1.mk w _
  · split
    · exact (Out1.outOf w _).bind fun r u => Out1.mk u _
    · trivial
  · split
    · exact Out1.ok w _
    · exact Out1.err w
    · trivial

theorem bin_adds (C : Config) (o : BinOp) (a b : Ref) (w : World) : Out1 w (binObj C o a b w) := by
  unfold binObj
  split
  · exact Out1.mk w _
  · exact (Out1.outOf w _).bind fun r u => Out1.ok u _
  · exact (Out1.outOf w _).bind fun r u => Out1.ok u _
  · split
    · split
      · exact (Out1.outOf w _).bind fun r u => Out1.mk u _
      · exact (Out1.outOf w _).bind fun r u => Out1.ok u _
      · exact (Out1.outOf w _).bind fun r u => Out1.mk u _
    · trivial

theorem asBool_adds (C : Config) (a : Ref) (w : World) : Out1 w ((objects C).asBool a w) := by
  show Out1 w (match w.heap[a]? with
    | some (.bool b) => Out.ok w b
    | some _ => .err w
    | none => .ub)
  split
  · exact Out1.ok w _
  · exact Out1.err w
  · trivial

theorem callee_adds (f : Ref) (w : World) : Out1 w (calleeOf f w) := by
  unfold calleeOf
  split
  · split
    · exact Out1.ok w _
    · trivial
  · split
    · exact Out1.ok w _
    · trivial
  · exact Out1.ok w _
  · trivial

theorem restore_adds {w : World} {b : Bool} {o : Out World α} {k : α → World → Out World β} (h : Out1 { w with err := b } o)
    (hk : ∀ a u, Out1 u (k a u)) : Out1 w (o.bind k) :=
  Out1.bind (show Out1 w o from h) hk

/-- The objects, as lists of entries. -/
theorem objects_along {B : Config} (hB : Calm B) : Along Adds (objects (std B)) where
  refl _ := List.prefix_rfl
  trans := List.IsPrefix.trans
  int _ w := Out1.mk w _
  float _ w := Out1.mk w _
  str _ w := (Out1.outOf w _).bind fun _ u => Out1.mk u _
  un := un_adds
  bin := bin_adds _
  asBool := asBool_adds _
  typeOf v w := (kindOf_adds v w).bind fun _ u => Out1.ok u _
  isType _ _ w := (Out1.outOf w _).bind fun r u => adds_same rfl
  newList _ w := Out1.mk w _
  newMap _ w := Out1.mk w _
  select a b w := restore_adds (select_adds hB _ a b { w with err := false }) fun _ u => adds_same rfl
  insert := insert_adds hB
  newScope w := Out1.mk w _
  setVar a b c w := (Out1.outOf w _).bind fun s u =>
    (show Out1 u (insertObj (std B) a (u.alloc (.str s)).2 c (u.alloc (.str s)).1) from insert_adds hB _ _ _ _)
  getVar a b c w := (Out1.outOf w _).bind fun s u =>
    Out1.bind (show Out1 u (searchIn (std B) (u.alloc (.str s)).2 [some a, b, (std B).builtins] (u.alloc (.str s)).1) from search_adds hB _ _ _)
      fun v u => by
        cases v with
        | some r => exact Out1.ok u _
        | none => exact Out1.err u
  newFunc _ _ w := adds_same rfl
  callee := callee_adds
  native := stdNative_adds hB

/-! ## The tables -/

def AddsT (x y : TWorld) : Prop := Adds x.w y.w

def Out2 (x : TWorld) (o : Out TWorld α) : Prop := OutP AddsT x o

theorem Out2.bind {x : TWorld} {o : Out TWorld α} {k : α → TWorld → Out TWorld β} (h : Out2 x o) (hk : ∀ a u, Out2 u (k a u)) :
    Out2 x (o.bind k) := by
  cases o with
  | ok u a =>
    have h : AddsT x u := h
    have h2 := hk a u
    show Out2 x (k a u)
    revert h2
    cases k a u with
    | ok v b => exact fun q => List.IsPrefix.trans h q
    | err v => exact fun q => List.IsPrefix.trans h q
    | ub => exact fun _ => trivial
  | err u => exact h
  | ub => trivial

theorem up_adds {f : World → Out World α} (x : TWorld) (h : Out1 x.w (f x.w)) : Out2 x (up f x) := by
  unfold up
  revert h
  cases f x.w with
  | ok w a => exact id
  | err w => exact id
  | ub => exact id

theorem selectT_adds {B : Config} (hB : Calm B) (g : Bool) : ∀ (fuel : Nat) (col key : Ref) (x : TWorld), Out2 x (selectT (std B) g fuel col key x)
  | 0, _, _, _ => trivial
  | fuel + 1, col, key, x => by
    unfold selectT
    split
    · split
      · split
        · exact adds_same rfl
        · trivial
      · trivial
    · split
      · trivial
      · refine (selectT_adds hB g fuel _ _ x).bind fun v u => ?_
        split
        · exact List.prefix_rfl
        · split
          · exact selectT_adds hB g fuel _ _ u
          · exact List.prefix_rfl
    · exact up_adds x (select_adds hB _ _ _ _)

theorem insertT_adds {B : Config} (hB : Calm B) (g : Bool) (col key val : Ref) (x : TWorld) : Out2 x (insertT (std B) g col key val x) := by
  unfold insertT
  split
  · split
    · trivial
    · trivial
    · split
      · trivial
      · split
        · split
          · exact adds_same rfl
          · exact List.prefix_rfl
          · trivial
        · trivial
  · exact up_adds x (insert_adds hB _ _ _ _)

theorem newMapT_adds (n : Int) (x : TWorld) : Out2 x (newMapT n x) := by
  unfold newMapT
  split
  · exact adds_same rfl
  · trivial

theorem searchT_adds {B : Config} (hB : Calm B) (g : Bool) (key : Ref) :
    ∀ (ls : List (Option Ref)) (x : TWorld), Out2 x (searchInT (std B) g key ls x)
  | [], x => List.prefix_rfl
  | none :: ls, x => searchT_adds hB g key ls x
  | some l :: ls, x => by
    unfold searchInT
    refine (selectT_adds hB g _ _ _ x).bind fun v u => ?_
    split
    · exact List.prefix_rfl
    · exact searchT_adds hB g key ls u

theorem isTypeIT_adds (C : Config) (g : Bool) (t v : Ref) (x : TWorld) : Out2 x (isTypeIT C g t v x) := by
  unfold isTypeIT
  split
  · exact adds_same rfl
  · exact List.prefix_rfl
  · trivial

theorem nativeT_adds {B : Config} (hB : Calm B) (g : Bool) (id : Nat) (args : List Ref) (x : TWorld) : Out2 x (nativeT (std B) g id args x) := by
  unfold nativeT
  split
  · exact (isTypeIT_adds _ _ _ _ x).bind fun _ u => List.prefix_rfl
  · exact up_adds x (stdNative_adds hB _ _ _)

/-- The objects, with tables. -/
theorem tables_along {B : Config} (hB : Calm B) (g : Bool) : Along AddsT (tables (std B) g) where
  refl _ := List.prefix_rfl
  trans := List.IsPrefix.trans
  int _ x := up_adds x ((objects_along hB).int _ _)
  float _ x := up_adds x ((objects_along hB).float _ _)
  str _ x := up_adds x ((objects_along hB).str _ _)
  un _ _ x := up_adds x ((objects_along hB).un _ _ _)
  bin _ _ _ x := up_adds x ((objects_along hB).bin _ _ _ _)
  asBool _ x := up_adds x ((objects_along hB).asBool _ _)
  typeOf _ x := up_adds x ((objects_along hB).typeOf _ _)
  isType := isTypeIT_adds _ _
  newList n x := up_adds x ((objects_along hB).newList n _)
  newMap _ x := newMapT_adds _ x
  select a b x := Out2.bind (show Out2 x (selectT (std B) g _ a b ⟨{ x.w with err := false }, x.t⟩) from selectT_adds hB g _ _ _ _)
    fun _ u => adds_same rfl
  insert := insertT_adds hB g
  newScope x := by
    have h := newMapT_adds (-1) x
    unfold Out2 at h
    exact h
  setVar a b c x := (up_adds x (Out1.outOf _ _)).bind fun s u =>
    (show Out2 u (insertT (std B) g a (u.w.alloc (.str s)).2 c (strT s u)) from insertT_adds hB g _ _ _ _)
  getVar a b c x := (up_adds x (Out1.outOf _ _)).bind fun s u =>
    Out2.bind (show Out2 u (searchInT (std B) g (u.w.alloc (.str s)).2 [some a, b, (std B).builtins] (strT s u)) from searchT_adds hB g _ _ _)
      fun v u => by
        cases v with
        | some r => exact List.prefix_rfl
        | none => exact List.prefix_rfl
  newFunc _ _ x := up_adds x ((objects_along hB).newFunc _ _ _)
  callee _ x := up_adds x ((objects_along hB).callee _ _)
  native := nativeT_adds hB g

/-! ## Printing -/

theorem printNative_adds (write : BitVec 64 → Graph.Text) : ∀ (rs : List Ref) (w : World), Out1 w (Book.printNative write rs w)
  | [], w => Out1.ok w _
  | r :: rs, w => by
    unfold Book.printNative
    split
    · rename_i t _ _
      have h := printNative_adds write rs { w with out := w.out ++ t }
      revert h
      cases Book.printNative write rs { w with out := w.out ++ t } with
      | ok u a => exact fun h => List.IsPrefix.trans (List.prefix_append ..) h
      | err u => exact fun h => List.IsPrefix.trans (List.prefix_append ..) h
      | ub => exact fun _ => trivial
    · exact Out1.err w
    · trivial

theorem printing_calm (fl : Book.Floats) {B : Config} (h : Book.Based B) : Calm (Book.printing fl B) where
  slot t n f w q := by
    have q : B.slot t n = some f := q
    rw [h.slot] at q
    cases q
  native id a w := by
    show Out1 w (((Book.known fl id).getD (B.native id)) a w)
    cases hk : Book.known fl id with
    | none => show Out1 w (B.native id a w); rw [h.native]; exact Out1.ok w _
    | some f =>
      rcases Book.known_cases hk with rfl | ⟨g, rfl⟩
      · exact printNative_adds _ a w
      · exact onArgs_adds g a w
  selectX o k w := by
    show Out1 w (B.selectX o k w)
    rw [h.selectX]
    exact adds_same rfl
  insertX o a b c w := by
    show Out1 w (B.insertX o a b c w)
    rw [h.insertX]
    exact Out1.err w

end Noja.VM.Grow
