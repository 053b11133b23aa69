import Verif.VM.Book.Rel

/-!
# References are only names

Nothing that a program does depends on where objects are. `ρ a b` says that what is called `a` in one
heap is called `b` in the other one; here: the functions of `Verif.Graph.Model` do the same on both.

Objects are allocated under the number of the next free place, which is the same in both heaps, so
`ρ` can be about objects that do not exist yet (`Ren.fresh`).
-/

set_option linter.unusedVariables false
set_option linter.unusedSimpArgs false

namespace Noja.VM.Move

open Noja.Graph (Obj Kind Heap Text text)
open Noja.VM.Book (All2)

variable {α β γ δ : Type}

def Opt2 (R : α → β → Prop) : Option α → Option β → Prop
  | none, none => True
  | some a, some b => R a b
  | _, _ => False

def Pair2 (R : α → β → Prop) (x : α × α) (y : β × β) : Prop := R x.1 y.1 ∧ R x.2 y.2

/-- The same object under other names. -/
inductive ObjR (ρ : Ref → Ref → Prop) : Obj → Obj → Prop
  | type (k : Kind) : ObjR ρ (.type k) (.type k)
  | none : ObjR ρ .none .none
  | bool (b : Bool) : ObjR ρ (.bool b) (.bool b)
  | int (v : Int) : ObjR ρ (.int v) (.int v)
  | float (x : BitVec 64) : ObjR ρ (.float x) (.float x)
  | str (s : Str.Str) : ObjR ρ (.str s) (.str s)
  | list {l l' : List Ref} : All2 ρ l l' → ObjR ρ (.list l) (.list l')
  | map {l l' : List (Ref × Ref)} : All2 (Pair2 ρ) l l' → ObjR ρ (.map l) (.map l')
  | buffer (b : List UInt8) : ObjR ρ (.buffer b) (.buffer b)
  | nullable {a b : Ref} : ρ a b → ObjR ρ (.nullable a) (.nullable b)
  | sum {a b a' b' : Ref} : ρ a a' → ρ b b' → ObjR ρ (.sum a b) (.sum a' b')
  | any : ObjR ρ .any .any
  | opaque (k : Kind) : ObjR ρ (.opaque k) (.opaque k)

/-- A renaming of the objects that exist when there are `N` of them; static objects stay, and so does
what comes later. -/
structure Ren (ρ : Ref → Ref → Prop) (N : Nat) : Prop where
  one : ∀ a b b', ρ a b → ρ a b' → b = b'
  two : ∀ a a' b, ρ a b → ρ a' b → a = a'
  stat : ∀ i, i < statics.length → ρ i i
  fresh : ∀ i, N ≤ i → ρ i i

structure HR (ρ : Ref → Ref → Prop) (N : Nat) (h h' : Heap) : Prop where
  len : h.length = h'.length
  le : N ≤ h.length
  obj : ∀ (a b : Ref), ρ a b → Opt2 (ObjR ρ) h[a]? h'[b]?

def ExR (Q : α → β → Prop) : Exec α → Exec β → Prop
  | .ok a, .ok b => Q a b
  | .err, .err => True
  | .ub, .ub => True
  | .diverge, .diverge => True
  | _, _ => False

theorem ExR.bind {Q : α → β → Prop} {P : γ → δ → Prop} {x : Exec α} {y : Exec β} {f : α → Exec γ} {g : β → Exec δ}
    (h : ExR Q x y) (hf : ∀ a b, Q a b → ExR P (f a) (g b)) : ExR P (x >>= f) (y >>= g) := by
  cases x <;> cases y <;> first | exact hf _ _ h | exact h | exact h.elim

theorem ExR.eq {x y : Exec α} (h : x = y) : ExR Eq x y := by
  subst h
  cases x <;> trivial

theorem ExR.toEq {x y : Exec α} (h : ExR Eq x y) : x = y := by
  cases x <;> cases y <;> first | rfl | exact congrArg _ h | exact h.elim

theorem ExR.imp {Q P : α → β → Prop} {x : Exec α} {y : Exec β} (h : ExR Q x y) (hi : ∀ a b, Q a b → P a b) : ExR P x y := by
  cases x <;> cases y <;> first | exact hi _ _ h | exact h

/-! ## Lists and options -/

theorem Opt2.imp {Q P : α → β → Prop} {x : Option α} {y : Option β} (h : Opt2 Q x y) (hi : ∀ a b, Q a b → P a b) : Opt2 P x y := by
  cases x <;> cases y <;> first | exact hi _ _ h | exact h

theorem all2_get? {R : α → β → Prop} : ∀ {l : List α} {l' : List β}, All2 R l l' → ∀ i : Nat, Opt2 R l[i]? l'[i]?
  | [], [], _, i => trivial
  | a :: l, b :: l', h, 0 => h.1
  | a :: l, b :: l', h, i + 1 => by
    rw [List.getElem?_cons_succ, List.getElem?_cons_succ]
    exact all2_get? h.2 i

theorem all2_drop {R : α → β → Prop} : ∀ {l : List α} {l' : List β}, All2 R l l' → ∀ n : Nat, All2 R (l.drop n) (l'.drop n)
  | _, _, h, 0 => h
  | [], [], _, n + 1 => trivial
  | a :: l, b :: l', h, n + 1 => all2_drop h.2 n

theorem all2_isEmpty {R : α → β → Prop} : ∀ {l : List α} {l' : List β}, All2 R l l' → l.isEmpty = l'.isEmpty
  | [], [], _ => rfl
  | _ :: _, _ :: _, _ => rfl

theorem all2_map {R : γ → δ → Prop} {S : α → β → Prop} {f : α → γ} {g : β → δ} (hf : ∀ a b, S a b → R (f a) (g b)) :
    ∀ {l : List α} {l' : List β}, All2 S l l' → All2 R (l.map f) (l'.map g)
  | [], [], _ => trivial
  | _ :: _, _ :: _, h => ⟨hf _ _ h.1, all2_map hf h.2⟩

theorem all2_refl {R : α → α → Prop} : ∀ {l : List α}, (∀ a ∈ l, R a a) → All2 R l l
  | [], _ => trivial
  | a :: l, h => ⟨h a List.mem_cons_self, all2_refl fun b hb => h b (List.mem_cons_of_mem _ hb)⟩

theorem all2_nil {R : α → β → Prop} : All2 R [] [] := trivial

theorem all2_one {R : α → β → Prop} {a : α} {b : β} (h : R a b) : All2 R [a] [b] := ⟨h, trivial⟩

/-! ## Heaps -/

variable {ρ : Ref → Ref → Prop} {N : Nat} {h h' : Heap}

theorem ObjR.kind {o o' : Obj} (h : ObjR ρ o o') : o.kind = o'.kind := by
  cases h <;> rfl

theorem HR.lt (hr : HR ρ N h h') {a b : Ref} (r : ρ a b) : a < h.length ↔ b < h'.length := by
  have := hr.obj a b r
  constructor
  · intro ha
    rw [List.getElem?_eq_getElem ha] at this
    cases hb : h'[b]? with
    | none => rw [hb] at this; exact this.elim
    | some o => exact (List.getElem?_eq_some_iff.1 hb).1
  · intro hb
    rw [List.getElem?_eq_getElem hb] at this
    cases ha : h[a]? with
    | none => rw [ha] at this; exact this.elim
    | some o => exact (List.getElem?_eq_some_iff.1 ha).1

theorem HR.append (R : Ren ρ N) (hr : HR ρ N h h') {o o' : Obj} (ho : ObjR ρ o o') : HR ρ N (h ++ [o]) (h' ++ [o']) where
  len := by rw [List.length_append, List.length_append, hr.len]; rfl
  le := by rw [List.length_append]; exact Nat.le_trans hr.le (Nat.le_add_right _ _)
  obj a b r := by
    by_cases ha : a < h.length
    · rw [List.getElem?_append_left ha, List.getElem?_append_left ((hr.lt r).1 ha)]
      exact hr.obj a b r
    · have hN : N ≤ a := Nat.le_trans hr.le (Nat.le_of_not_lt ha)
      have hb := R.one a a b (R.fresh a hN) r
      subst hb
      have hb : h'.length ≤ a := by rw [← hr.len]; exact Nat.le_of_not_lt ha
      rw [List.getElem?_append_right (Nat.le_of_not_lt ha), List.getElem?_append_right hb, hr.len]
      exact all2_get? (all2_one (R := ObjR ρ) ho) _

theorem HR.next (R : Ren ρ N) (hr : HR ρ N h h') : ρ h.length h'.length := by
  rw [← hr.len]
  exact R.fresh _ hr.le

theorem HR.set (R : Ren ρ N) (hr : HR ρ N h h') {r r' : Ref} (hrr : ρ r r') {o o' : Obj} (ho : ObjR ρ o o') :
    HR ρ N (h.set r o) (h'.set r' o') where
  len := by rw [List.length_set, List.length_set, hr.len]
  le := by rw [List.length_set]; exact hr.le
  obj a b q := by
    by_cases ha : r = a
    · subst ha
      have hb := R.one r r' b hrr q
      subst hb
      by_cases hl : r < h.length
      · rw [List.getElem?_set_self hl, List.getElem?_set_self ((hr.lt hrr).1 hl)]
        exact ho
      · have hl' : ¬ r' < h'.length := fun q => hl ((hr.lt hrr).2 q)
        rw [List.getElem?_eq_none (by rw [List.length_set]; exact Nat.le_of_not_lt hl),
          List.getElem?_eq_none (by rw [List.length_set]; exact Nat.le_of_not_lt hl')]
        trivial
    · have hb : r' ≠ b := fun e => ha (by subst e; exact R.two _ _ _ hrr q)
      rw [List.getElem?_set_ne ha, List.getElem?_set_ne hb]
      exact hr.obj a b q

theorem HR.rd (hr : HR ρ N h h') {a b : Ref} (r : ρ a b) : ExR (ObjR ρ) (Noja.rd h a) (Noja.rd h' b) := by
  have := hr.obj a b r
  unfold Noja.rd
  revert this
  cases h[a]? <;> cases h'[b]? <;> exact id

/-! ## Equality and hashing -/

theorem opEql_rel {a b a' b' : Obj} (h : ObjR ρ a a') (h2 : ObjR ρ b b') : Graph.opEql a b = Graph.opEql a' b' := by
  cases h <;> cases h2 <;> rfl

theorem compare_rel (hr : HR ρ N h h') {a b a' b' : Ref} (r : ρ a a') (s : ρ b b') :
    Graph.compare h a b = Graph.compare h' a' b' := by
  refine ExR.toEq ?_
  unfold Graph.compare
  refine (hr.rd r).bind fun x x' hx => (hr.rd s).bind fun y y' hy => ?_
  rw [hx.kind, hy.kind, opEql_rel hx hy]
  exact ExR.eq rfl

theorem hashSum_rel {f g : Nat → Exec (BitVec 32)} (hf : ∀ a b, ρ a b → f a = g b) : ∀ {l l' : List Ref}, All2 ρ l l' →
    ∀ acc, Graph.hashSum f l acc = Graph.hashSum g l' acc
  | [], [], _, _ => rfl
  | a :: l, b :: l', h, acc => by
    unfold Graph.hashSum
    rw [hf a b h.1]
    simp only [hashSum_rel hf h.2]

theorem hashEntries_rel {f g : Nat → Exec (BitVec 32)} (hf : ∀ a b, ρ a b → f a = g b) : ∀ {l l' : List (Ref × Ref)},
    All2 (Pair2 ρ) l l' → ∀ acc, Graph.hashEntries f l acc = Graph.hashEntries g l' acc
  | [], [], _, _ => rfl
  | (k, v) :: l, (k', v') :: l', h, acc => by
    unfold Graph.hashEntries
    rw [hf k k' h.1.1, hf v v' h.1.2]
    simp only [hashEntries_rel hf h.2]

theorem hashBody_rel {f g : Nat → Exec (BitVec 32)} (hf : ∀ a b, ρ a b → f a = g b) {o o' : Obj} (h : ObjR ρ o o') :
    Graph.hashBody f o = Graph.hashBody g o' := by
  cases h with
  | list h => exact hashSum_rel hf h 0
  | map h => exact hashEntries_rel hf h 0
  | «opaque» k => cases k <;> rfl
  | _ => rfl

theorem hash_rel (hr : HR ρ N h h') : ∀ (fuel : Nat) (a b : Ref), ρ a b → Graph.hash h fuel a = Graph.hash h' fuel b
  | 0, _, _, _ => rfl
  | fuel + 1, a, b, r => ExR.toEq ((hr.rd r).bind fun _ _ ho => ExR.eq (hashBody_rel (hash_rel hr fuel) ho))

/-! ## Printing -/

def FlR (ρ : Ref → Ref → Prop) (f g : Nat → Bool) : Prop := ∀ a b, ρ a b → f a = g b

def TextR (ρ : Ref → Ref → Prop) (x y : Text × (Nat → Bool)) : Prop := x.1 = y.1 ∧ FlR ρ x.2 y.2

theorem FlR.set (R : Ren ρ N) {f g : Nat → Bool} (hf : FlR ρ f g) {a b : Ref} (r : ρ a b) (v : Bool) :
    FlR ρ (Graph.setFlag f a v) (Graph.setFlag g b v) := by
  intro x y q
  unfold Graph.setFlag
  by_cases hx : x = a
  · subst hx
    rw [if_pos rfl, if_pos (R.one _ _ _ q r)]
  · rw [if_neg hx, if_neg (fun e => hx (by subst e; exact R.two _ _ _ q r))]
    exact hf x y q

abbrev Pr := (Nat → Bool) → Nat → Exec (Text × (Nat → Bool))

def PrR (ρ : Ref → Ref → Prop) (p q : Pr) : Prop := ∀ f g a b, FlR ρ f g → ρ a b → ExR (TextR ρ) (p f a) (q g b)

theorem printSeq_rel {p q : Pr} (hp : PrR ρ p q) : ∀ {l l' : List Ref}, All2 ρ l l' → ∀ {f g : Nat → Bool}, FlR ρ f g →
    ExR (TextR ρ) (Graph.printSeq p l f) (Graph.printSeq q l' g)
  | [], [], _, f, g, hf => ⟨rfl, hf⟩
  | a :: l, b :: l', h, f, g, hf => by
    unfold Graph.printSeq
    refine (hp f g a b hf h.1).bind fun (t, f) (t', g) h1 => ?_
    obtain ⟨e, h1⟩ := h1
    have e : t = t' := e
    subst e
    refine (printSeq_rel hp h.2 h1).bind fun (u, f) (u', g) h2 => ?_
    obtain ⟨e, h2⟩ := h2
    have e : u = u' := e
    subst e
    rw [all2_isEmpty h.2]
    exact ⟨rfl, h2⟩

theorem printEntries_rel {p q : Pr} (hp : PrR ρ p q) : ∀ {l l' : List (Ref × Ref)}, All2 (Pair2 ρ) l l' →
    ∀ {f g : Nat → Bool}, FlR ρ f g → ExR (TextR ρ) (Graph.printEntries p l f) (Graph.printEntries q l' g)
  | [], [], _, f, g, hf => ⟨rfl, hf⟩
  | (k, v) :: l, (k', v') :: l', h, f, g, hf => by
    unfold Graph.printEntries
    refine (hp f g k k' hf h.1.1).bind fun (t, f) (t', g) h1 => ?_
    obtain ⟨e, h1⟩ := h1
    have e : t = t' := e
    subst e
    refine (hp f g v v' h1 h.1.2).bind fun (s, f) (s', g) h1 => ?_
    obtain ⟨e, h1⟩ := h1
    have e : s = s' := e
    subst e
    refine (printEntries_rel hp h.2 h1).bind fun (u, f) (u', g) h2 => ?_
    obtain ⟨e, h2⟩ := h2
    have e : u = u' := e
    subst e
    rw [all2_isEmpty h.2]
    exact ⟨rfl, h2⟩

theorem printBody_rel (fmt : BitVec 64 → Text) {p q : Pr} (hp : PrR ρ p q) {f g : Nat → Bool} (hf : FlR ρ f g) {o o' : Obj}
    (h : ObjR ρ o o') : ExR (TextR ρ) (Graph.printBody fmt p f o) (Graph.printBody fmt q g o') := by
  cases h with
  | list h =>
    unfold Graph.printBody
    refine (printSeq_rel hp h hf).bind fun (t, f) (t', g) h1 => ?_
    obtain ⟨e, h1⟩ := h1
    have e : t = t' := e
    subst e
    exact ⟨rfl, h1⟩
  | map h =>
    unfold Graph.printBody
    refine (printEntries_rel hp h hf).bind fun (t, f) (t', g) h1 => ?_
    obtain ⟨e, h1⟩ := h1
    have e : t = t' := e
    subst e
    exact ⟨rfl, h1⟩
  | nullable h =>
    unfold Graph.printBody
    refine (hp f g _ _ hf h).bind fun (t, f) (t', g) h1 => ?_
    obtain ⟨e, h1⟩ := h1
    have e : t = t' := e
    subst e
    exact ⟨rfl, h1⟩
  | sum ha hb =>
    unfold Graph.printBody
    refine (hp f g _ _ hf ha).bind fun (t, f) (t', g) h1 => ?_
    obtain ⟨e, h1⟩ := h1
    have e : t = t' := e
    subst e
    refine (hp f g _ _ h1 hb).bind fun (s, f) (s', g) h1 => ?_
    obtain ⟨e, h1⟩ := h1
    have e : s = s' := e
    subst e
    exact ⟨rfl, h1⟩
  | _ => exact ⟨rfl, hf⟩

theorem print_rel (R : Ren ρ N) (fmt : BitVec 64 → Text) (hr : HR ρ N h h') : ∀ (fuel : Nat), PrR ρ (Graph.print fmt h fuel) (Graph.print fmt h' fuel)
  | 0, f, g, a, b, _, _ => trivial
  | fuel + 1, f, g, a, b, hf, r => by
    unfold Graph.print
    refine (hr.rd r).bind fun o o' ho => ?_
    rw [hf a b r]
    by_cases hg : g b = true
    · rw [if_pos hg, if_pos hg]
      exact ⟨rfl, hf⟩
    · rw [if_neg hg, if_neg hg]
      refine (printBody_rel fmt (print_rel R fmt hr fuel) (hf.set R r true) ho).bind fun (t, f) (t', g) h1 => ?_
      obtain ⟨e, h1⟩ := h1
      have e : t = t' := e
      subst e
      exact ⟨rfl, FlR.set R h1 r false⟩

/-! ## Types -/

def HitR (ρ : Ref → Ref → Prop) (hit hit' : Nat → Nat → Bool) : Prop := ∀ a b a' b', ρ a a' → ρ b b' → hit a b = hit' a' b'

variable {hit hit' : Nat → Nat → Bool}

theorem lookup_rel (hh : HitR ρ hit hit') (hr : HR ρ N h h') {key key' : Ref} (rk : ρ key key') : ∀ {l l' : List (Ref × Ref)},
    All2 (Pair2 ρ) l l' → ∀ e, ExR (fun x y => Opt2 ρ x.1 y.1 ∧ x.2 = y.2) (Graph.lookup hit h key l e) (Graph.lookup hit' h' key' l' e)
  | [], [], _, e => ⟨trivial, rfl⟩
  | (k, v) :: l, (k', v') :: l', hl, e => by
    unfold Graph.lookup
    rw [hh key k key' k' rk hl.1.1, compare_rel hr rk hl.1.1]
    by_cases q : hit' key' k' = true
    · rw [if_pos q, if_pos q]
      cases Graph.compare h' key' k' with
      | ok b =>
        cases b with
        | true => exact ⟨hl.1.2, rfl⟩
        | false =>
          dsimp only
          by_cases he : e = true
          · rw [if_pos he, if_pos he]; exact ⟨trivial, rfl⟩
          · rw [if_neg he, if_neg he]; exact lookup_rel hh hr rk hl.2 e
      | err => exact ⟨trivial, rfl⟩
      | ub => trivial
      | diverge => trivial
    · rw [if_neg q, if_neg q]
      exact lookup_rel hh hr rk hl.2 e

abbrev Ty := Bool → Nat → Nat → Exec (Bool × Bool)

def TyR (ρ : Ref → Ref → Prop) (f g : Ty) : Prop := ∀ e a b a' b', ρ a a' → ρ b b' → f e a b = g e a' b'

theorem itemsOf_rel {f g : Ty} (hf : TyR ρ f g) : ∀ {l l' : List Ref}, All2 ρ l l' → ∀ {v v' : List Ref}, All2 ρ v v' → ∀ e,
    Graph.itemsOf f l v e = Graph.itemsOf g l' v' e
  | [], [], _, _, _, _, _ => rfl
  | _ :: _, _ :: _, _, [], [], _, _ => rfl
  | a :: l, b :: l', h, v :: vs, v' :: vs', hv, e => by
    unfold Graph.itemsOf
    rw [hf e a v b v' h.1 hv.1]
    simp only [itemsOf_rel hf h.2 hv.2]

theorem entriesOf_rel {f g : Ty} (hf : TyR ρ f g) {l1 l2 : Nat → Bool → Exec (Option Nat × Bool)}
    (hl : ∀ a b e, ρ a b → ExR (fun x y => Opt2 ρ x.1 y.1 ∧ x.2 = y.2) (l1 a e) (l2 b e)) :
    ∀ {l l' : List (Ref × Ref)}, All2 (Pair2 ρ) l l' → ∀ e, Graph.entriesOf f l1 l e = Graph.entriesOf g l2 l' e
  | [], [], _, _ => rfl
  | (k, t) :: l, (k', t') :: l', h, e => by
    refine ExR.toEq ?_
    unfold Graph.entriesOf
    refine (hl k k' e h.1.1).bind fun (v, e) (v', e') hv => ?_
    obtain ⟨hv, he⟩ := hv
    have he : e = e' := he
    subst he
    cases v <;> cases v' <;> first | exact hv.elim | skip
    · exact ExR.eq rfl
    · rename_i v v'
      dsimp only
      rw [hf e t v t' v' h.1.2 hv]
      simp only [entriesOf_rel hf hl h.2]
      exact ExR.eq rfl

theorem typeBody_rel (hh : HitR ρ hit hit') (hr : HR ρ N h h') {f g : Ty} (hf : TyR ρ f g) (e : Bool) {v v' : Ref} (rv : ρ v v')
    {ov ov' ot ot' : Obj} (hv : ObjR ρ ov ov') (ht : ObjR ρ ot ot') :
    Graph.typeBody f hit h e v ov ot = Graph.typeBody g hit' h' e v' ov' ot' := by
  cases ht with
  | type k => unfold Graph.typeBody; rw [hv.kind]
  | nullable r =>
    unfold Graph.typeBody
    dsimp only
    rw [hv.kind, hf e _ v _ v' r rv]
  | sum r s =>
    unfold Graph.typeBody
    dsimp only
    rw [hf e _ v _ v' r rv]
    have : ∀ e, f e _ v = g e _ v' := fun e => hf e _ v _ v' s rv
    simp only [this]
  | list h => cases hv <;> first | exact itemsOf_rel hf h ‹_› e | rfl
  | map h =>
    cases hv with
    | map h2 => exact entriesOf_rel hf (fun a b e r => lookup_rel hh hr r h2 e) h e
    | _ => rfl
  | _ => rfl

theorem isTypeOf_rel (hh : HitR ρ hit hit') (hr : HR ρ N h h') : ∀ (fuel : Nat), TyR ρ (Graph.isTypeOf hit h fuel) (Graph.isTypeOf hit' h' fuel)
  | 0, _, _, _, _, _, _, _ => rfl
  | fuel + 1, e, t, v, t', v', rt, rv => ExR.toEq ((hr.rd rt).bind fun _ _ ho => (hr.rd rv).bind fun _ _ hv =>
      ExR.eq (typeBody_rel hh hr (isTypeOf_rel hh hr fuel) e rv hv ho))

/-! ## Copies -/

theorem findKey_rel (hh : HitR ρ hit hit') (hr : HR ρ N h h') {key key' : Ref} (rk : ρ key key') : ∀ {l l' : List (Ref × Ref)},
    All2 (Pair2 ρ) l l' → ∀ i, Graph.findKey hit h key l i = Graph.findKey hit' h' key' l' i
  | [], [], _, _ => rfl
  | (k, v) :: l, (k', v') :: l', hl, i => by
    unfold Graph.findKey
    rw [hh key k key' k' rk hl.1.1, compare_rel hr rk hl.1.1]
    simp only [findKey_rel hh hr rk hl.2]

abbrev Cp := Heap → Nat → Exec (Heap × Nat)

def CpR (ρ : Ref → Ref → Prop) (N : Nat) (c d : Cp) : Prop :=
  ∀ h h' a b, HR ρ N h h' → ρ a b → ExR (fun x y => HR ρ N x.1 y.1 ∧ ρ x.2 y.2) (c h a) (d h' b)

def HsR (ρ : Ref → Ref → Prop) (N : Nat) (c d : Heap → Nat → Exec (BitVec 32)) : Prop :=
  ∀ h h' a b, HR ρ N h h' → ρ a b → c h a = d h' b

theorem copyItems_rel {c d : Cp} (hc : CpR ρ N c d) : ∀ {l l' : List Ref}, All2 ρ l l' → ∀ {h h' : Heap}, HR ρ N h h' →
    ExR (fun x y => HR ρ N x.1 y.1 ∧ All2 ρ x.2 y.2) (Graph.copyItems c h l) (Graph.copyItems d h' l')
  | [], [], _, _, _, hr => ⟨hr, trivial⟩
  | a :: l, b :: l', hl, h, h', hr => by
    unfold Graph.copyItems
    refine (hc h h' a b hr hl.1).bind fun (h, r) (h', r') q => ?_
    refine (copyItems_rel hc hl.2 q.1).bind fun (h, rs) (h', rs') q2 => ?_
    exact ⟨q2.1, q.2, q2.2⟩

theorem mapInsert_rel (R : Ren ρ N) (hh : HitR ρ hit hit') {hs hs' : Heap → Nat → Exec (BitVec 32)} (hhs : HsR ρ N hs hs')
    {c d : Cp} (hc : CpR ρ N c d) (hr : HR ρ N h h') {m m' key key' val val' : Ref} (rm : ρ m m') (rk : ρ key key')
    (rv : ρ val val') : ExR (HR ρ N) (Graph.mapInsert hit hs c h m key val) (Graph.mapInsert hit' hs' d h' m' key' val') := by
  unfold Graph.mapInsert
  refine (hr.rd rm).bind fun o o' ho => ?_
  cases ho with
  | map he =>
    rename_i l l'
    dsimp only
    rw [hhs h h' key key' hr rk, findKey_rel hh hr rk he 0]
    refine (ExR.eq (rfl : hs' h' key' = _)).bind fun _ _ _ => ?_
    refine (ExR.eq (rfl : Graph.findKey hit' h' key' l' 0 = _)).bind fun i _ q => ?_
    subst q
    cases i with
    | some i =>
      dsimp only
      have hg := all2_get? he i
      revert hg
      cases l[i]? with
      | none =>
        cases l'[i]? with
        | none => exact fun _ => trivial
        | some _ => exact fun q => q.elim
      | some x =>
        cases l'[i]? with
        | none => exact fun q => q.elim
        | some y =>
          intro q
          exact hr.set R rm (.map (All2.set (R := Pair2 ρ) (show Pair2 ρ (x.1, val) (y.1, val') from ⟨q.1, rv⟩) i he))
    | none =>
      refine (hc h h' key key' hr rk).bind fun (h, k) (h', k') q => ?_
      exact q.1.set R rm (.map (All2.append he (all2_one ⟨q.2, rv⟩)))
  | _ => trivial

theorem copyEntries_rel (R : Ren ρ N) (hh : HitR ρ hit hit') {hs hs' : Heap → Nat → Exec (BitVec 32)} (hhs : HsR ρ N hs hs')
    {c d : Cp} (hc : CpR ρ N c d) {m m' : Ref} (rm : ρ m m') : ∀ {l l' : List (Ref × Ref)}, All2 (Pair2 ρ) l l' →
    ∀ {h h' : Heap}, HR ρ N h h' → ExR (HR ρ N) (Graph.copyEntries hit hs c m h l) (Graph.copyEntries hit' hs' d m' h' l')
  | [], [], _, _, _, hr => hr
  | (k, v) :: l, (k', v') :: l', hl, h, h', hr => by
    unfold Graph.copyEntries
    refine (hc h h' k k' hr hl.1.1).bind fun (h, k) (h', k') q => ?_
    refine (hc h h' v v' q.1 hl.1.2).bind fun (h, v) (h', v') q2 => ?_
    exact (mapInsert_rel R hh hhs hc q2.1 rm q.2 q2.2).bind fun h h' q3 => copyEntries_rel R hh hhs hc rm hl.2 q3

theorem copyBody_rel (R : Ren ρ N) (hh : HitR ρ hit hit') {hs hs' : Heap → Nat → Exec (BitVec 32)} (hhs : HsR ρ N hs hs')
    {c d : Cp} (hc : CpR ρ N c d) (hr : HR ρ N h h') {r r' : Ref} (q : ρ r r') {o o' : Obj} (ho : ObjR ρ o o') :
    ExR (fun x y => HR ρ N x.1 y.1 ∧ ρ x.2 y.2) (Graph.copyBody hit hs c h r o) (Graph.copyBody hit' hs' d h' r' o') := by
  cases ho with
  | list hl =>
    unfold Graph.copyBody
    refine (copyItems_rel hc hl (hr.append R (.list all2_nil))).bind fun (h1, rs) (h1', rs') q => ?_
    exact ⟨q.1.set R (hr.next R) (.list q.2), hr.next R⟩
  | map hl =>
    unfold Graph.copyBody
    refine (copyEntries_rel R hh hhs hc (hr.next R) hl (hr.append R (.map all2_nil))).bind fun h1 h1' q => ?_
    exact ⟨q, hr.next R⟩
  | «opaque» k => cases k <;> first | exact ⟨hr, q⟩ | trivial
  | none => exact ⟨hr, q⟩
  | bool b => exact ⟨hr, q⟩
  | int b => exact ⟨hr, q⟩
  | float b => exact ⟨hr, q⟩
  | str b => exact ⟨hr, q⟩
  | _ => trivial

theorem copy_rel (R : Ren ρ N) (hh : HitR ρ hit hit') : ∀ (fuel : Nat), CpR ρ N (Graph.copy hit fuel) (Graph.copy hit' fuel)
  | 0, _, _, _, _, _, _ => trivial
  | fuel + 1, h, h', a, b, hr, r => (hr.rd r).bind fun _ _ ho =>
      copyBody_rel R hh (fun _ _ _ _ hr r => hash_rel hr fuel _ _ r) (copy_rel R hh fuel) hr r ho

end Noja.VM.Move
