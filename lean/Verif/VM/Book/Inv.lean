import Verif.VM.Book.Rel

/-!
# The invariant, and what it means that the interpreter does what the book says
-/

set_option linter.unusedVariables false
set_option linter.unusedSimpArgs false

namespace Noja.VM.Book

open Noja.Graph (Obj Kind Heap)

/-- What is around a program: the configuration, the number of objects and the output at its start, the
table of builtins and the scope of what `start.noja` returns, once it has run; the condition on keys, for
keys and for objects. -/
structure Setup where
  C : Config
  N : Nat
  pre : List UInt8
  T : Ref
  lib : List Nat
  fine : List Key → Bool
  pos : Heap → List Ref → Bool

/-- basic.c:111-120 `bin_print`. -/
def printNative (fmt : BitVec 64 → Graph.Text) : List Ref → World → Out World NRes
  | [], w => .ok w (.done [])
  | r :: rs, w =>
    match Graph.print fmt w.heap (w.heap.length + 1) (fun _ => false) r with
    | .ok (t, _) => printNative fmt rs { w with out := w.out ++ t }
    | .err => .err w
    | _ => .ub

/-- The floating point unit of the book. -/
def Floats.arith (fl : Floats) : Num.FloatArith :=
  ⟨fun op => match op with | .add => fl.add | .sub => fl.sub | .mul => fl.mul | .div => fl.div⟩

structure Setup.Ok [fl : Floats] (S : Setup) : Prop where
  conf : Conf S.C
  deep : typeDepth ≤ S.C.fuel
  statics : statics.length ≤ S.N
  arith : S.C.arith = fl.arith
  print : S.C.native 11 = printNative fl.write
  math : ∀ f : MathFn, S.C.native (Prim.math f).id = onArgs (mathArgs (fl.fn f))
  atan2 : S.C.native 31 = onArgs (mathArgs2 fl.atan2)
  selectX : ∀ o k w, o.kind ≠ .buffer → S.C.selectX o k w = .ok { w with err := true } none
  insertX : ∀ o a b c w, o.kind ≠ .buffer → S.C.insertX o a b c w = .err w
  fine : ∀ (h : Heap) (rs : List Ref) (ks : List Key), (∀ r ∈ rs, ∃ k ∈ ks, KeyIs h r k) → S.fine ks = true →
    S.pos h rs = true

structure Inv (S : Setup) (e : Emb) (σ : Store) (s : SSt World) : Prop where
  err : s.w.err = false
  base : S.N ≤ s.w.heap.length
  tabo : s.w.heap[S.T]? = some (.opaque .smap)
  tabt : s.w.tab S.T = 0
  bins : ∃ L, Bins s.w S.T S.C.builtins L ∧ All2 (At e) L S.lib
  out : s.w.out = S.pre ++ σ.out
  len : e.length = σ.cells.length
  nodup : e.Nodup
  low : ∀ x ∈ e, S.N ≤ x ∧ x < s.w.heap.length
  cells : ∀ a c r, σ.cells[a]? = some c → At e r a → Holds e s r c

/-- The interpreter's result is the one of the book. -/
def Sim (S : Setup) (D : List Ref) (e : Emb) (s : SSt World) {α β : Type} (Q : Emb → SSt World → α → β → Prop)
    (x : Res World α) (y : R β) : Prop :=
  match y with
  | .ok σ' b => ∃ s' a e', x = .ok s' a ∧ Le D e s e' s' ∧ Inv S e' σ' s' ∧ Q e' s' a b
  | .err o => ∃ w, x = .err w ∧ w.out = S.pre ++ o
  | .off => True
  | .more => x = .more

section
variable {S : Setup} {D : List Ref} {e e' : Emb} {σ : Store} {s s' : SSt World} {α β γ δ : Type}
  {Q : Emb → SSt World → α → β → Prop} {Q' : Emb → SSt World → γ → δ → Prop}

theorem Sim.bind {m : M World α} {f : α → M World γ} {b : B β} {g : β → B δ}
    (h : Sim S D e s Q (m s) (b σ))
    (k : ∀ e' σ' s' x y, Le D e s e' s' → Inv S e' σ' s' → Q e' s' x y → Sim S D e' s' Q' (f x s') (g y σ')) :
    Sim S D e s Q' ((m >>= f) s) ((b >>= g) σ) := by
  show Sim S D e s Q' (M.bind m f s) (B.bind b g σ)
  unfold M.bind B.bind
  cases hb : b σ with
  | ok σ' y =>
    rw [hb] at h
    obtain ⟨s', a, e', hm, hl, hi, hq⟩ := h
    rw [hm]
    dsimp only
    have hk := k e' σ' s' a y hl hi hq
    cases hg : g y σ' with
    | ok σ'' z =>
      rw [hg] at hk
      obtain ⟨s'', c, e'', hf, hl', hi', hq'⟩ := hk
      exact ⟨s'', c, e'', hf, hl.trans hl', hi', hq'⟩
    | err o => rw [hg] at hk; exact hk
    | off => trivial
    | more => rw [hg] at hk; exact hk
  | err o =>
    rw [hb] at h
    obtain ⟨w, hm, ho⟩ := h
    rw [hm]
    exact ⟨w, rfl, ho⟩
  | off => trivial
  | more =>
    rw [hb] at h
    have h' : m s = .more := h
    rw [h']
    exact rfl

theorem Sim.pure {a : α} {b : β} (hi : Inv S e σ s) (hq : Q e s a b) :
    Sim S D e s Q ((Pure.pure a : M World α) s) ((Pure.pure b : B β) σ) :=
  ⟨s, a, e, rfl, .refl _ _ _, hi, hq⟩

theorem Sim.mono {x : Res World α} {y : R β} (h : Sim S [] e s Q x y) : Sim S D e s Q x y := by
  unfold Sim at h ⊢
  cases y with
  | ok σ' b =>
    obtain ⟨s', a, e', hm, hl, hi, hq⟩ := h
    exact ⟨s', a, e', hm, hl.mono nofun, hi, hq⟩
  | err o => exact h
  | off => trivial
  | more => exact h

theorem Sim.imp {P : Emb → SSt World → α → β → Prop} {x : Res World α} {y : R β} (h : Sim S D e s Q x y)
    (hi : ∀ e s a b, Q e s a b → P e s a b) : Sim S D e s P x y := by
  unfold Sim at h ⊢
  cases y with
  | ok σ' b =>
    obtain ⟨s', a, e', hm, hl, hv, hq⟩ := h
    exact ⟨s', a, e', hm, hl, hv, hi _ _ _ _ hq⟩
  | err o => exact h
  | off => trivial
  | more => exact h

theorem Sim.stop (hi : Inv S e σ s) {x : Res World α} (hx : ∃ w, x = .err w ∧ w.out = s.w.out) :
    Sim S D e s Q x (.err σ.out) := by
  obtain ⟨w, h, ho⟩ := hx
  exact ⟨w, h, by rw [ho, hi.out]⟩

/-- An operation that returns. -/
theorem Sim.lift {f : World → Out World α} {w : World} {a : α} {b : β} {σ' : Store}
    (hf : f s.w = .ok w a) (hl : Le D e s e' ⟨w, s.funs⟩) (hi : Inv S e' σ' ⟨w, s.funs⟩)
    (hq : Q e' ⟨w, s.funs⟩ a b) : Sim S D e s Q (VM.lift (objects (std S.C)) f s) (.ok σ' b) := by
  refine ⟨⟨w, s.funs⟩, a, e', ?_, hl, hi, hq⟩
  unfold VM.lift
  rw [hf]
  dsimp only
  rw [if_neg (by show ¬ w.err = true; rw [show w.err = false from hi.err]; simp)]

/-- An operation that fails. -/
theorem Sim.liftErr (hi : Inv S e σ s) {f : World → Out World α} {w : World} (hf : f s.w = .err w)
    (ho : w.out = s.w.out) : Sim S D e s Q (VM.lift (objects (std S.C)) f s) (.err σ.out) := by
  refine Sim.stop hi ⟨w, ?_, ho⟩
  unfold VM.lift
  rw [hf]

/-! ## Steps -/

/-- Objects were added. -/
theorem Le.grow {t : List Obj} (hh : s'.w.heap = s.w.heap ++ t)
    (hc : ∀ x, x < s.w.heap.length → s'.w.clos x = s.w.clos x)
    (hf : ∀ x, x < s.w.heap.length → s'.w.fclo x = s.w.fclo x)
    (hn : ∀ x, x < s.w.heap.length → s'.w.nat x = s.w.nat x)
    (ht : ∀ x, x < s.w.heap.length → s'.w.tab x = s.w.tab x)
    (hu : ∀ x, x < s.w.heap.length → s'.funs x = s.funs x) : Le D e s e s' where
  pre := ⟨[], by simp⟩
  fresh _ h := .inl h
  len := by rw [hh]; simp
  obj x o ho _ _ _ := by rw [hh, List.getElem?_append_left (get_lt ho)]; exact ho
  frame x hx _ _ := by rw [hh, List.getElem?_append_left hx]
  clos := hc
  fclo := hf
  nat := hn
  tab := ht
  funs := hu

theorem Le.alloc (D : List Ref) (e : Emb) (s : SSt World) (o : Obj) : Le D e s e ⟨(s.w.alloc o).1, s.funs⟩ :=
  .grow (t := [o]) (alloc_heap _ _) (fun _ _ => rfl) (fun _ _ => rfl) (fun _ _ => rfl) (fun _ _ => rfl) fun _ _ => rfl

/-- The objects of the cells are as before. -/
theorem Inv.same [Floats] (h : Inv S e σ s) (ok : S.Ok) (l : Le [] e s e s') (hx : ∀ x ∈ e, s'.w.heap[x]? = s.w.heap[x]?)
    (he : s'.w.err = false) (ho : s'.w.out = s.w.out) : Inv S e σ s' where
  err := he
  base := Nat.le_trans h.base l.len
  tabo := l.obj _ _ h.tabo nofun nofun nofun
  tabt := by rw [l.tab _ (get_lt h.tabo)]; exact h.tabt
  bins := by
    obtain ⟨L, h1, h2⟩ := h.bins
    exact ⟨L, h1.le l, h2.imp fun _ _ h => h.le l⟩
  out := by rw [ho]; exact h.out
  len := h.len
  nodup := h.nodup
  low x hx := ⟨(h.low x hx).1, Nat.lt_of_lt_of_le (h.low x hx).2 l.len⟩
  cells a c r hc hr := (h.cells a c r hc hr).le l (hx r (List.mem_of_getElem? hr))

theorem Inv.alloc [Floats] (h : Inv S e σ s) (ok : S.Ok) (o : Obj) : Inv S e σ ⟨(s.w.alloc o).1, s.funs⟩ :=
  h.same ok (.alloc [] e s o) (fun x hx => by
    show (s.w.alloc o).1.heap[x]? = _
    rw [alloc_heap, List.getElem?_append_left (h.low x hx).2]) h.err rfl

/-- An object that is no cell has changed. -/
theorem Inv.aside [Floats] (h : Inv S e σ s) (ok : S.Ok) (l : Le D e s e s') (hD : ∀ x ∈ D, S.N ≤ x)
    (hx : ∀ x ∈ e, s'.w.heap[x]? = s.w.heap[x]?)
    (he : s'.w.err = false) (ho : s'.w.out = s.w.out) : Inv S e σ s' where
  err := he
  base := Nat.le_trans h.base l.len
  tabo := l.obj _ _ h.tabo nofun nofun nofun
  tabt := by rw [l.tab _ (get_lt h.tabo)]; exact h.tabt
  bins := by
    obtain ⟨L, h1, h2⟩ := h.bins
    exact ⟨L, h1.le l, h2.imp fun _ _ h => h.le l⟩
  out := by rw [ho]; exact h.out
  len := h.len
  nodup := h.nodup
  low x hx := ⟨(h.low x hx).1, Nat.lt_of_lt_of_le (h.low x hx).2 l.len⟩
  cells a c r hc hr := (h.cells a c r hc hr).le l (hx r (List.mem_of_getElem? hr))

/-- One cell has changed. -/
theorem Inv.upd [Floats] (h : Inv S e σ s) (ok : S.Ok) (l : Le [] e s e s') {a : Nat} {r : Ref} {c : Cell} (ha : At e r a)
    (hx : ∀ x ∈ e, x ≠ r → s'.w.heap[x]? = s.w.heap[x]?) (hc : Holds e s' r c)
    (he : s'.w.err = false) (ho : s'.w.out = s.w.out) : Inv S e { σ with cells := σ.cells.set a c } s' where
  err := he
  base := Nat.le_trans h.base l.len
  tabo := l.obj _ _ h.tabo nofun nofun nofun
  tabt := by rw [l.tab _ (get_lt h.tabo)]; exact h.tabt
  bins := by
    obtain ⟨L, h1, h2⟩ := h.bins
    exact ⟨L, h1.le l, h2.imp fun _ _ h => h.le l⟩
  out := by rw [ho]; exact h.out
  len := by rw [List.length_set]; exact h.len
  nodup := h.nodup
  low x hx := ⟨(h.low x hx).1, Nat.lt_of_lt_of_le (h.low x hx).2 l.len⟩
  cells b c' r' hb hr := by
    dsimp only at hb
    by_cases q : a = b
    · subst q
      have : r = r' := by
        have h1 : e[a]? = some r := ha
        have h2 : e[a]? = some r' := hr
        rw [h1] at h2
        exact Option.some.inj h2
      subst this
      have hl : a < σ.cells.length := by rw [← h.len]; exact (List.getElem?_eq_some_iff.1 ha).1
      rw [List.getElem?_set_self hl] at hb
      cases hb
      exact hc
    · rw [List.getElem?_set_ne q] at hb
      refine (h.cells b c' r' hb hr).le l (hx r' (List.mem_of_getElem? hr) fun e => q ?_)
      subst e
      have h1 := List.getElem?_eq_some_iff.1 ha
      have h2 := List.getElem?_eq_some_iff.1 hr
      exact (List.getElem_inj h.nodup).1 (h1.2.trans h2.2.symm)

/-- A cell was added, for an object that is there already. -/
theorem Inv.push [Floats] (h : Inv S e σ s) (ok : S.Ok) {r : Ref} {c : Cell} (hr : r ∉ e) (hN : S.N ≤ r)
    (hc : Holds e s r c) : Inv S (e ++ [r]) { σ with cells := σ.cells ++ [c] } s := by
  have hrl : r < s.w.heap.length := by
    cases c with
    | list items => exact get_lt hc.choose_spec.1
    | map es => exact get_lt hc.choose_spec.1
    | scope env => exact hc.choose_spec.1.lt
    | buffer bs => exact get_lt hc
  have at' : ∀ x a, At e x a → At (e ++ [r]) x a := fun x a hx => by
    unfold At at hx ⊢
    rw [List.getElem?_append_left (List.getElem?_eq_some_iff.1 hx).1]
    exact hx
  have rep : ∀ x v, Rep e s x v → Rep (e ++ [r]) s x v := by
    intro x v hv
    cases v with
    | ref a => exact at' _ _ hv
    | type t => exact ⟨hv.1.push r, hv.2⟩
    | fn f chain =>
      obtain ⟨a, b, c, rs, d, f, g⟩ := hv
      exact ⟨a, b, c, rs, d, f, g.imp at'⟩
    | _ => exact hv
  have holds : ∀ x c, Holds e s x c → Holds (e ++ [r]) s x c := by
    intro x c hc
    cases c with
    | list items => obtain ⟨rs, a, b⟩ := hc; exact ⟨rs, a, b.imp rep⟩
    | map es => obtain ⟨rs, a, b, d⟩ := hc; exact ⟨rs, a, b.imp fun _ _ h => ⟨rep _ _ h.1, rep _ _ h.2⟩, d⟩
    | scope env => obtain ⟨rs, a, b⟩ := hc; exact ⟨rs, a, b.imp fun _ _ h => ⟨h.1, rep _ _ h.2⟩⟩
    | buffer bs => exact hc
  exact
    { err := h.err
      base := h.base
      tabo := h.tabo
      tabt := h.tabt
      bins := by
        obtain ⟨L, h1, h2⟩ := h.bins
        exact ⟨L, h1, h2.imp at'⟩
      out := h.out
      len := by simp [h.len]
      nodup := by
        rw [List.nodup_append]
        refine ⟨h.nodup, by simp, fun x hx y hy e => ?_⟩
        rw [List.mem_singleton.1 hy] at e
        exact hr (e ▸ hx)
      low := fun x hx => by
        rcases List.mem_append.1 hx with hx | hx
        · exact h.low x hx
        · rw [List.mem_singleton.1 hx]; exact ⟨hN, hrl⟩
      cells := fun b c' r' hb hr' => by
        dsimp only at hb
        unfold At at hr'
        by_cases q : b < e.length
        · rw [List.getElem?_append_left (by rw [← h.len]; exact q)] at hb
          rw [List.getElem?_append_left q] at hr'
          exact holds _ _ (h.cells b c' r' hb hr')
        · have hb' : b = e.length := by
            have := (List.getElem?_eq_some_iff.1 hr').1
            simp at this
            omega
          subst hb'
          rw [h.len] at hb hr'
          rw [List.getElem?_append_right (Nat.le_refl _)] at hb
          rw [← h.len] at hr'
          rw [List.getElem?_append_right (Nat.le_refl _)] at hr'
          simp at hb hr'
          subst hb
          subst hr'
          exact holds _ _ hc }

theorem Le.push {r : Ref} (l : Le D e s e' s') (hr : s.w.heap.length ≤ r) : Le D e s (e' ++ [r]) s' :=
  { l with
    pre := by
      obtain ⟨t, rfl⟩ := l.pre
      exact ⟨t ++ [r], by simp⟩
    fresh := fun x hx => by
      rcases List.mem_append.1 hx with hx | hx
      · exact l.fresh x hx
      · rw [List.mem_singleton.1 hx]; exact .inr hr }

theorem at_push (h : Inv S e σ s) (r : Ref) : At (e ++ [r]) r σ.cells.length := by
  unfold At
  rw [← h.len]
  simp

/-- Changing the object of a cell. -/
theorem Le.set {r : Ref} {o o' : Obj} (ho : s.w.heap[r]? = some o) (hk : o.kind = .list ∨ o.kind = .map ∨ o.kind = .buffer)
    (hr : r ∈ e ∨ r ∈ D) (hs : statics.length ≤ r) :
    Le D e s e ⟨s.w.withHeap (s.w.heap.set r o'), s.funs⟩ where
  pre := ⟨[], by simp⟩
  fresh _ h := .inl h
  len := by show _ ≤ (s.w.withHeap (s.w.heap.set r o')).heap.length; rw [heap_set hs]; simp
  obj x p hp h1 h2 h3 := by
    show (s.w.withHeap (s.w.heap.set r o')).heap[x]? = _
    rw [heap_set hs, List.getElem?_set_ne]
    · exact hp
    · intro q
      subst q
      rw [ho] at hp
      cases hp
      rcases hk with h | h | h
      · exact h1 h
      · exact h2 h
      · exact h3 h
  frame x hx h1 h2 := by
    show (s.w.withHeap (s.w.heap.set r o')).heap[x]? = _
    rw [heap_set hs, List.getElem?_set_ne]
    intro q
    subst q
    rcases hr with h | h
    · exact h1 h
    · exact h2 h
  clos _ _ := rfl
  fclo _ _ := rfl
  nat _ _ := rfl
  tab _ _ := rfl
  funs _ _ := rfl

/-! ## The object of a value -/

/-- The object of a type, its parts aside. -/
def TyLooks (o : Obj) : Ty → Prop
  | .kind k => o = .type k
  | .any => o = .any
  | .sum _ _ => ∃ x y, o = .sum x y
  | .nullable _ => ∃ x, o = .nullable x
  | .cell _ | .other => False

theorem TyLooks.cases {o : Obj} : ∀ {t : Ty}, TyLooks o t →
    (∃ k, o = .type k) ∨ o = .any ∨ (∃ x y, o = .sum x y) ∨ ∃ x, o = .nullable x
  | .kind k, h => .inl ⟨k, h⟩
  | .any, h => .inr (.inl h)
  | .sum _ _, h => .inr (.inr (.inl h))
  | .nullable _, h => .inr (.inr (.inr h))
  | .cell _, h => h.elim
  | .other, h => h.elim

theorem RepTy.looks {h : Heap} {r : Ref} : ∀ {t : Ty}, RepTy e h r t ∧ t.proper → ∃ o, h[r]? = some o ∧ TyLooks o t
  | .kind _, hr => ⟨_, hr.1, rfl⟩
  | .any, hr => ⟨_, hr.1, rfl⟩
  | .sum _ _, ⟨⟨x, y, hr, _⟩, _⟩ => ⟨_, hr, x, y, rfl⟩
  | .nullable _, ⟨⟨x, hr, _⟩, _⟩ => ⟨_, hr, x, rfl⟩
  | .cell _, hr => hr.2.elim
  | .other, hr => hr.2.elim

theorem Rep.part {r : Ref} {v : Val} (hr : Rep e s r v) : RepTy e s.w.heap r v.part := by
  cases v with
  | type t => exact hr.1
  | ref a => exact hr
  | str t => exact ⟨_, hr.1, trivial, nofun, nofun, nofun⟩
  | fn f c => exact ⟨_, hr.1, trivial, nofun, nofun, nofun⟩
  | prim p => exact ⟨_, hr.1, trivial, nofun, nofun, nofun⟩
  | lib _ => exact ⟨_, hr.1, trivial, nofun, nofun, nofun⟩
  | _ => exact ⟨_, hr, trivial, nofun, nofun, nofun⟩

def Looks (σ : Store) (o : Obj) : Val → Prop
  | .none => o = .none
  | .bool b => o = .bool b
  | .int v => o = .int v
  | .float x => o = .float x
  | .str t => o = .str (Str.Spec.ofText t) ∧ Plain t
  | .type t => TyLooks o t
  | .ref a =>
    (∃ rs items, o = .list rs ∧ σ.cells[a]? = some (.list items) ∧ rs.length = items.length) ∨
    (∃ rs es, o = .map rs ∧ σ.cells[a]? = some (.map es) ∧ rs.length = es.length) ∨
    (∃ rs env, o = .map rs ∧ σ.cells[a]? = some (.scope env)) ∨
    ∃ bs, o = .buffer bs ∧ σ.cells[a]? = some (.buffer bs)
  | .fn _ _ => o = .opaque .func
  | .prim _ => o = .opaque .nfunc
  | .lib _ => o = .opaque .smap

theorem Rep.looks (h : Inv S e σ s) {r : Ref} {v : Val} (hr : Rep e s r v) :
    ∃ o, s.w.heap[r]? = some o ∧ Looks σ o v := by
  cases v with
  | ref a =>
    have hl : a < σ.cells.length := by rw [← h.len]; exact (List.getElem?_eq_some_iff.1 hr).1
    obtain ⟨c, hc⟩ : ∃ c, σ.cells[a]? = some c := ⟨_, List.getElem?_eq_getElem hl⟩
    have hh := h.cells a c r hc hr
    cases c with
    | list items => obtain ⟨rs, x, y⟩ := hh; exact ⟨_, x, .inl ⟨rs, items, rfl, hc, y.length⟩⟩
    | map es => obtain ⟨rs, x, y, z⟩ := hh; exact ⟨_, x, .inr (.inl ⟨rs, es, rfl, hc, y.length⟩)⟩
    | scope env =>
      obtain ⟨renv, ⟨es, x, _⟩, _⟩ := hh
      exact ⟨_, x, .inr (.inr (.inl ⟨es, env, rfl, hc⟩))⟩
    | buffer bs => exact ⟨_, hh, .inr (.inr (.inr ⟨bs, rfl, hc⟩))⟩
  | str t => exact ⟨_, hr.1, rfl, hr.2⟩
  | fn f c => exact ⟨_, hr.1, rfl⟩
  | prim p => exact ⟨_, hr.1, rfl⟩
  | lib _ => exact ⟨_, hr.1, rfl⟩
  | type t => exact RepTy.looks hr
  | _ => exact ⟨_, hr, rfl⟩

theorem Looks.kind {o : Obj} {v : Val} {k : Kind} (h : Looks σ o v) (hk : Book.kindOf σ v = some k) : o.kind = k := by
  cases v with
  | ref a =>
    rcases h with ⟨rs, items, rfl, hc, _⟩ | ⟨rs, es, rfl, hc, _⟩ | ⟨rs, env, rfl, hc⟩ | ⟨bs, rfl, hc⟩
    · simp only [Book.kindOf, hc, Option.some.injEq] at hk; exact hk
    · simp only [Book.kindOf, hc, Option.some.injEq] at hk; exact hk
    · simp [Book.kindOf, hc] at hk
    · simp only [Book.kindOf, hc, Option.some.injEq] at hk; exact hk
  | str t => simp only [Book.kindOf, Option.some.injEq] at hk; rw [h.1]; exact hk
  | type t =>
    cases t with
    | kind k' => cases hk; rw [show o = _ from h]; rfl
    | any => cases hk; rw [show o = _ from h]; rfl
    | sum a b => obtain ⟨x, y, rfl⟩ := h; cases hk; rfl
    | nullable a => obtain ⟨x, rfl⟩ := h; cases hk; rfl
    | cell a => exact h.elim
    | other => exact h.elim
  | _ => simp only [Book.kindOf, Option.some.injEq] at hk; rw [show o = _ from h]; exact hk

theorem Looks.num {o : Obj} {v : Val} (h : Looks σ o v) (hv : ∀ x, v ≠ .int x) (hf : ∀ x, v ≠ .float x) :
    numOf o = none := by
  cases v with
  | int x => exact absurd rfl (hv x)
  | float x => exact absurd rfl (hf x)
  | ref a => rcases h with ⟨rs, items, rfl, _⟩ | ⟨rs, es, rfl, _⟩ | ⟨rs, env, rfl, _⟩ | ⟨bs, rfl, _⟩ <;> rfl
  | str t => rw [h.1]; rfl
  | type t => rcases TyLooks.cases h with ⟨k, rfl⟩ | rfl | ⟨x, y, rfl⟩ | ⟨x, rfl⟩ <;> rfl
  | _ => rw [show o = _ from h]; rfl

end

end Noja.VM.Book
