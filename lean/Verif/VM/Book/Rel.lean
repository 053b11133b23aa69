import Verif.VM.Book.Sem
import Verif.VM.Records

/-!
# How values are represented by objects

The representation of the values of `Verif.VM.Book.Sem` by objects, what may change while a program
runs, and that representations stay valid.
-/

set_option linter.unusedVariables false
set_option linter.unusedSimpArgs false

namespace Noja.VM.Book

open Noja.Graph (Obj Kind Heap)

/-! ## Related lists -/

def All2 {α β : Type} (R : α → β → Prop) : List α → List β → Prop
  | [], [] => True
  | a :: as, b :: bs => R a b ∧ All2 R as bs
  | _, _ => False

section All2
variable {α β : Type} {R S : α → β → Prop}

theorem All2.imp (hi : ∀ a b, R a b → S a b) : ∀ {as : List α} {bs : List β}, All2 R as bs → All2 S as bs
  | [], [], _ => trivial
  | [], _ :: _, h => h.elim
  | _ :: _, [], h => h.elim
  | _ :: _, _ :: _, ⟨a, b⟩ => ⟨hi _ _ a, b.imp hi⟩

theorem All2.length : ∀ {as : List α} {bs : List β}, All2 R as bs → as.length = bs.length
  | [], [], _ => rfl
  | [], _ :: _, h => h.elim
  | _ :: _, [], h => h.elim
  | _ :: _, _ :: _, ⟨a, b⟩ => by simp [b.length]

theorem All2.append : ∀ {as : List α} {bs : List β} {as' : List α} {bs' : List β}, All2 R as bs → All2 R as' bs' →
    All2 R (as ++ as') (bs ++ bs')
  | [], [], _, _, _, h => h
  | [], _ :: _, _, _, h, _ => h.elim
  | _ :: _, [], _, _, h, _ => h.elim
  | _ :: _, _ :: _, _, _, ⟨a, b⟩, h => ⟨a, b.append h⟩

theorem All2.reverse : ∀ {as : List α} {bs : List β}, All2 R as bs → All2 R as.reverse bs.reverse
  | [], [], _ => trivial
  | [], _ :: _, h => h.elim
  | _ :: _, [], h => h.elim
  | a :: as, b :: bs, ⟨x, y⟩ => by
    rw [List.reverse_cons, List.reverse_cons]
    exact y.reverse.append ⟨x, trivial⟩

theorem All2.take : ∀ (n : Nat) {as : List α} {bs : List β}, All2 R as bs → All2 R (as.take n) (bs.take n)
  | 0, _, _, _ => by simp [All2]
  | _ + 1, [], [], _ => trivial
  | _ + 1, [], _ :: _, h => h.elim
  | _ + 1, _ :: _, [], h => h.elim
  | n + 1, _ :: _, _ :: _, ⟨x, y⟩ => ⟨x, y.take n⟩

theorem All2.replicate {a : α} {b : β} (h : R a b) : ∀ n, All2 R (List.replicate n a) (List.replicate n b)
  | 0 => trivial
  | n + 1 => ⟨h, All2.replicate h n⟩

theorem All2.get : ∀ {as : List α} {bs : List β} {i : Nat} {b : β}, All2 R as bs → bs[i]? = some b →
    ∃ a, as[i]? = some a ∧ R a b
  | [], [], _, _, _, h => by simp at h
  | [], _ :: _, _, _, h, _ => h.elim
  | _ :: _, [], _, _, h, _ => h.elim
  | x :: xs, _ :: _, 0, _, ⟨a, b⟩, h => ⟨x, rfl, by simp only [List.getElem?_cons_zero, Option.some.injEq] at h; exact h ▸ a⟩
  | _ :: _, _ :: _, i + 1, _, ⟨a, b⟩, h => by
    simp only [List.getElem?_cons_succ] at h ⊢
    exact b.get h

theorem All2.set {a : α} {b : β} (h : R a b) : ∀ {as : List α} {bs : List β} (i : Nat), All2 R as bs →
    All2 R (as.set i a) (bs.set i b)
  | [], [], _, _ => trivial
  | [], _ :: _, _, h => h.elim
  | _ :: _, [], _, h => h.elim
  | _ :: _, _ :: _, 0, ⟨_, y⟩ => ⟨h, y⟩
  | _ :: _, _ :: _, i + 1, ⟨x, y⟩ => ⟨x, y.set h i⟩

end All2

/-! ## Representation -/

/-- The objects of the cells. -/
abbrev Emb := List Ref

/-- A closure and the maps of its variables, from the inside out. -/
inductive Chain (w : World) : Ref → List Ref → Prop
  | last {c v : Nat} : w.heap[c]? = some (.opaque .closure) → w.clos c = some (none, v) → v < c → Chain w c [v]
  | more {c p v : Nat} {rs : List Nat} : w.heap[c]? = some (.opaque .closure) → w.clos c = some (some p, v) →
      v < c → p < c → Chain w p rs → Chain w c (v :: rs)

def OChain (w : World) : Option Ref → List Ref → Prop
  | none, rs => rs = []
  | some c, rs => Chain w c rs

/-- The object of a cell. -/
def At (e : Emb) (r : Ref) (a : Nat) : Prop := e[a]? = some r

def Prim.id : Prim → Nat
  | .print => 11 | .count => 1 | .type => 0 | .assert => 2 | .error => 3 | .cat => 9 | .chr => 8 | .ord => 7
  | .istypeof => 4 | .typename => 5 | .keysof => 6 | .trim => 16 | .slice => 17 | .toInt => 18
  | .floor => 19 | .ceil => 20 | .newBuffer => 21 | .bufferText => 22 | .textBuffer => 23 | .sliceUp => 24
  | .math .cos => 25 | .math .sin => 26 | .math .tan => 27 | .math .acos => 28 | .math .asin => 29 | .math .atan => 30
  | .atan2 => 31 | .math .exp => 32 | .math .log => 33 | .math .log10 => 34 | .pow => 35 | .math .sqrt => 36

def Lib.id : Lib → Nat
  | .strings => 1 | .math => 3 | .buffers => 5

/-- Objects of which nothing is. -/
def Childless (o : Obj) : Prop :=
  (match o with
  | .type _ | .any | .sum _ _ | .nullable _ => False
  | _ => True) ∧ o.kind ≠ .list ∧ o.kind ≠ .map ∧ o.kind ≠ .buffer

/-- The object of a type, or of a part of one. -/
def RepTy (e : Emb) (h : Heap) (r : Ref) : Ty → Prop
  | .kind k => h[r]? = some (.type k)
  | .any => h[r]? = some .any
  | .sum a b => ∃ x y, h[r]? = some (.sum x y) ∧ RepTy e h x a ∧ RepTy e h y b
  | .nullable a => ∃ x, h[r]? = some (.nullable x) ∧ RepTy e h x a
  | .cell a => At e r a
  | .other => ∃ o, h[r]? = some o ∧ Childless o

/-- Types, as opposed to parts of unions that are none. -/
def Ty.proper : Ty → Prop
  | .cell _ | .other => False
  | _ => True

def Rep (e : Emb) (s : SSt World) (r : Ref) : Val → Prop
  | .none => s.w.heap[r]? = some .none
  | .bool b => s.w.heap[r]? = some (.bool b)
  | .int v => s.w.heap[r]? = some (.int v)
  | .float x => s.w.heap[r]? = some (.float x)
  | .str t => s.w.heap[r]? = some (.str (Str.Spec.ofText t)) ∧ Plain t
  | .type t => RepTy e s.w.heap r t ∧ t.proper
  | .ref a => At e r a
  | .fn f chain => s.w.heap[r]? = some (.opaque .func) ∧ s.funs r = some f ∧
      ∃ c rs, s.w.fclo r = some c ∧ Chain s.w c rs ∧ All2 (At e) rs chain
  | .prim p => s.w.heap[r]? = some (.opaque .nfunc) ∧ s.w.nat r = some (p.id, p.argc)
  | .lib l => s.w.heap[r]? = some (.opaque .smap) ∧ s.w.tab r = l.id

/-- The object of a key. -/
def KeyIs (h : Heap) (r : Ref) : Key → Prop
  | .none => h[r]? = some .none
  | .bool b => h[r]? = some (.bool b)
  | .int v => h[r]? = some (.int v)
  | .float x => h[r]? = some (.float x) ∧ Graph.isNaN x = false ∧ Graph.isZero x = false
  | .text bs => IsName h r bs

def Rep2 (e : Emb) (s : SSt World) (p : Ref × Ref) (q : Val × Val) : Prop := Rep e s p.1 q.1 ∧ Rep e s p.2 q.2

def RepVar (e : Emb) (s : SSt World) (p : Name × Ref) (q : Name × Val) : Prop := p.1 = q.1 ∧ Rep e s p.2 q.2

def Holds (e : Emb) (s : SSt World) (r : Ref) : Cell → Prop
  | .list items => ∃ rs, s.w.heap[r]? = some (.list rs) ∧ All2 (Rep e s) rs items
  | .map es => ∃ rs, s.w.heap[r]? = some (.map rs) ∧ All2 (Rep2 e s) rs es ∧ ∀ q ∈ es, atom q.1 = true
  | .scope env => ∃ renv, Vars s.w r renv ∧ All2 (RepVar e s) renv env
  | .buffer bs => s.w.heap[r]? = some (.buffer bs)

/-! ## What may change -/

/-- From `s` to `s'` cells were added, and of the other objects only those of cells and of `D` have
changed. -/
structure Le (D : List Ref) (e : Emb) (s : SSt World) (e' : Emb) (s' : SSt World) : Prop where
  pre : ∃ t, e' = e ++ t
  fresh : ∀ x ∈ e', x ∈ e ∨ s.w.heap.length ≤ x
  len : s.w.heap.length ≤ s'.w.heap.length
  obj : ∀ (x : Nat) (o : Obj), s.w.heap[x]? = some o → o.kind ≠ .list → o.kind ≠ .map → o.kind ≠ .buffer →
    s'.w.heap[x]? = some o
  frame : ∀ x : Nat, x < s.w.heap.length → x ∉ e → x ∉ D → s'.w.heap[x]? = s.w.heap[x]?
  clos : ∀ x, x < s.w.heap.length → s'.w.clos x = s.w.clos x
  fclo : ∀ x, x < s.w.heap.length → s'.w.fclo x = s.w.fclo x
  nat : ∀ x, x < s.w.heap.length → s'.w.nat x = s.w.nat x
  tab : ∀ x, x < s.w.heap.length → s'.w.tab x = s.w.tab x
  funs : ∀ x, x < s.w.heap.length → s'.funs x = s.funs x

theorem Le.refl (D : List Ref) (e : Emb) (s : SSt World) : Le D e s e s where
  pre := ⟨[], by simp⟩
  fresh x hx := .inl hx
  len := Nat.le_refl _
  obj _ _ h _ _ _ := h
  frame _ _ _ _ := rfl
  clos _ _ := rfl
  fclo _ _ := rfl
  nat _ _ := rfl
  tab _ _ := rfl
  funs _ _ := rfl

section Le
variable {D D' : List Ref} {e e' e'' : Emb} {s s' s'' : SSt World}

theorem Le.mono (h : Le D e s e' s') (hd : ∀ x ∈ D, x ∈ D' ∨ s.w.heap.length ≤ x) : Le D' e s e' s' :=
  { h with
    frame := fun x hx he hn => h.frame x hx he fun hm => by
      rcases hd x hm with h | h
      · exact hn h
      · exact absurd hx (Nat.not_lt_of_le h) }

theorem Le.trans (h : Le D e s e' s') (k : Le D e' s' e'' s'') : Le D e s e'' s'' where
  pre := by
    obtain ⟨t, rfl⟩ := h.pre
    obtain ⟨u, rfl⟩ := k.pre
    exact ⟨t ++ u, by simp⟩
  fresh x hx := by
    rcases k.fresh x hx with h1 | h1
    · exact h.fresh x h1
    · exact .inr (Nat.le_trans h.len h1)
  len := Nat.le_trans h.len k.len
  obj x o ho h1 h2 h3 := k.obj x o (h.obj x o ho h1 h2 h3) h1 h2 h3
  frame x hx he hd := by
    rw [k.frame x (Nat.lt_of_lt_of_le hx h.len) (fun hm => by
      rcases h.fresh x hm with h1 | h1
      · exact he h1
      · exact absurd hx (Nat.not_lt_of_le h1)) hd, h.frame x hx he hd]
  clos x hx := by rw [k.clos x (Nat.lt_of_lt_of_le hx h.len), h.clos x hx]
  fclo x hx := by rw [k.fclo x (Nat.lt_of_lt_of_le hx h.len), h.fclo x hx]
  nat x hx := by rw [k.nat x (Nat.lt_of_lt_of_le hx h.len), h.nat x hx]
  tab x hx := by rw [k.tab x (Nat.lt_of_lt_of_le hx h.len), h.tab x hx]
  funs x hx := by rw [k.funs x (Nat.lt_of_lt_of_le hx h.len), h.funs x hx]

theorem At.le {r : Ref} {a : Nat} (h : At e r a) (l : Le D e s e' s') : At e' r a := by
  obtain ⟨t, rfl⟩ := l.pre
  unfold At at h ⊢
  rw [List.getElem?_append_left (get_lt' h)]
  exact h
where
  get_lt' {l : List Nat} {i x : Nat} (h : l[i]? = some x) : i < l.length := (List.getElem?_eq_some_iff.1 h).1

theorem Chain.le {c : Ref} {rs : List Ref} (h : Chain s.w c rs) (l : Le D e s e' s') : Chain s'.w c rs := by
  induction h with
  | last a b d => exact .last (l.obj _ _ a nofun nofun nofun) (by rw [l.clos _ (get_lt a)]; exact b) d
  | more a b d f _ ih => exact .more (l.obj _ _ a nofun nofun nofun) (by rw [l.clos _ (get_lt a)]; exact b) d f ih

theorem OChain.le {c : Option Ref} {rs : List Ref} (h : OChain s.w c rs) (l : Le D e s e' s') : OChain s'.w c rs := by
  cases c with
  | none => exact h
  | some c => exact Chain.le h l

theorem RepTy.le (l : Le D e s e' s') : ∀ {t : Ty} {r : Ref}, RepTy e s.w.heap r t → RepTy e' s'.w.heap r t
  | .kind _, _, h => l.obj _ _ h nofun nofun nofun
  | .any, _, h => l.obj _ _ h nofun nofun nofun
  | .sum _ _, _, ⟨x, y, h, ha, hb⟩ => ⟨x, y, l.obj _ _ h nofun nofun nofun, RepTy.le l ha, RepTy.le l hb⟩
  | .nullable _, _, ⟨x, h, ha⟩ => ⟨x, l.obj _ _ h nofun nofun nofun, RepTy.le l ha⟩
  | .cell _, _, h => At.le h l
  | .other, _, ⟨o, h, hc⟩ =>
    ⟨o, l.obj _ _ h hc.2.1 hc.2.2.1 hc.2.2.2, hc⟩

theorem RepTy.push {h : Heap} {e : Emb} (z : Ref) : ∀ {t : Ty} {r : Ref}, RepTy e h r t → RepTy (e ++ [z]) h r t
  | .kind _, _, h => h
  | .any, _, h => h
  | .sum _ _, _, ⟨x, y, h, ha, hb⟩ => ⟨x, y, h, RepTy.push z ha, RepTy.push z hb⟩
  | .nullable _, _, ⟨x, h, ha⟩ => ⟨x, h, RepTy.push z ha⟩
  | .cell _, _, h => by
    unfold RepTy At at h ⊢
    rw [List.getElem?_append_left (List.getElem?_eq_some_iff.1 h).1]
    exact h
  | .other, _, h => h

theorem Rep.le {r : Ref} {v : Val} (h : Rep e s r v) (l : Le D e s e' s') : Rep e' s' r v := by
  cases v with
  | none => exact l.obj _ _ h nofun nofun nofun
  | bool b => exact l.obj _ _ h nofun nofun nofun
  | int v => exact l.obj _ _ h nofun nofun nofun
  | float x => exact l.obj _ _ h nofun nofun nofun
  | str t => exact ⟨l.obj _ _ h.1 nofun nofun nofun, h.2⟩
  | type t => exact ⟨RepTy.le l h.1, h.2⟩
  | ref a => exact At.le h l
  | fn f chain =>
    obtain ⟨a, b, c, rs, d, f, g⟩ := h
    exact ⟨l.obj _ _ a nofun nofun nofun, by rw [l.funs _ (get_lt a)]; exact b, c, rs, by rw [l.fclo _ (get_lt a)]; exact d,
      f.le l, g.imp fun _ _ h => At.le h l⟩
  | prim p => exact ⟨l.obj _ _ h.1 nofun nofun nofun, by rw [l.nat _ (get_lt h.1)]; exact h.2⟩
  | lib _ => exact ⟨l.obj _ _ h.1 nofun nofun nofun, by rw [l.tab _ (get_lt h.1)]; exact h.2⟩

theorem Rep.all {rs : List Ref} {vs : List Val} (h : All2 (Rep e s) rs vs) (l : Le D e s e' s') :
    All2 (Rep e' s') rs vs := h.imp fun _ _ h => h.le l

theorem Le.name (l : Le D e s e' s') {k : Ref} {n : List UInt8} (hk : IsName s.w.heap k n) : IsName s'.w.heap k n := by
  obtain ⟨t, src, len, a, b⟩ := hk
  exact ⟨t, src, len, l.obj _ _ a nofun nofun nofun, b⟩

theorem Le.keys (l : Le D e s e' s') {es : List (Nat × Nat)} (hk : NameKeys s.w.heap es) : NameKeys s'.w.heap es :=
  fun x hx => (hk x hx).imp fun m hm => l.name hm

theorem Vars.le {r : Ref} {env : Env} (h : Vars s.w r env) (l : Le D e s e' s')
    (hr : s'.w.heap[r]? = s.w.heap[r]?) : Vars s'.w r env := by
  obtain ⟨es, a, b, c⟩ := h
  refine ⟨es, by rw [hr]; exact a, l.keys b, fun n => ?_⟩
  rw [find_keys b fun k m hm => l.name hm]
  exact c n

theorem Rec.le {r : Ref} {env : Env} (h : Rec s.w r env) (l : Le D e s e' s')
    (hr : s'.w.heap[r]? = s.w.heap[r]?) : Rec s'.w r env := by
  obtain ⟨es, a, b⟩ := h
  exact ⟨es, by rw [hr]; exact a, b.imp fun k m hm => l.name hm⟩

/-- A cell whose object has not changed. -/
theorem Holds.le {r : Ref} {c : Cell} (h : Holds e s r c) (l : Le D e s e' s')
    (hr : s'.w.heap[r]? = s.w.heap[r]?) : Holds e' s' r c := by
  cases c with
  | list items =>
    obtain ⟨rs, a, b⟩ := h
    exact ⟨rs, by rw [hr]; exact a, Rep.all b l⟩
  | map es =>
    obtain ⟨rs, a, b, d⟩ := h
    exact ⟨rs, by rw [hr]; exact a, b.imp fun _ _ h => ⟨h.1.le l, h.2.le l⟩, d⟩
  | scope env =>
    obtain ⟨renv, a, b⟩ := h
    exact ⟨renv, Vars.le a l hr, b.imp fun _ _ h => ⟨h.1, h.2.le l⟩⟩
  | buffer bs => show s'.w.heap[r]? = _; rw [hr]; exact h

theorem Le.scopes (l : Le D e s e' s') {r : Ref} {rs : List Ref} (hs : Scopes s.w r rs)
    (hd : ∀ x ∈ rs, x ∉ e ∧ x ∉ D) : Scopes s'.w r rs := by
  induction hs with
  | map hr hk =>
    have := hd _ (List.mem_singleton.2 rfl)
    exact .map (by rw [l.frame _ (get_lt hr) this.1 this.2]; exact hr) (l.keys hk)
  | smap hr => exact .smap (l.obj _ _ hr nofun nofun nofun)
  | last hc hcl hv _ ih => exact .last (l.obj _ _ hc nofun nofun nofun) (by rw [l.clos _ (get_lt hc)]; exact hcl) hv (ih hd)
  | more hc hcl hv hp _ _ ih ih' =>
    exact .more (l.obj _ _ hc nofun nofun nofun) (by rw [l.clos _ (get_lt hc)]; exact hcl) hv hp
      (ih fun x hx => hd x (List.mem_append_left _ hx)) (ih' fun x hx => hd x (List.mem_append_right _ hx))

end Le

/-! ## The builtins -/

/-- The builtins: the table `T`, once `start.noja` has run behind the map `L`. -/
def Bins (w : World) (T : Ref) (b : Option Ref) (L : List Ref) : Prop :=
  (b = some T ∧ L = []) ∨
  ∃ c m : Nat, b = some c ∧ L = [m] ∧ w.heap[c]? = some (.opaque .closure) ∧ w.clos c = some (some T, m) ∧ m < c ∧ T < c

theorem Bins.le {D : List Ref} {e e' : Emb} {s s' : SSt World} {T : Ref} {b : Option Ref} {L : List Ref}
    (h : Bins s.w T b L) (l : Le D e s e' s') : Bins s'.w T b L := by
  rcases h with h | ⟨c, m, h1, h2, h3, h4, h5⟩
  · exact .inl h
  · exact .inr ⟨c, m, h1, h2, l.obj _ _ h3 nofun nofun nofun, by rw [l.clos _ (get_lt h3)]; exact h4, h5⟩

theorem Bins.scopes {w : World} {T : Ref} {b : Option Ref} {L : List Ref} (h : Bins w T b L)
    (ht : w.heap[T]? = some (.opaque .smap)) (hs : ∀ r ∈ L, Scopes w r [r]) : OScopes w b (L ++ [T]) := by
  rcases h with ⟨rfl, rfl⟩ | ⟨c, m, rfl, rfl, h3, h4, h5, h6⟩
  · exact Scopes.smap ht
  · exact Scopes.more h3 h4 h5 h6 (hs _ (List.mem_singleton.2 rfl)) (.smap ht)

end Noja.VM.Book
