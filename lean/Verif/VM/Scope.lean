import Verif.VM.Objects
import Verif.Str.Props
import Verif.Graph.Eq
import Verif.Graph.Copy

/-!
# Variables (C33)
-/

set_option linter.unusedVariables false
set_option linter.unusedSimpArgs false

namespace Noja.VM

open Noja.Graph (Obj Kind Heap compare lookup findKey)

/-- The object `k` is a string made from the C string `n`. -/
def IsName (h : Heap) (k : Ref) (n : List UInt8) : Prop :=
  ∃ s src len, h[k]? = some (.str s) ∧ Str.fromString src len = .ok s ∧
    s.body.take s.bytes = n ∧ (0 : UInt8) ∉ n

theorem IsName.textOf {h : Heap} {k : Ref} {n : List UInt8} (hk : IsName h k n) : textOf h k = some n := by
  obtain ⟨s, src, len, a, b, c, d⟩ := hk
  simp [VM.textOf, a, c]

theorem takeWhile_noNul : ∀ (n : List UInt8), (0 : UInt8) ∉ n → n.takeWhile (· ≠ 0) = n
  | [], _ => rfl
  | b :: l, h => by
    simp only [List.mem_cons, not_or] at h
    have : b ≠ 0 := fun e => h.1 e.symm
    rw [List.takeWhile_cons_of_pos (by simpa using this), takeWhile_noNul l h.2]

theorem compare_names {h : Heap} {a b : Ref} {n m : List UInt8} (ha : IsName h a n) (hb : IsName h b m) :
    compare h a b = .ok (decide (n = m)) := by
  obtain ⟨s, s1, l1, hs, fs, cs, zs⟩ := ha
  obtain ⟨t, t1, l2, ht, ft, ct, zt⟩ := hb
  rw [Graph.compare_eq hs ht]
  show (if Kind.string ≠ Kind.string then _ else Str.opEql s t) = _
  rw [if_neg (by simp)]
  obtain ⟨ws, -⟩ := Str.wf_fromString fs
  obtain ⟨wt, -⟩ := Str.wf_fromString ft
  obtain ⟨r, hr, hiff⟩ := Str.opEql_spec s t ws wt
  rw [hr]
  have e1 : Str.Spec.contents s = n := cs
  have e2 : Str.Spec.contents t = m := ct
  have l1 : n.length = s.bytes := by rw [← cs, List.length_take]; have : s.body.length = s.bytes + 1 := ws; omega
  have l2 : m.length = t.bytes := by rw [← ct, List.length_take]; have : t.body.length = t.bytes + 1 := wt; omega
  rw [e1, e2, takeWhile_noNul n zs, takeWhile_noNul m zt] at hiff
  congr 1
  cases r with
  | true => rw [decide_eq_true (hiff.1 rfl).2]
  | false =>
    rw [decide_eq_false]
    intro e
    have : false = true := hiff.2 ⟨by rw [← l1, ← l2, e], e⟩
    cases this

theorem hash_name {h : Heap} {k : Ref} {n : List UInt8} (hk : IsName h k n) {fuel : Nat} (hf : 0 < fuel) :
    ∃ x, Graph.hash h fuel k = .ok x := by
  obtain ⟨s, src, len, a, b, c, d⟩ := hk
  obtain ⟨f, rfl⟩ : ∃ f, fuel = f + 1 := ⟨fuel - 1, by omega⟩
  rw [Graph.hash_succ a]
  by_cases hl : len ≤ src.length
  · rcases Str.fromString_spec src len hl with e | ⟨ps, hu, hfl, e⟩
    · rw [e] at b; cases b
    · rw [e] at b
      cases b
      exact Str.hashbytes_safe _ _ (by
        show ps.length ≤ (ps.flatten ++ [0]).length
        have := hu.length_le
        simp only [List.length_append]
        omega) (by simp [Str.mk])
  · unfold Str.fromString at b
    obtain ⟨_, -, b⟩ := Exec.bind_eq_ok.mp b
    rw [if_pos (by omega)] at b
    cases b

/-- Keys of a scope are names. -/
def NameKeys (h : Heap) (es : List (Nat × Nat)) : Prop := ∀ e ∈ es, ∃ m, IsName h e.1 m

/-- Probe sequences reach equal names. -/
def Reaches (hit : Nat → Nat → Bool) (h : Heap) : Prop :=
  ∀ k k' n, IsName h k n → IsName h k' n → hit k k' = true

theorem lookup_names {hit : Nat → Nat → Bool} {h : Heap} {key : Ref} {n : List UInt8}
    (hh : Reaches hit h) (hk : IsName h key n) : ∀ es, NameKeys h es →
    lookup hit h key es false = .ok ((es.find? fun e => decide (textOf h e.1 = some n)).map (·.2), false)
  | [], _ => rfl
  | (k, v) :: es, hs => by
    obtain ⟨m, hm⟩ := hs (k, v) (by simp)
    have ih := lookup_names hh hk es (fun e he => hs e (List.mem_cons_of_mem _ he))
    unfold lookup
    have hm' : IsName h k m := hm
    by_cases e : n = m
    · subst e
      rw [if_pos (hh _ _ _ hk hm'), compare_names hk hm']
      simp [hm'.textOf]
    · have hne : decide (textOf h k = some n) = false := by
        rw [hm'.textOf]; simp; exact fun q => e q.symm
      rw [List.find?_cons_of_neg (by simpa using hne)]
      by_cases q : hit key k = true
      · rw [if_pos q, compare_names hk hm', decide_eq_false e]
        exact ih
      · rw [if_neg q]
        exact ih

/-- What a scope has under a name. -/
def bound (C : Config) (w : World) (n : Name) (r : Ref) : Option (World → Out World Ref) :=
  match w.heap[r]? with
  | some (.map es) =>
    (es.find? fun e => decide (textOf w.heap e.1 = some n)).map fun e w => .ok w e.2
  | some (.opaque .smap) => C.slot (w.tab r) n
  | _ => none

/-- The scopes that an object stands for, in order: a map and a static map are a scope, a closure
stands for those of its variables and then those of the enclosing one. -/
inductive Scopes (w : World) : Nat → List Nat → Prop
  | map {r es} : w.heap[r]? = some (.map es) → NameKeys w.heap es → Scopes w r [r]
  | smap {r} : w.heap[r]? = some (.opaque .smap) → Scopes w r [r]
  | last {c vars : Nat} {as : List Nat} : w.heap[c]? = some (.opaque .closure) → w.clos c = some (none, vars) →
      vars < c → Scopes w vars as → Scopes w c as
  | more {c p vars : Nat} {as bs : List Nat} : w.heap[c]? = some (.opaque .closure) → w.clos c = some (some p, vars) →
      vars < c → p < c → Scopes w vars as → Scopes w p bs → Scopes w c (as ++ bs)

def Quiet (C : Config) (n : Name) : Prop :=
  ∀ t f w w' r, C.slot t n = some f → f w = .ok w' r → w'.err = w.err

def found (C : Config) (w : World) (n : Name) (rs : List Ref) : Out World (Option Ref) :=
  match rs.findSome? (bound C w n) with
  | some f => (f w).bind fun r w => .ok w (some r)
  | none => .ok w none

theorem found_nil (C : Config) (w : World) (n : Name) : found C w n [] = .ok w none := rfl

theorem bound_quiet {C : Config} {w : World} {n : Name} {r : Ref} (hq : Quiet C n) {f : World → Out World Ref}
    (h : bound C w n r = some f) {u u' : World} {v : Ref} (hf : f u = .ok u' v) : u'.err = u.err := by
  unfold bound at h
  split at h
  · rename_i es _
    cases hx : es.find? (fun e => decide (textOf w.heap e.1 = some n)) with
    | none => rw [hx] at h; cases h
    | some e =>
      rw [hx] at h
      simp only [Option.map_some, Option.some.injEq] at h
      subst h
      cases hf
      rfl
  · exact hq _ f u u' v h hf
  · cases h

theorem select_scopes {C : Config} {n : Name} {key : Ref} {w : World} (hf : 0 < C.fuel)
    (hh : Reaches C.hit w.heap) (hk : IsName w.heap key n) (he : w.err = false) (hq : Quiet C n) {r : Nat} {rs : List Nat}
    (h : Scopes w r rs) : ∀ fuel : Nat, r < fuel → selectObj C fuel r key w = found C w n rs := by
  have hw : ({ w with err := false } : World) = w := by
    obtain ⟨a, b, c, d, e, f, g⟩ := w
    simp only at he
    subst he
    rfl
  induction h with
  | @map r es hr hks =>
    intro fuel hl
    obtain ⟨f, rfl⟩ : ∃ f, fuel = f + 1 := ⟨fuel - 1, by omega⟩
    obtain ⟨x, hx⟩ := hash_name hk hf
    have hlk := lookup_names hh hk es hks
    simp only [selectObj, hr, hx, he, hlk, hw, found, List.findSome?_cons, bound]
    cases es.find? fun e => decide (textOf w.heap e.1 = some n) with
    | none => rfl
    | some e => rfl
  | @smap r hr =>
    intro fuel hl
    obtain ⟨f, rfl⟩ : ∃ f, fuel = f + 1 := ⟨fuel - 1, by omega⟩
    simp only [selectObj, hr, hk.textOf, found, List.findSome?_cons, bound]
    cases C.slot (w.tab r) n with
    | none => rfl
    | some f => rfl
  | @last c vars as hc hcl hv hs ih =>
    intro fuel hl
    obtain ⟨f, rfl⟩ : ∃ f, fuel = f + 1 := ⟨fuel - 1, by omega⟩
    simp only [selectObj, hc, hcl, ih f (by omega)]
    unfold found
    cases hx : as.findSome? (bound C w n) with
    | none => simp [Out.bind, he]
    | some g =>
      obtain ⟨l1, a, l2, -, ha, -⟩ := List.findSome?_eq_some_iff.1 hx
      dsimp only
      cases hg : g w with
      | err => rfl
      | ub => rfl
      | ok u v =>
        have := bound_quiet hq ha hg
        simp [Out.bind, this, he]
  | @more c p vars as bs hc hcl hv hp hs hs' ih ih' =>
    intro fuel hl
    obtain ⟨f, rfl⟩ : ∃ f, fuel = f + 1 := ⟨fuel - 1, by omega⟩
    simp only [selectObj, hc, hcl, ih f (by omega)]
    unfold found
    rw [List.findSome?_append]
    cases hx : as.findSome? (bound C w n) with
    | none =>
      simp only [Out.bind, he, Option.none_or]
      exact ih' f (by omega)
    | some g =>
      obtain ⟨l1, a, l2, -, ha, -⟩ := List.findSome?_eq_some_iff.1 hx
      simp only [Option.some_or]
      cases hg : g w with
      | err => rfl
      | ub => rfl
      | ok u v =>
        have := bound_quiet hq ha hg
        simp [Out.bind, this, he]

theorem alloc_heap (w : World) (o : Obj) : (w.alloc o).1.heap = w.heap ++ [o] := by
  show statics ++ (w.dyn ++ [o]) = statics ++ w.dyn ++ [o]
  rw [List.append_assoc]

theorem get_alloc {w : World} {o x : Obj} {r : Nat} (h : w.heap[r]? = some x) :
    (w.alloc o).1.heap[r]? = some x := by
  obtain ⟨hl, -⟩ := List.getElem?_eq_some_iff.1 h
  rw [alloc_heap, List.getElem?_append_left hl]
  exact h

theorem IsName.alloc {w : World} {o : Obj} {k : Ref} {n : List UInt8} (h : IsName w.heap k n) :
    IsName (w.alloc o).1.heap k n := by
  obtain ⟨s, src, len, a, b⟩ := h
  exact ⟨s, src, len, get_alloc a, b⟩

theorem Scopes.alloc {w : World} {o : Obj} {r : Nat} {rs : List Nat} (h : Scopes w r rs) :
    Scopes (w.alloc o).1 r rs := by
  induction h with
  | map hr hk => exact .map (get_alloc hr) fun e he => (hk e he).imp fun m hm => hm.alloc
  | smap hr => exact .smap (get_alloc hr)
  | last hc hcl hv _ ih => exact .last (get_alloc hc) hcl hv ih
  | more hc hcl hv hp _ _ ih ih' => exact .more (get_alloc hc) hcl hv hp ih ih'

theorem find_alloc {w : World} {o : Obj} {n : Name} : ∀ {es : List (Nat × Nat)}, NameKeys w.heap es →
    (es.find? fun e => decide (textOf (w.alloc o).1.heap e.1 = some n)) =
      es.find? fun e => decide (textOf w.heap e.1 = some n)
  | [], _ => rfl
  | e :: es, hk => by
    obtain ⟨m, hm⟩ := hk e (by simp)
    have ih := find_alloc (w := w) (o := o) (n := n) (es := es) (fun e he => hk e (List.mem_cons_of_mem _ he))
    rw [List.find?_cons, List.find?_cons, hm.textOf, (hm.alloc (o := o)).textOf, ih]

theorem bound_alloc {C : Config} {w : World} {o : Obj} {n : Name} {r : Nat} {rs : List Nat} (h : Scopes w r rs) :
    ∀ x ∈ rs, bound C (w.alloc o).1 n x = bound C w n x := by
  induction h with
  | map hr hk =>
    intro x hx
    rw [List.mem_singleton.1 hx]
    unfold bound
    rw [hr, get_alloc hr]
    dsimp only
    rw [find_alloc hk]
  | smap hr =>
    intro x hx
    rw [List.mem_singleton.1 hx]
    unfold bound
    rw [hr, get_alloc hr]
    rfl
  | last _ _ _ _ ih => exact ih
  | more _ _ _ _ _ _ ih ih' =>
    intro x hx
    rcases List.mem_append.1 hx with h | h
    · exact ih x h
    · exact ih' x h

theorem findSome_congr {α β : Type} {f g : α → Option β} : ∀ {l : List α}, (∀ x ∈ l, f x = g x) →
    l.findSome? f = l.findSome? g
  | [], _ => rfl
  | a :: l, h => by
    rw [List.findSome?_cons, List.findSome?_cons, h a (by simp),
      findSome_congr (l := l) fun x hx => h x (List.mem_cons_of_mem _ hx)]

theorem cstrlen_nul : ∀ (n : List UInt8), (0 : UInt8) ∉ n → Str.cstrlen (n ++ [0]) = .ok n.length
  | [], _ => rfl
  | b :: l, h => by
    simp only [List.mem_cons, not_or] at h
    have hb : b ≠ 0 := fun e => h.1 e.symm
    show (if b = 0 then Exec.ok 0 else Str.cstrlen (l ++ [0]) >>= fun n => .ok (n + 1)) = _
    rw [if_neg hb, cstrlen_nul l h.2]
    rfl

theorem cstring_name {n : List UInt8} {s : Str.Str} (h : cstring n = .ok s) (h0 : (0 : UInt8) ∉ n) :
    Str.fromString (n ++ [0]) n.length = .ok s ∧ s.body.take s.bytes = n := by
  unfold cstring Str.fromCString at h
  rw [cstrlen_nul n h0, Exec.bind_ok] at h
  refine ⟨h, ?_⟩
  have := (Str.wf_fromString h).2.1
  rw [List.take_append_of_le_length (Nat.le_refl _), List.take_length] at this
  exact this

theorem name_alloc {w : World} {n : List UInt8} {s : Str.Str} (h : cstring n = .ok s) (h0 : (0 : UInt8) ∉ n) :
    IsName (w.alloc (.str s)).1.heap (w.alloc (.str s)).2 n := by
  obtain ⟨a, b⟩ := cstring_name h h0
  refine ⟨s, _, _, ?_, a, b, h0⟩
  rw [alloc_heap]
  show (w.heap ++ [Obj.str s])[w.heap.length]? = _
  simp

/-- The scopes that an optional object stands for. -/
def OScopes (w : World) : Option Ref → List Nat → Prop
  | none, rs => rs = []
  | some c, rs => Scopes w c rs

inductive OAll (w : World) : List (Option Ref) → List (List Nat) → Prop
  | nil : OAll w [] []
  | cons {l ls rs rss} : OScopes w l rs → OAll w ls rss → OAll w (l :: ls) (rs :: rss)

theorem Scopes.lt {w : World} {r : Nat} {rs : List Nat} (h : Scopes w r rs) : r < w.heap.length := by
  cases h with
  | map h _ => exact (List.getElem?_eq_some_iff.1 h).1
  | smap h => exact (List.getElem?_eq_some_iff.1 h).1
  | last h _ _ _ => exact (List.getElem?_eq_some_iff.1 h).1
  | more h _ _ _ _ _ => exact (List.getElem?_eq_some_iff.1 h).1

theorem search_scopes {C : Config} {n : Name} {key : Ref} {w : World} (hf : 0 < C.fuel)
    (hh : Reaches C.hit w.heap) (hk : IsName w.heap key n) (he : w.err = false) (hq : Quiet C n) :
    ∀ (ls : List (Option Ref)) (rss : List (List Nat)), OAll w ls rss →
      searchIn C key ls w = found C w n rss.flatten
  | [], _, h => by cases h; rfl
  | none :: ls, _, h => by
    cases h with
    | cons a b =>
      have a' : _ = [] := a
      subst a'
      have ih := search_scopes hf hh hk he hq ls _ b
      simp only [searchIn]
      rw [ih, List.flatten_cons, List.nil_append]
  | some l :: ls, _, h => by
    cases h with
    | @cons _ _ rs rss a b =>
      have ih := search_scopes hf hh hk he hq ls _ b
      have a' : Scopes w l rs := a
      simp only [searchIn]
      rw [select_scopes hf hh hk he hq a' _ (by have := a'.lt; unfold selFuel; omega)]
      unfold found
      rw [List.flatten_cons, List.findSome?_append]
      cases hx : rs.findSome? (bound C w n) with
      | none => simp only [Out.bind, Option.none_or]; exact ih
      | some g =>
        simp only [Option.some_or]
        cases hg : g w with
        | err => rfl
        | ub => rfl
        | ok u v => rfl

/-- Reading a variable.  Its value is the one in the first scope that has the name: the locals of
the function, the scopes of the enclosing functions from the inside out, the builtins.  If no scope
has the name it is an error.  (A builtin value of a static map is made when it is read.) (Example: `VM/Demo.lean`.) -/
theorem C33_read_partial (C : Config) (w : World) (n : Name) (s : Str.Str) (locals : Nat) (closure : Option Ref)
    (cs bs : List Nat) (hn : cstring n = .ok s) (h0 : (0 : UInt8) ∉ n) (hf : 0 < C.fuel)
    (he : w.err = false) (hq : Quiet C n) (hh : Reaches C.hit (w.alloc (.str s)).1.heap)
    (hl : Scopes w locals [locals]) (hc : OScopes w closure cs) (hb : OScopes w C.builtins bs) :
    getVar C locals closure n w =
      match (locals :: cs ++ bs).findSome? (bound C w n) with
      | some value => value (w.alloc (.str s)).1
      | none => .err (w.alloc (.str s)).1 := by
  have oal : ∀ o rs, OScopes w o rs → OScopes (w.alloc (.str s)).1 o rs := by
    intro o rs h
    cases o with
    | none => exact h
    | some c => exact Scopes.alloc (w := w) h
  have hs := search_scopes hf hh (name_alloc hn h0) he hq [some locals, closure, C.builtins] [[locals], cs, bs]
    (.cons (oal _ _ hl) (.cons (oal _ _ hc) (.cons (oal _ _ hb) .nil)))
  unfold getVar
  rw [hn]
  simp only [outOf, Out.bind]
  rw [hs]
  unfold found
  have e : (locals :: cs ++ bs).findSome? (bound C w n) =
      [[locals], cs, bs].flatten.findSome? (bound C (w.alloc (.str s)).1 n) := by
    have e2 : [[locals], cs, bs].flatten = locals :: cs ++ bs := by simp
    rw [e2]
    refine (findSome_congr fun x hx => ?_).symm
    simp only [List.cons_append, List.mem_cons, List.mem_append] at hx
    rcases hx with rfl | hx | hx
    · exact bound_alloc hl _ (by simp)
    · cases closure with
      | none => have : cs = [] := hc; subst this; cases hx
      | some c => exact bound_alloc (w := w) hc x hx
    · revert hb
      cases C.builtins with
      | none => intro hb; have : bs = [] := hb; subst this; cases hx
      | some c => exact fun hb => bound_alloc (w := w) hb x hx
  rw [e]
  cases [[locals], cs, bs].flatten.findSome? (bound C (w.alloc (.str s)).1 n) with
  | none => rfl
  | some g =>
    dsimp only
    cases g (w.alloc (.str s)).1 with
    | ok u v => rfl
    | err u => rfl
    | ub => rfl

/-- A function made in a frame sees the variables of that frame and then what the frame sees
outside: its closure stands for the locals followed by the scopes of the frame's closure. (Example: `VM/Demo.lean`.) -/
theorem C33_closure (w : World) (locals : Nat) (closure : Option Nat) (es : List (Nat × Nat)) (rs : List Nat)
    (hl : w.heap[locals]? = some (.map es)) (hk : NameKeys w.heap es)
    (hc : OScopes w closure rs) :
    ∃ c, (newFunc closure locals w).1.fclo (newFunc closure locals w).2 = some c ∧
      Scopes (newFunc closure locals w).1 c (locals :: rs) := by
  have hlt := (List.getElem?_eq_some_iff.1 hl).1
  have e1 : (newFunc closure locals w).1.heap = w.heap ++ [.opaque .closure] ++ [.opaque .func] := by
    show statics ++ (w.dyn ++ [_] ++ [_]) = statics ++ w.dyn ++ [_] ++ [_]
    simp only [List.append_assoc]
  have e2 : (newFunc closure locals w).1.clos = fun x => if x = w.heap.length then some (closure, locals) else w.clos x := rfl
  have hget : ∀ (r : Nat) x, w.heap[r]? = some x → (newFunc closure locals w).1.heap[r]? = some x := by
    intro r x h
    have := (List.getElem?_eq_some_iff.1 h).1
    rw [e1, List.getElem?_append_left (by simp; omega), List.getElem?_append_left this, h]
  have hclo : ∀ (c : Nat) o x, w.heap[c]? = some o → w.clos c = some x →
      (newFunc closure locals w).1.clos c = some x := by
    intro c o x ho h
    have := (List.getElem?_eq_some_iff.1 ho).1
    rw [e2]
    dsimp only
    rw [if_neg (by intro e; rw [e] at this; exact absurd this (Nat.lt_irrefl _))]
    exact h
  have hname : ∀ es, NameKeys w.heap es → NameKeys (newFunc closure locals w).1.heap es := by
    intro es hk e he
    obtain ⟨m, s, src, len, a, b⟩ := hk e he
    exact ⟨m, s, src, len, hget _ _ a, b⟩
  have hsc : ∀ {r : Nat} {rs : List Nat}, Scopes w r rs → Scopes (newFunc closure locals w).1 r rs := by
    intro r rs h
    induction h with
    | map hr hk => exact .map (hget _ _ hr) (hname _ hk)
    | smap hr => exact .smap (hget _ _ hr)
    | last hc hcl hv _ ih => exact .last (hget _ _ hc) (hclo _ _ _ hc hcl) hv ih
    | more hc hcl hv hp _ _ ih ih' => exact .more (hget _ _ hc) (hclo _ _ _ hc hcl) hv hp ih ih'
  have hnew : (newFunc closure locals w).1.heap[w.heap.length]? = some (.opaque .closure) := by
    rw [e1]; simp
  have hcn : (newFunc closure locals w).1.clos w.heap.length = some (closure, locals) := by
    rw [e2]; simp
  refine ⟨w.heap.length, ?_, ?_⟩
  · exact if_pos rfl
  · have hloc : Scopes (newFunc closure locals w).1 locals [locals] := .map (hget _ _ hl) (hname _ hk)
    cases closure with
    | none =>
      have : rs = [] := hc
      subst this
      exact .last hnew hcn hlt hloc
    | some p =>
      have hp : Scopes w p rs := hc
      exact .more hnew hcn hlt hp.lt hloc (hsc hp)

/-! ## Assignment -/

/-- Position of the first entry with the name. -/
def firstAt (h : Heap) (n : Name) : List (Nat × Nat) → Option Nat
  | [] => none
  | e :: es => if textOf h e.1 = some n then some 0 else (firstAt h n es).map (· + 1)

theorem findKey_names {hit : Nat → Nat → Bool} {h : Heap} {key : Ref} {n : List UInt8}
    (hh : Reaches hit h) (hk : IsName h key n) : ∀ (es : List (Nat × Nat)) (j : Nat), NameKeys h es →
    findKey hit h key es j = .ok ((firstAt h n es).map (· + j))
  | [], _, _ => rfl
  | (k, v) :: es, j, hs => by
    obtain ⟨m, hm⟩ := hs (k, v) (by simp)
    have ih := findKey_names hh hk es (j + 1) (fun e he => hs e (List.mem_cons_of_mem _ he))
    have hm' : IsName h k m := hm
    unfold findKey firstAt
    by_cases e : n = m
    · subst e
      rw [if_pos (hh _ _ _ hk hm'), compare_names hk hm', if_pos hm'.textOf, Exec.bind_ok]
      simp
    · have hne : ¬ textOf h k = some n := by
        rw [hm'.textOf]; simp; exact fun q => e q.symm
      rw [if_neg hne]
      have hmap : (Option.map (fun x => x + (j + 1)) (firstAt h n es)) =
          Option.map (fun x => x + j) (Option.map (fun x => x + 1) (firstAt h n es)) := by
        cases firstAt h n es with
        | none => rfl
        | some i => simp; omega
      rw [hmap] at ih
      by_cases q : hit key k = true
      · rw [if_pos q, compare_names hk hm', decide_eq_false e, Exec.bind_ok]
        exact ih
      · rw [if_neg q]
        exact ih

theorem firstAt_none {h : Heap} {n : Name} : ∀ {es : List (Nat × Nat)}, firstAt h n es = none →
    ∀ e ∈ es, textOf h e.1 ≠ some n
  | [], _, e, he => by cases he
  | x :: es, hf, e, he => by
    unfold firstAt at hf
    by_cases q : textOf h x.1 = some n
    · rw [if_pos q] at hf; cases hf
    · rw [if_neg q] at hf
      have : firstAt h n es = none := by
        cases h' : firstAt h n es with
        | none => rfl
        | some i => rw [h'] at hf; cases hf
      rcases List.mem_cons.1 he with rfl | he
      · exact q
      · exact firstAt_none this e he

/-- Writing at the first entry with the name. -/
theorem firstAt_some {h : Heap} {n : Name} {v : Nat} : ∀ {es : List (Nat × Nat)} {i : Nat}, firstAt h n es = some i →
    ∃ k v0, es[i]? = some (k, v0) ∧ textOf h k = some n ∧ ∀ m,
      (((es.set i (k, v)).find? fun e => decide (textOf h e.1 = some m)).map (·.2)) =
        if m = n then some v else (es.find? fun e => decide (textOf h e.1 = some m)).map (·.2)
  | [], i, hf => by cases hf
  | (k, v0) :: es, i, hf => by
    unfold firstAt at hf
    by_cases q : textOf h k = some n
    · rw [if_pos q] at hf
      cases hf
      refine ⟨k, v0, rfl, q, fun m => ?_⟩
      rw [List.set_cons_zero]
      by_cases e : m = n
      · subst e
        rw [if_pos rfl, List.find?_cons_of_pos (by simpa using q)]
        rfl
      · rw [if_neg e, List.find?_cons_of_neg (by simp [q]; exact fun q => e q.symm),
          List.find?_cons_of_neg (by simp [q]; exact fun q => e q.symm)]
    · rw [if_neg q] at hf
      cases h' : firstAt h n es with
      | none => rw [h'] at hf; cases hf
      | some i' =>
        rw [h'] at hf
        cases hf
        obtain ⟨k', v', a, b, c⟩ := firstAt_some (v := v) h'
        refine ⟨k', v', a, b, fun m => ?_⟩
        rw [List.set_cons_succ]
        by_cases p : textOf h k = some m
        · have hmn : ¬ m = n := fun e => q (by rw [p, e])
          rw [if_neg hmn, List.find?_cons_of_pos (by simpa using p), List.find?_cons_of_pos (by simpa using p)]
        · rw [List.find?_cons_of_neg (by simpa using p), List.find?_cons_of_neg (by simpa using p)]
          exact c m

theorem heap_withHeap (w : World) {h : Heap} (hs : ∀ i, i < statics.length → h[i]? = statics[i]?) :
    (w.withHeap h).heap = h := by
  show statics ++ h.drop statics.length = h
  have hl : statics.length ≤ h.length := by
    have := hs 20 (by decide)
    have h20 : statics[20]? = some (.type .smap) := rfl
    rw [h20] at this
    have := (List.getElem?_eq_some_iff.1 this).1
    have e : statics.length = 21 := rfl
    omega
  have : statics = h.take statics.length := by
    apply List.ext_getElem?
    intro i
    by_cases hi : i < statics.length
    · rw [List.getElem?_take_of_lt hi, hs i hi]
    · rw [List.getElem?_eq_none (by omega), List.getElem?_eq_none (by rw [List.length_take]; omega)]
  rw [this]
  simp only [List.length_take, Nat.min_eq_left hl]
  exact List.take_append_drop _ _

theorem copy_str {hit : Nat → Nat → Bool} {fuel : Nat} {h : Heap} {r : Nat} {s : Str.Str} (hf : 0 < fuel)
    (hr : h[r]? = some (.str s)) : Graph.copy hit fuel h r = .ok (h, r) := by
  obtain ⟨f, rfl⟩ : ∃ f, fuel = f + 1 := ⟨fuel - 1, by omega⟩
  show (rd h r >>= _) = _
  rw [rd_ok_iff.mpr hr, Exec.bind_ok]
  rfl

theorem bound_map {C : Config} {w : World} {n : Name} {r : Nat} {es : List (Nat × Nat)} (h : w.heap[r]? = some (.map es)) :
    bound C w n r = ((es.find? fun e => decide (textOf w.heap e.1 = some n)).map (·.2)).map fun v w => .ok w v := by
  unfold bound
  rw [h]
  dsimp only
  rw [Option.map_map]
  rfl

/-- Assigning a variable.  It always succeeds; afterwards the locals have the value under the name
and what they had under other names, and no other object has changed. (Example: `VM/Demo.lean`.) -/
theorem C33_write_partial (C : Config) (w : World) (n : Name) (s : Str.Str) (locals v : Nat)
    (es : List (Nat × Nat)) (hn : cstring n = .ok s) (h0 : (0 : UInt8) ∉ n) (hf : 0 < C.fuel)
    (hh : Reaches C.hit (w.alloc (.str s)).1.heap)
    (hl : w.heap[locals]? = some (.map es)) (hk : NameKeys w.heap es) :
    ∃ w', setVar C locals n v w = .ok w' () ∧
      (∃ es', w'.heap[locals]? = some (.map es') ∧ NameKeys w'.heap es') ∧
      (∀ m, bound C w' m locals = if m = n then some (fun w => .ok w v) else bound C w m locals) ∧
      (∀ x, x < w.heap.length → x ≠ locals → w'.heap[x]? = w.heap[x]?) ∧
      w'.clos = w.clos ∧ w'.fclo = w.fclo ∧ w'.nat = w.nat ∧ w'.tab = w.tab ∧ w'.out = w.out ∧ w'.err = w.err := by
  have hname := name_alloc (w := w) hn h0
  have hl' := get_alloc (o := .str s) hl
  have hk' : NameKeys (w.alloc (.str s)).1.heap es := fun e he => (hk e he).imp fun m hm => hm.alloc
  obtain ⟨x, hx⟩ := hash_name hname hf
  have hfk := findKey_names hh hname es 0 hk'
  have hsel : (firstAt (w.alloc (.str s)).1.heap n es).map (· + 0) = firstAt (w.alloc (.str s)).1.heap n es := by
    simp
  rw [hsel] at hfk
  have hll := (List.getElem?_eq_some_iff.1 hl).1
  have hge : statics.length ≤ locals := by
    refine Nat.le_of_not_lt fun hlt => ?_
    rw [heap_static w locals (by exact hlt)] at hl
    have : ∀ i, i < 21 → ∀ es, statics[i]? ≠ some (.map es) := by
      intro i hi es
      have hmem : ∀ o ∈ statics, ∀ es, o ≠ Obj.map es := by
        intro o ho es
        simp [statics, kinds] at ho
        rcases ho with rfl | rfl | rfl | rfl | rfl | rfl | rfl | rfl | rfl | rfl | rfl | rfl | rfl | rfl | rfl | rfl | rfl | rfl | rfl | rfl | rfl <;> simp
      intro e
      exact hmem _ (List.mem_of_getElem? e) es rfl
    exact this locals hlt es hl
  -- the map after the insertion
  obtain ⟨es', hins, hks, hb⟩ : ∃ es', Graph.mapInsert C.hit (fun h => Graph.hash h C.fuel) (Graph.copy C.hit C.fuel)
      (w.alloc (.str s)).1.heap locals (w.alloc (.str s)).2 v = .ok ((w.alloc (.str s)).1.heap.set locals (.map es')) ∧
      NameKeys (w.alloc (.str s)).1.heap es' ∧
      ∀ m, ((es'.find? fun e => decide (textOf (w.alloc (.str s)).1.heap e.1 = some m)).map (·.2)) =
        if m = n then some v else (es.find? fun e => decide (textOf (w.alloc (.str s)).1.heap e.1 = some m)).map (·.2) := by
    unfold Graph.mapInsert
    rw [rd_ok_iff.mpr hl', Exec.bind_ok]
    dsimp only
    rw [hx, Exec.bind_ok, hfk, Exec.bind_ok]
    cases hfa : firstAt (w.alloc (.str s)).1.heap n es with
    | some i =>
      obtain ⟨k, v0, a, b, c⟩ := firstAt_some (v := v) hfa
      refine ⟨es.set i (k, v), by dsimp only; rw [a], ?_, c⟩
      intro e he
      rcases List.mem_or_eq_of_mem_set he with h | h
      · exact hk' e h
      · rw [h]
        exact hk' (k, v0) (List.mem_of_getElem? a)
    | none =>
      obtain ⟨s', _, _, hs', _⟩ := hname
      dsimp only
      rw [copy_str hf hs', Exec.bind_ok]
      refine ⟨es ++ [((w.alloc (.str s)).2, v)], rfl, ?_, ?_⟩
      · intro e he
        rcases List.mem_append.1 he with h | h
        · exact hk' e h
        · rw [List.mem_singleton.1 h]; exact ⟨n, name_alloc hn h0⟩
      · intro m
        rw [List.find?_append]
        by_cases e : m = n
        · subst e
          have : es.find? (fun e => decide (textOf (w.alloc (.str s)).1.heap e.1 = some m)) = none := by
            rw [List.find?_eq_none]
            intro e he
            simpa using firstAt_none hfa e he
          rw [this, if_pos rfl, Option.none_or, List.find?_cons_of_pos (by simpa using (name_alloc hn h0).textOf)]
          rfl
        · rw [if_neg e, List.find?_cons_of_neg (by
            simp [(name_alloc (w := w) hn h0).textOf]; exact fun q => e q.symm)]
          simp
  have hlen : (w.alloc (.str s)).1.heap.length = w.heap.length + 1 := by rw [alloc_heap]; simp
  have hheap := heap_withHeap (w.alloc (.str s)).1
    (h := (w.alloc (.str s)).1.heap.set locals (.map es')) (by
      intro i hi
      rw [List.getElem?_set_ne (by omega)]
      exact heap_static _ i hi)
  have hset : ∀ k m, IsName (w.alloc (.str s)).1.heap k m →
      IsName ((w.alloc (.str s)).1.heap.set locals (.map es')) k m := by
    rintro k m ⟨t, src, len, a, b⟩
    refine ⟨t, src, len, ?_, b⟩
    rw [List.getElem?_set_ne]
    · exact a
    · intro e
      rw [← e, hl'] at a
      cases a
  have hnew : ((w.alloc (.str s)).1.heap.set locals (.map es'))[locals]? = some (.map es') := by
    rw [List.getElem?_set_self (by omega)]
  refine ⟨(w.alloc (.str s)).1.withHeap ((w.alloc (.str s)).1.heap.set locals (.map es')), ?_, ?_, ?_, ?_, rfl, rfl, rfl, rfl, rfl, rfl⟩
  · unfold setVar
    rw [hn]
    simp only [outOf, Out.bind]
    unfold insertObj
    rw [hl']
    dsimp only
    rw [hins]
    rfl
  · refine ⟨es', by rw [hheap]; exact hnew, ?_⟩
    rw [hheap]
    intro e he
    obtain ⟨m, hm⟩ := hks e he
    exact ⟨m, hset _ _ hm⟩
  · intro m
    rw [bound_map (es := es') (by rw [hheap]; exact hnew), bound_map hl, hheap]
    have hfind : ∀ l : List (Nat × Nat), NameKeys (w.alloc (.str s)).1.heap l →
        (l.find? fun e => decide (textOf ((w.alloc (.str s)).1.heap.set locals (.map es')) e.1 = some m)) =
          l.find? fun e => decide (textOf (w.alloc (.str s)).1.heap e.1 = some m) := by
      intro l
      induction l with
      | nil => intro _; rfl
      | cons e l ih =>
        intro hl
        obtain ⟨m', hm'⟩ := hl e (by simp)
        rw [List.find?_cons, List.find?_cons, (hset _ _ hm').textOf, hm'.textOf,
          ih fun e he => hl e (List.mem_cons_of_mem _ he)]
    rw [hfind es' hks, hb m, find_alloc hk]
    by_cases e : m = n
    · rw [if_pos e, if_pos e]; rfl
    · rw [if_neg e, if_neg e]
  · intro x hx hne
    rw [hheap, List.getElem?_set_ne (fun e => hne e.symm), alloc_heap, List.getElem?_append_left hx]

end Noja.VM
