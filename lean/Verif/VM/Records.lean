import Verif.VM.Logic

/-!
# Reasoning about programs: maps with names as keys, lists, and functions made by functions
-/

set_option linter.unusedVariables false
set_option linter.unusedSimpArgs false

namespace Noja.VM

open Noja.Graph (Obj Kind Heap)

variable {B : Config} {G : GEnv} {m : Nat} {outer : List (Ref × Env)} {D : List Ref} {c : Ctx World}
  {s0 s : SSt World} {env : Env} {K : List (Ref × Obj)}

/-- A string object made of a good name is that name. -/
theorem name_of {h : Heap} {k : Ref} {n : Name} (hk : h[k]? = some (.str (ascii n))) (hn : good n = true) : IsName h k n := by
  obtain ⟨a, b⟩ := cstring_name (good_cstring hn) (good_nul hn)
  exact ⟨ascii n, _, _, hk, a, b, good_nul hn⟩

/-! ## Entries -/

theorem Match.keys {h : Heap} : ∀ {es : List (Nat × Nat)} {fs : Env}, Match h es fs → NameKeys h es
  | [], [], _ => nofun
  | [], _ :: _, m => m.elim
  | _ :: _, [], m => m.elim
  | e :: es, f :: fs, ⟨a, b, c⟩ => fun x hx => by
    rcases List.mem_cons.1 hx with rfl | hx
    · exact ⟨_, a⟩
    · exact c.keys x hx

theorem Match.find {h : Heap} {n : Name} : ∀ {es : List (Nat × Nat)} {fs : Env}, Match h es fs →
    (es.find? fun e => decide (textOf h e.1 = some n)).map (·.2) = fs.lookup n
  | [], [], _ => rfl
  | [], _ :: _, m => m.elim
  | _ :: _, [], m => m.elim
  | e :: es, (k, v) :: fs, ⟨a, b, c⟩ => by
    have ih := c.find (n := n)
    have b' : e.2 = v := b
    rw [List.find?_cons, List.lookup_cons, IsName.textOf a]
    by_cases q : n = k
    · subst q; simp [b']
    · rw [show (n == k) = false from beq_eq_false_iff_ne.2 q, decide_eq_false (by simp; exact fun e => q e.symm)]
      exact ih

/-- The entries after one is set. -/
def put (n : Name) (v : Ref) : Env → Env
  | [] => [(n, v)]
  | f :: fs => if f.1 = n then (n, v) :: fs else f :: put n v fs

theorem Match.put {h : Heap} {n : Name} {key v : Ref} (hk : IsName h key n) : ∀ {es : List (Nat × Nat)} {fs : Env},
    Match h es fs →
    (firstAt h n es = none ∧ Match h (es ++ [(key, v)]) (put n v fs)) ∨
    ∃ i k u, firstAt h n es = some i ∧ es[i]? = some (k, u) ∧ Match h (es.set i (k, v)) (put n v fs)
  | [], [], _ => .inl ⟨rfl, hk, rfl, trivial⟩
  | [], _ :: _, m => m.elim
  | _ :: _, [], m => m.elim
  | e :: es, (a, u) :: fs, ⟨x, y, z⟩ => by
    by_cases q : a = n
    · subst q
      right
      refine ⟨0, e.1, e.2, ?_, rfl, ?_⟩
      · unfold firstAt; rw [if_pos (IsName.textOf x)]
      · simp only [VM.put, if_pos]
        exact ⟨x, rfl, z⟩
    · have hne : ¬ textOf h e.1 = some n := by rw [IsName.textOf x]; simp; exact q
      have e1 : VM.put n v ((a, u) :: fs) = (a, u) :: VM.put n v fs := by simp [VM.put, q]
      rw [e1]
      rcases Match.put hk z (v := v) with ⟨p, r⟩ | ⟨i, k, u', p, r, t⟩
      · left
        refine ⟨?_, x, y, r⟩
        unfold firstAt; rw [if_neg hne, p]; rfl
      · right
        refine ⟨i + 1, k, u', ?_, r, x, y, t⟩
        unfold firstAt; rw [if_neg hne, p]; rfl

theorem map_ge {w : World} {x : Ref} {es : List (Nat × Nat)} (h : w.heap[x]? = some (.map es)) : statics.length ≤ x := by
  refine Nat.le_of_not_lt fun hlt => ?_
  rw [heap_static w x (by exact hlt)] at h
  have hmem : ∀ o ∈ statics, ∀ es, o ≠ Obj.map es := by
    intro o ho es
    simp [statics, kinds] at ho
    rcases ho with rfl | rfl | rfl | rfl | rfl | rfl | rfl | rfl | rfl | rfl | rfl | rfl | rfl | rfl | rfl | rfl | rfl | rfl | rfl | rfl | rfl <;> simp
  exact hmem _ (List.mem_of_getElem? h) es rfl

/-- Changing one object. -/
theorem heap_set {w : World} {x : Ref} {o : Obj} (hx : statics.length ≤ x) :
    (w.withHeap (w.heap.set x o)).heap = w.heap.set x o :=
  heap_withHeap _ fun i hi => by
    rw [List.getElem?_set_ne (by omega)]
    exact heap_static _ i hi

theorem Ext.set {w : World} {f : Ref → Option FunDef} {x : Ref} {es : List (Nat × Nat)} {o : Obj}
    (hx : w.heap[x]? = some (.map es)) : Ext [x] ⟨w, f⟩ ⟨w.withHeap (w.heap.set x o), f⟩ where
  len := by show _ ≤ (w.withHeap (w.heap.set x o)).heap.length; rw [heap_set (map_ge hx)]; simp
  heap y hy hd := by
    show (w.withHeap (w.heap.set x o)).heap[y]? = _
    rw [heap_set (map_ge hx), List.getElem?_set_ne]
    intro e
    exact hd (by simp [e])
  dmap y hy _ := by rw [List.mem_singleton.1 hy]; exact ⟨es, hx⟩
  clos _ _ := rfl
  fclo _ _ := rfl
  nat _ _ := rfl
  tab _ _ := rfl
  funs _ _ := rfl
  out := rfl

/-- Inserting under a name. -/
theorem insert_rec {C : Config} {w : World} {x key v : Ref} {n : Name} {fs : Env} (hf : 0 < C.fuel)
    (hh : Reaches C.hit w.heap) (hr : Rec w x fs) (hk : IsName w.heap key n) (f : Ref → Option FunDef) :
    ∃ w', insertObj C x key v w = .ok w' () ∧ Ext [x] ⟨w, f⟩ ⟨w', f⟩ ∧ w'.err = w.err ∧ Rec w' x (put n v fs) := by
  obtain ⟨es, hx, hm⟩ := hr
  obtain ⟨es', hi, hm'⟩ : ∃ es', Graph.mapInsert C.hit (fun h => Graph.hash h C.fuel) (Graph.copy C.hit C.fuel)
      w.heap x key v = .ok (w.heap.set x (.map es')) ∧ Match w.heap es' (put n v fs) := by
    obtain ⟨y, hy⟩ := hash_name hk hf
    unfold Graph.mapInsert
    rw [rd_ok_iff.mpr hx, Exec.bind_ok]
    dsimp only
    have hfk := findKey_names hh hk es 0 hm.keys
    rw [show (firstAt w.heap n es).map (· + 0) = firstAt w.heap n es by simp] at hfk
    rw [hy, Exec.bind_ok, hfk, Exec.bind_ok]
    rcases Match.put hk hm (v := v) with ⟨p, r⟩ | ⟨i, k, u, p, q, r⟩
    · rw [p]
      dsimp only
      obtain ⟨t, _, _, ht, _⟩ := hk
      rw [copy_str hf ht, Exec.bind_ok]
      exact ⟨_, rfl, r⟩
    · rw [p]
      dsimp only
      rw [q]
      exact ⟨_, rfl, r⟩
  refine ⟨w.withHeap (w.heap.set x (.map es')), ?_, .set hx, rfl, ?_⟩
  · unfold insertObj
    rw [hx]
    dsimp only
    rw [hi]
    rfl
  · refine ⟨es', ?_, ?_⟩
    · rw [heap_set (map_ge hx), List.getElem?_set_self (get_lt hx)]
    · exact hm'.imp fun k m hk => (Ext.set (f := f) (o := .map es') hx).name hk

/-! ## Rules -/

/-- A change of one known map. -/
theorem Sit.update (h : Sit B G m outer D c s0 s env K) {x : Ref} {fs fs' : Env} {R : List (Ref × Env)}
    (hG : G.recs = (x, fs) :: R) (hx : x ∈ D ∨ s0.w.heap.length ≤ x) (hn : x ≠ G.V ∧ x ≠ G.M ∧ ∀ p ∈ outer, x ≠ p.1)
    (hR : ∀ p ∈ R, p.1 ≠ x) (hO : G.old.length ≤ x) {s' : SSt World} (e : Ext [x] s s') (he : s'.w.err = false)
    (hr : Rec s'.w x fs') : Sit B { G with recs := (x, fs') :: R } m outer D c s0 s' env K := by
  have hxl : x ≠ c.locals := h.recs.1 (x, fs) (by rw [hG]; simp)
  have hs : ∀ y, y ≠ x → y ∉ [x] := fun y hy hm => hy (List.mem_singleton.1 hm)
  have g := h.glob
  have g1 : Globals B { G with recs := R } s :=
    { err := g.err, vars := g.vars, mods := g.mods, tabo := g.tabo, tabt := g.tabt, bins := g.bins, funcs := g.funcs
      nats := g.nats, objs := g.objs, recs := fun p hp => g.recs p (by rw [hG]; exact List.mem_cons_of_mem _ hp)
      old := g.old }
  have g2 := g1.ext e (hs _ hn.1.symm) (hs _ hn.2.1.symm) he (fun p hp => hs _ (hR p hp))
    (fun y hy => by rw [List.mem_singleton.1 hy]; exact hO)
  exact
    { L := h.L, fuel := h.fuel, call := h.call
      glob :=
        { err := g2.err, vars := g2.vars, mods := g2.mods, tabo := g2.tabo, tabt := g2.tabt, bins := g2.bins
          funcs := g2.funcs, nats := g2.nats, objs := g2.objs, old := g2.old
          recs := fun p hp => by
            rcases List.mem_cons.1 hp with rfl | hp
            · exact hr
            · exact g2.recs p hp }
      fresh := h.fresh
      ext := by
        refine ⟨Nat.le_trans h.ext.len e.len, fun y hy hd => ?_, h.ext.dmap, fun y hy => ?_, fun y hy => ?_, fun y hy => ?_,
          fun y hy => ?_, fun y hy => ?_, by rw [e.out, h.ext.out]⟩
        · rw [e.heap y (Nat.lt_of_lt_of_le hy h.ext.len) (hs _ ?_), h.ext.heap y hy hd]
          rintro rfl
          rcases hx with hx | hx
          · exact hd (List.mem_cons_of_mem _ hx)
          · exact absurd hx (Nat.not_le_of_lt hy)
        · rw [e.clos y (Nat.lt_of_lt_of_le hy h.ext.len), h.ext.clos y hy]
        · rw [e.fclo y (Nat.lt_of_lt_of_le hy h.ext.len), h.ext.fclo y hy]
        · rw [e.nat y (Nat.lt_of_lt_of_le hy h.ext.len), h.ext.nat y hy]
        · rw [e.tab y (Nat.lt_of_lt_of_le hy h.ext.len), h.ext.tab y hy]
        · rw [e.funs y (Nat.lt_of_lt_of_le hy h.ext.len), h.ext.funs y hy]
      disj := h.disj, locals := h.locals
      recs := ⟨fun p hp => by
        rcases List.mem_cons.1 hp with rfl | hp
        · exact hxl
        · exact h.recs.1 p (by rw [hG]; exact List.mem_cons_of_mem _ hp), h.recs.2⟩
      vars := h.vars.ext e (hs _ (Ne.symm hxl))
      clo := e.oscopes h.clo fun y hy => by
        obtain ⟨p, hp, rfl⟩ := List.mem_map.1 hy
        exact hs _ (hn.2.2 p hp).symm
      outs := fun p hp => (h.outs p hp).ext e (hs _ (hn.2.2 p hp).symm)
      know := h.know.ext e }

/-- Storing into a known map. -/
theorem wp_insertRec (hB : Conf B) (h : Sit B G m outer D c s0 s env K) {x y v : Ref} {n : Name} {fs : Env}
    {R : List (Ref × Env)} (hG : G.recs = (x, fs) :: R) (hx : x ∈ D ∨ s0.w.heap.length ≤ x)
    (hn : x ≠ G.V ∧ x ≠ G.M ∧ ∀ p ∈ outer, x ≠ p.1) (hR : ∀ p ∈ R, p.1 ≠ x) (hO : G.old.length ≤ x)
    (hy : (y, .str (ascii n)) ∈ K) {Q : Unit → SSt World → Prop}
    (hq : ∀ s', Sit B { G with recs := (x, put n v fs) :: R } m outer D c s0 s' env K → Ext [x] s s' → Q () s')
    (hg : good n = true := by rfl) : wp (lift c.L (c.L.insert x y v)) Q s := by
  obtain ⟨w', hi, e, he, hr⟩ := insert_rec (C := std B) (v := v) (Nat.lt_trans (by decide) hB.fuel) (hB.reach _)
    (h.glob.recs (x, fs) (by rw [hG]; simp)) (name_of (h.obj hy) hg) s.funs
  rw [h.L]
  have he' : w'.err = false := he.trans h.glob.err
  exact wp_lift (L := objects (std B)) hi he' (hq _ (h.update hG hx hn hR hO e he' hr) e)

/-- A new map. -/
theorem wp_newMap (h : Sit B G m outer D c s0 s env K) {k : Nat} {Q : Ref → SSt World → Prop}
    (hq : ∀ x s', Sit B { G with recs := (x, []) :: G.recs } m outer D c s0 s' env K → s.w.heap.length ≤ x →
      x ≠ G.V ∧ x ≠ G.M ∧ (∀ p ∈ outer, x ≠ p.1) → (∀ p ∈ G.recs, p.1 ≠ x) → Q x s') :
    wp (lift c.L (c.L.newMap k)) Q s := by
  have e := Ext.alloc s (.map [])
  have h1 := h.after e nofun h.glob.err
  rw [h.L]
  have ne : ∀ y, y < s.w.heap.length → (s.w.alloc (.map [])).2 ≠ y := fun y hy he => absurd (he ▸ hy) (Nat.lt_irrefl _)
  have g := h1.glob
  refine wp_lift (L := objects (std B)) (f := (objects (std B)).newMap k) (w := (s.w.alloc (.map [])).1)
    (a := (s.w.alloc (.map [])).2) rfl h.glob.err
    (hq _ _ ?_ (Nat.le_refl _)
      ⟨ne _ h.glob.vars.lt, ne _ h.glob.mods.lt, fun p hp => ne _ (h.outs p hp).lt⟩
      (fun p hp => (ne _ (h.glob.recs p hp).lt).symm))
  exact
    { h1 with
      glob :=
        { err := g.err, vars := g.vars, mods := g.mods, tabo := g.tabo, tabt := g.tabt, bins := g.bins
          funcs := g.funcs, nats := g.nats, objs := g.objs, old := g.old
          recs := fun p hp => by
            rcases List.mem_cons.1 hp with rfl | hp
            · exact ⟨[], alloc_get _ _, trivial⟩
            · exact g.recs p hp }
      recs := ⟨fun p hp => by
        rcases List.mem_cons.1 hp with rfl | hp
        · exact ne _ h.vars.lt
        · exact h.recs.1 p hp, h.recs.2⟩ }

theorem wp_map {ps : Pairs} {Q : Ref → SSt World → Prop}
    (h : wp (lift c.L (c.L.newMap ps.count)) (fun x s => wp (ps.fill c x) (fun _ s => Q x s) s) s) :
    wp ((Expr.map ps).eval c) Q s := by
  simp only [Expr.eval]
  exact wp_bind (wp_mono h fun x s1 h1 => wp_bind (wp_mono h1 fun _ s2 h2 => wp_pure h2))

theorem wp_fillEnd {x : Ref} {Q : Unit → SSt World → Prop} (h : Q () s) : wp (Pairs.nil.fill c x) Q s := by
  simp only [Pairs.fill]
  exact wp_pure h

theorem wp_fill {x : Ref} {k v : Expr} {ps : Pairs} {Q : Unit → SSt World → Prop}
    (h : wp (k.eval c) (fun y s => wp (v.eval c) (fun z s => wp (lift c.L (c.L.insert x y z)) (fun _ s =>
      wp (ps.fill c x) Q s) s) s) s) : wp ((Pairs.cons k v ps).fill c x) Q s := by
  simp only [Pairs.fill]
  exact wp_bind (wp_mono h fun y s1 h1 => wp_bind (wp_mono h1 fun z s2 h2 => wp_bind h2))

theorem wp_select {a b : Expr} {Q : Ref → SSt World → Prop}
    (h : wp (a.eval c) (fun x s => wp (b.eval c) (fun y s => wp (lift c.L (c.L.select x y)) Q s) s) s) :
    wp ((Expr.select a b).eval c) Q s := by
  simp only [Expr.eval]
  exact wp_bind (wp_mono h fun x s1 h1 => wp_bind h1)

/-- Storing into a map or list. -/
theorem wp_assignSel {a b e : Expr} {Q : Ref → SSt World → Prop}
    (h : wp (e.eval c) (fun v s => wp (a.eval c) (fun x s => wp (b.eval c) (fun y s =>
      wp (lift c.L (c.L.insert x y v)) (fun _ s => Q v s) s) s) s) s) :
    wp ((Expr.assign (.sel a b) e).eval c) Q s := by
  simp only [Expr.eval, Target.store]
  exact wp_bind (wp_mono h fun v s1 h1 => wp_bind (wp_bind (wp_mono h1 fun x s2 h2 => wp_bind (wp_mono h2 fun y s3 h3 =>
    wp_mono h3 fun _ s4 h4 => wp_pure h4))))

/-- A selection that leaves everything as it is. -/
theorem wp_sel (h : Sit B G m outer D c s0 s env K) {x y : Ref} {r : Option Ref}
    (hs : ∃ e, selectObj (std B) (selFuel s.w) x y s.w = .ok { s.w with err := e } r)
    {Q : Ref → SSt World → Prop} (hq : Q (r.getD 0) s) : wp (lift c.L (c.L.select x y)) Q s := by
  have hw : ({ s.w with err := false } : World) = s.w := by rw [← h.glob.err]
  obtain ⟨e, hs⟩ := hs
  refine wp_lift (w := s.w) (a := r.getD 0) ?_ (by rw [h.L]; exact h.glob.err) hq
  rw [h.L]
  show (selectObj (std B) (selFuel s.w) x y { s.w with err := false }).bind _ = _
  rw [hw, hs]
  rfl

/-- Selecting a name in a known map. -/
theorem select_rec {C : Config} {w : World} {x y : Ref} {n : Name} {fs : Env} (hf : 0 < C.fuel)
    (hh : Reaches C.hit w.heap) (he : w.err = false) (hr : Rec w x fs) (hk : IsName w.heap y n) (k : Nat) :
    selectObj C (k + 1) x y w = .ok w (fs.lookup n) := by
  obtain ⟨es, hx, hm⟩ := hr
  obtain ⟨z, hz⟩ := hash_name hk hf
  unfold selectObj
  rw [hx]
  dsimp only
  rw [hz, he, lookup_names hh hk es hm.keys, hm.find]
  dsimp only
  rw [← he]

theorem wp_selRec (hB : Conf B) (h : Sit B G m outer D c s0 s env K) {x y : Ref} {n : Name} {fs : Env} {v : Option Ref}
    (hx : (x, fs) ∈ G.recs) (hy : (y, .str (ascii n)) ∈ K) (hv : fs.lookup n = v)
    {Q : Ref → SSt World → Prop} (hq : Q (v.getD 0) s) (hg : good n = true := by rfl) :
    wp (lift c.L (c.L.select x y)) Q s := by
  refine wp_sel h ⟨s.w.err, ?_⟩ hq
  rw [← hv]
  exact select_rec (C := std B) (Nat.lt_trans (by decide) hB.fuel) (hB.reach _) h.glob.err (h.glob.recs _ hx)
    (name_of (h.obj hy) hg) _

/-- Selecting in a list. -/
theorem wp_selList (h : Sit B G m outer D c s0 s env K) {x y v : Ref} {items : List Ref} {i : Nat}
    (hx : s.w.heap[x]? = some (.list items)) (hy : (y, .int i) ∈ K) (hi : i < 2 ^ 31) (hv : items[i]? = some v)
    {Q : Ref → SSt World → Prop} (hq : Q v s) : wp (lift c.L (c.L.select x y)) Q s := by
  refine wp_sel h (r := some v) ⟨s.w.err, ?_⟩ hq
  have hl : i < items.length := (List.getElem?_eq_some_iff.1 hv).1
  have ht : toI32 (i : Int) = i := toI32_of_isI32 (by unfold IsI32; omega)
  show selectObj (std B) (s.w.heap.length + 1) x y s.w = _
  unfold selectObj
  rw [hx]
  dsimp only
  rw [show intKey s.w.heap y = some (i : Int) by unfold intKey; rw [h.obj hy]]
  dsimp only
  rw [ht, if_neg (by omega)]
  simp [hv]

/-- Selecting in a map by a key that is found. -/
theorem wp_selMap (h : Sit B G m outer D c s0 s env K) {x y v : Ref} {es : List (Nat × Nat)} {z : BitVec 32}
    (hx : s.w.heap[x]? = some (.map es)) (hz : Graph.hash s.w.heap B.fuel y = .ok z)
    (hv : Graph.lookup B.hit s.w.heap y es false = .ok (some v, false))
    {Q : Ref → SSt World → Prop} (hq : Q v s) : wp (lift c.L (c.L.select x y)) Q s := by
  refine wp_sel h (r := some v) ⟨s.w.err, ?_⟩ hq
  show selectObj (std B) (s.w.heap.length + 1) x y s.w = _
  unfold selectObj
  rw [hx]
  dsimp only
  rw [show Graph.hash s.w.heap (std B).fuel y = .ok z from hz]
  dsimp only
  rw [show Graph.lookup (std B).hit s.w.heap y es s.w.err = .ok (some v, false) by rw [h.glob.err]; exact hv]
  dsimp only
  rw [h.glob.err]

theorem wp_nlb (h : Sit B G m outer D c s0 s env K) {a : Expr} {Q : Ref → SSt World → Prop}
    (hq : wp (a.eval c) (fun x s => wp (lift c.L (c.L.un .nlb x)) Q s) s) : wp ((Expr.un .nlb a).eval c) Q s := by
  simp only [Expr.eval]
  exact wp_bind (wp_mono hq fun x s1 h1 => h1)

theorem wp_mkNlb (h : Sit B G m outer D c s0 s env K) {x : Ref} {Q : Ref → SSt World → Prop}
    (hq : ∀ r s', Sit B G m outer D c s0 s' env ((r, .nullable x) :: K) → Q r s') :
    wp (lift c.L (c.L.un .nlb x)) Q s := by
  refine wp_mk h (o := .nullable x) nofun ?_ hq
  rw [h.L]
  rfl

/-! ## Functions made by functions -/

/-- A function object with its definition and the scopes it sees. -/
def IsFun (s : SSt World) (f : Ref) (fd : FunDef) (rs : List Ref) : Prop :=
  s.w.heap[f]? = some (.opaque .func) ∧ s.funs f = some fd ∧ ∃ c, s.w.fclo f = some c ∧ Scopes s.w c rs

theorem IsFun.ext {D : List Ref} {s s' : SSt World} {f : Ref} {fd : FunDef} {rs : List Ref} (h : IsFun s f fd rs)
    (e : Ext D s s') (hd : ∀ x ∈ rs, x ∉ D) : IsFun s' f fd rs := by
  obtain ⟨a, b, k, d, g⟩ := h
  exact ⟨e.obj a (by decide), by rw [e.funs _ (get_lt a)]; exact b, k, by rw [e.fclo _ (get_lt a)]; exact d, e.scopes g hd⟩

theorem Ext.newFunc (s : SSt World) (clo : Option Ref) (l : Ref) (fd : FunDef) :
    Ext [] s ⟨(VM.newFunc clo l s.w).1, fun x => if x = (VM.newFunc clo l s.w).2 then some fd else s.funs x⟩ := by
  have e1 : (VM.newFunc clo l s.w).1.heap = s.w.heap ++ [.opaque .closure] ++ [.opaque .func] := by
    show statics ++ (s.w.dyn ++ [_] ++ [_]) = statics ++ s.w.dyn ++ [_] ++ [_]
    simp only [List.append_assoc]
  have e2 : (VM.newFunc clo l s.w).2 = s.w.heap.length + 1 := by
    show (statics ++ (s.w.dyn ++ [_])).length = (statics ++ s.w.dyn).length + 1
    simp [Nat.add_assoc]
  have ne : ∀ x, x < s.w.heap.length → x ≠ s.w.heap.length + 1 := fun x hx => by omega
  exact
    { len := by show _ ≤ (VM.newFunc clo l s.w).1.heap.length; rw [e1]; simp
      heap := fun x hx _ => by
        show (VM.newFunc clo l s.w).1.heap[x]? = _
        rw [e1, List.append_assoc, List.getElem?_append_left hx]
      dmap := nofun
      clos := fun x hx => if_neg (Nat.ne_of_lt hx)
      fclo := fun x hx => if_neg (by show ¬ x = (VM.newFunc clo l s.w).2; rw [e2]; exact ne x hx)
      nat := fun _ _ => rfl
      tab := fun _ _ => rfl
      funs := fun x hx => if_neg (by rw [e2]; exact ne x hx)
      out := rfl }

/-- Making a function. -/
theorem wp_func (h : Sit B G m outer D c s0 s env K) {n : Name} {fd : FunDef} {Q : Ref → SSt World → Prop}
    (hq : ∀ f s', Sit B G m outer D c s0 s' env K → IsFun s' f fd (c.locals :: outer.map (·.1)) → Q f s') :
    wp ((Expr.func n fd).eval c) Q s := by
  simp only [Expr.eval]
  rw [h.L]
  have e := Ext.newFunc s c.closure c.locals fd
  refine wp_bind (wp_lift (L := objects (std B)) (f := (objects (std B)).newFunc c.closure c.locals)
    (w := (newFunc c.closure c.locals s.w).1) (a := (newFunc c.closure c.locals s.w).2) rfl h.glob.err ?_)
  refine wp_bind ⟨_, (), rfl, wp_pure (hq _ _ (h.after e nofun h.glob.err) ?_)⟩
  obtain ⟨es, a, b, _⟩ := h.vars
  obtain ⟨k, hk, hs⟩ := C33_closure s.w c.locals c.closure es _ a b h.clo
  refine ⟨?_, if_pos rfl, k, hk, hs⟩
  exact alloc_get (newClosure c.closure c.locals s.w).1 (.opaque .func)

/-! ## Native functions -/

/-- `count`. -/
theorem wp_count (hB : Conf B) {m : Nat} (h : Sit B G (m + 1) outer D c s0 s env K)
    (hr : resolve G env outer N.count = none) {a : Ref} {o : Obj} {n : Nat} (ha : s.w.heap[a]? = some o)
    (ho : o.kind ≠ .map) (hn : countOf o = some n) {Q : Ref → SSt World → Prop}
    (hq : ∀ r s', Sit B G (m + 1) outer D c s0 s' env ((r, .int n) :: K) → Q r s') :
    wp ((Expr.ident N.count).eval c) (fun g s => wp (c.call g [a].reverse 1) (fun r s => ∃ v, r = [v] ∧ Q v s) s) s := by
  have h0 := h.learn ho ha
  refine wp_fn hB h0 hr rfl fun g s1 h1 hg hnat => ?_
  rw [h1.call]
  have hn' : n ≤ n := Nat.le_refl _
  refine wp_native (w := (s1.w.alloc (.int n)).1) (vs := [(s1.w.alloc (.int n)).2]) h1.glob.err hg hnat ?_ h1.glob.err
    (by simp) ⟨_, rfl, hq _ _ ?_⟩
  · show stdNative B 1 [a] s1.w = _
    simp only [stdNative, h1.obj (r := a) (o := o) (by simp), hn]
    rfl
  · have h2 := h1.alloc (o := .int n) nofun
    exact { h2 with
      know := fun p hp => h2.know p (by
        rcases List.mem_cons.1 hp with rfl | hp
        · simp
        · exact List.mem_cons_of_mem _ (List.mem_cons_of_mem _ hp)) }

end Noja.VM
