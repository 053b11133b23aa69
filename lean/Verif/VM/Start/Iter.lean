import Verif.VM.Records
import Verif.VM.Start.Int

/-!
# C70: iterators
-/

set_option linter.unusedVariables false
set_option linter.unusedSimpArgs false

namespace Noja.VM.Start

open Noja.Graph (Obj Kind Heap)

/-- The builtins, with known maps and objects besides. -/
def Place.genv (P : Place) (R : List (Ref × Env)) (O : Heap) : GEnv := { P.env with recs := R, old := O }

theorem genv_of {B : Config} {P : Place} {s : SSt World} {R R' : List (Ref × Env)} {O O' : Heap}
    (g : Globals B (P.genv R O) s) (hR : ∀ p ∈ R', Rec s.w p.1 p.2)
    (hO : ∀ x, x < O'.length → s.w.heap[x]? = O'[x]?) : Globals B (P.genv R' O') s :=
  { err := g.err, vars := g.vars, mods := g.mods, tabo := g.tabo, tabt := g.tabt, bins := g.bins
    funcs := g.funcs, nats := g.nats, objs := g.objs, recs := hR, old := hO }

variable {B : Config} {P : Place} {m : Nat} {s : SSt World} {K : List (Ref × Obj)} {R : List (Ref × Env)} {O : Heap}

theorem old_get {G : GEnv} (g : Globals B G s) {r : Ref} {o : Obj} (hr : G.old[r]? = some o) : s.w.heap[r]? = some o := by
  rw [g.old r (get_lt hr)]
  exact hr

/-! ## Facts that hold in larger heaps -/

section

variable {h h' : Heap} (ha : ∀ x, x < h.length → h'[x]? = h[x]?)

include ha

theorem get_mono {r : Nat} {o : Obj} (hr : h[r]? = some o) : h'[r]? = some o := by
  rw [ha r (get_lt hr)]
  exact hr

theorem compare_mono {a b : Nat} {x : Exec Bool} (hc : Graph.compare h a b = x) (hx : x ≠ .ub) :
    Graph.compare h' a b = x := by
  cases ea : h[a]? with
  | none =>
    unfold Graph.compare at hc
    have : rd h a = .ub := by unfold rd; rw [ea]
    rw [this] at hc
    exact absurd hc.symm hx
  | some o =>
    cases eb : h[b]? with
    | none =>
      unfold Graph.compare at hc
      have : rd h b = .ub := by unfold rd; rw [eb]
      rw [rd_ok_iff.mpr ea, Exec.bind_ok, this] at hc
      exact absurd hc.symm hx
    | some o' =>
      rw [← hc, Graph.compare_get ((get_mono ha ea).trans ea.symm) ((get_mono ha eb).trans eb.symm)]

theorem lookup_mono {hit : Nat → Nat → Bool} {key : Nat} : ∀ {es : List (Nat × Nat)} {e : Bool} {r : Option Nat × Bool},
    Graph.lookup hit h key es e = .ok r → Graph.lookup hit h' key es e = .ok r
  | [], _, _, hl => hl
  | (k, v) :: es, e, r, hl => by
    unfold Graph.lookup at hl ⊢
    by_cases q : hit key k = true
    · rw [if_pos q] at hl ⊢
      cases hc : Graph.compare h key k with
      | ok b =>
        rw [compare_mono ha hc nofun]
        rw [hc] at hl
        cases b with
        | true => exact hl
        | false =>
          dsimp only at hl ⊢
          by_cases he : e = true
          · rw [if_pos he] at hl ⊢; exact hl
          · rw [if_neg he] at hl ⊢; exact lookup_mono hl
      | err => rw [compare_mono ha hc nofun]; rw [hc] at hl; exact hl
      | ub => rw [hc] at hl; cases hl
      | diverge => rw [hc] at hl; cases hl
    · rw [if_neg q] at hl ⊢
      exact lookup_mono hl

omit ha in
theorem hashSum_mono {f f' : Nat → Exec (BitVec 32)} (hf : ∀ r x, f r = .ok x → f' r = .ok x) :
    ∀ {rs : List Nat} {a x : BitVec 32}, Graph.hashSum f rs a = .ok x → Graph.hashSum f' rs a = .ok x
  | [], _, _, h => h
  | r :: rs, a, x, h => by
    unfold Graph.hashSum at h ⊢
    cases h1 : f r with
    | ok y =>
      rw [h1, Exec.bind_ok] at h
      rw [hf _ _ h1, Exec.bind_ok]
      cases h2 : Graph.addInt a y with
      | ok z =>
        rw [h2, Exec.bind_ok] at h
        rw [Exec.bind_ok]
        exact hashSum_mono hf h
      | _ => rw [h2] at h; cases h
    | _ => rw [h1] at h; cases h

omit ha in
theorem hashEntries_mono {f f' : Nat → Exec (BitVec 32)} (hf : ∀ r x, f r = .ok x → f' r = .ok x) :
    ∀ {es : List (Nat × Nat)} {a x : BitVec 32}, Graph.hashEntries f es a = .ok x → Graph.hashEntries f' es a = .ok x
  | [], _, _, h => h
  | (k, v) :: es, a, x, h => by
    unfold Graph.hashEntries at h ⊢
    cases h1 : f k with
    | ok y =>
      rw [h1, Exec.bind_ok] at h
      rw [hf _ _ h1, Exec.bind_ok]
      cases h2 : f v with
      | ok y' =>
        rw [h2, Exec.bind_ok] at h
        rw [hf _ _ h2, Exec.bind_ok]
        cases h3 : Graph.addInt y y' with
        | ok z =>
          rw [h3, Exec.bind_ok] at h
          rw [Exec.bind_ok]
          cases h4 : Graph.addInt a z with
          | ok z' =>
            rw [h4, Exec.bind_ok] at h
            rw [Exec.bind_ok]
            exact hashEntries_mono hf h
          | _ => rw [h4] at h; cases h
        | _ => rw [h3] at h; cases h
      | _ => rw [h2] at h; cases h
    | _ => rw [h1] at h; cases h

theorem hash_mono : ∀ {n r : Nat} {x : BitVec 32}, Graph.hash h n r = .ok x → Graph.hash h' n r = .ok x
  | 0, _, _, e => by cases e
  | n + 1, r, x, e => by
    cases hr : h[r]? with
    | none =>
      unfold Graph.hash at e
      have : rd h r = .ub := by unfold rd; rw [hr]
      rw [this] at e
      cases e
    | some o =>
      rw [Graph.hash_succ hr] at e
      rw [Graph.hash_succ (get_mono ha hr)]
      cases o with
      | list items => exact hashSum_mono (fun r x => hash_mono) e
      | map es => exact hashEntries_mono (fun r x => hash_mono) e
      | «opaque» k => cases k <;> exact e
      | _ => exact e

end

/-! ## Collections -/

/-- The collection `r` has the values `vs` under the keys `ks`.  `K` are facts about the keys of a list. -/
inductive Holds (B : Config) (O : Heap) (r : Ref) (ks vs : List Ref) (K : List (Ref × Obj)) : Prop
  | list (hr : O[r]? = some (.list vs)) (hl : ks.length = vs.length)
      (hk : ∀ (i : Nat) k, ks[i]? = some k → (k, .int i) ∈ K)
  | map (es : List (Nat × Nat)) (hr : O[r]? = some (.map es)) (hk : ks = es.map (·.1)) (hv : vs = es.map (·.2))
      (hh : ∀ e ∈ es, ∃ z, Graph.hash O B.fuel e.1 = .ok z)
      (hs : ∀ e ∈ es, Graph.lookup B.hit O e.1 es false = .ok (some e.2, false))

theorem Holds.len {r : Ref} {ks vs : List Ref} (h : Holds B O r ks vs K) : ks.length = vs.length := by
  cases h with
  | list hr hl hk => exact hl
  | map es hr hk hv hh hs => rw [hk, hv]; simp

theorem Holds.obj {r : Ref} {ks vs : List Ref} (h : Holds B O r ks vs K) :
    ∃ o, O[r]? = some o ∧ (o.kind = .list ∨ o.kind = .map) := by
  cases h with
  | list hr hl hk => exact ⟨_, hr, .inl rfl⟩
  | map es hr hk hv hh hs => exact ⟨_, hr, .inr rfl⟩

theorem wp_selCol {outer : List (Ref × Env)} {D : List Ref} {c : Ctx World} {s0 : SSt World} {env : Env}
    {G : GEnv} (h : Sit B G m outer D c s0 s env K) {r k v : Ref} {ks vs : List Ref} {i : Nat}
    {K' : List (Ref × Obj)} (hc : Holds B G.old r ks vs K') (hK : ∀ p ∈ K', p ∈ K)
    (hi : i < 2 ^ 31) (hk : ks[i]? = some k) (hv : vs[i]? = some v) {Q : Ref → SSt World → Prop} (hq : Q v s) :
    wp (lift c.L (c.L.select r k)) Q s := by
  cases hc with
  | list hr hl hk' => exact wp_selList h (old_get h.glob hr) (hK _ (hk' i k hk)) hi hv hq
  | map es hr hk' hv' hh hs =>
    rw [hk', List.getElem?_map] at hk
    rw [hv', List.getElem?_map] at hv
    cases he : es[i]? with
    | none => rw [he] at hk; cases hk
    | some e =>
      rw [he] at hk hv
      cases hk
      cases hv
      have hm := List.mem_of_getElem? he
      obtain ⟨z, hz⟩ := hh e hm
      exact wp_selMap h (old_get h.glob hr) (hash_mono h.glob.old hz) (lookup_mono h.glob.old (hs e hm)) hq

/-! ## GenericIterator -/

def typeFields (t nl : Ref) (P : Place) : Env :=
  [(N.set, t), (N.keys, typeRef .list), (N.index, nl), (N.next, P.var N.Callable)]

theorem gi_spec (hB : Conf B) (g : Globals B (P.genv R O) s) (hk : Knows s K) (t : Ref) :
    wp (callN (objects (std B)) (m + 1) (P.var N.GenericIterator) [t] 1) (fun vs s' => ∃ x nl, vs = [x] ∧ Ext [] s s' ∧
      s'.w.err = false ∧ Rec s'.w x (typeFields t nl P) ∧ s'.w.heap[nl]? = some (.nullable (typeRef .int))) s := by
  refine wp_enterG (m := m) g hk (fd := F.GenericIterator) ?_ ?_
  · simp [Place.genv, Place.env, vfuncs]
  intro c s1 h
  refine run_results ?_
  unfold F.GenericIterator
  refine wp_run (wp_param (v := t) (vs := []) ?_)
  refine wp_store hB h fun s2 h => ?_
  simp only [Params.bind]
  refine wp_pure (wp_ret (wp_cons (wp_map ?_)))
  have hl := h.ext.len
  refine wp_newMap h fun x s3 h hx hn hr => ?_
  have hx0 : s.w.heap.length ≤ x := Nat.le_trans hl hx
  refine wp_fill (wp_str h fun k1 s4 h => ?_)
  refine wp_var hB h rfl fun s5 h => ?_
  refine wp_insertRec (n := N.set) hB h rfl (.inr hx0) hn hr (Nat.le_trans g.old_le hx0) (by mem) fun s6 h e => ?_
  refine wp_fill (wp_str h fun k2 s7 h => ?_)
  refine wp_type hB h (k := .list) rfl rfl fun s8 h => ?_
  refine wp_insertRec (n := N.keys) hB h rfl (.inr hx0) hn hr (Nat.le_trans g.old_le hx0) (by mem) fun s9 h e => ?_
  refine wp_fill (wp_str h fun k3 s10 h => wp_nlb h ?_)
  refine wp_type hB h (k := .int) rfl rfl fun s11 h => ?_
  refine wp_mkNlb h fun nl s12 h => ?_
  refine wp_insertRec (n := N.index) hB h rfl (.inr hx0) hn hr (Nat.le_trans g.old_le hx0) (by mem) fun s13 h e => ?_
  refine wp_fill (wp_str h fun k4 s14 h => ?_)
  refine wp_var hB h rfl fun s15 h => ?_
  refine wp_insertRec (n := N.next) hB h rfl (.inr hx0) hn hr (Nat.le_trans g.old_le hx0) (by mem) fun s16 h e => ?_
  refine wp_fillEnd (wp_nil ⟨_, rfl, rfl, by decide, x, nl, rfl, h.done, h.glob.err, ?_, h.obj (by mem)⟩)
  exact h.glob.recs _ List.mem_cons_self

/-- The check of the parameter of `next`. -/
theorem entriesOf_match {hit : Nat → Nat → Bool} {h : Heap} (hh : Reaches hit h) {f : Bool → Nat → Nat → Exec (Bool × Bool)}
    {fs : List (Nat × Nat)} {F : Env} (hm : Match h fs F) : ∀ {es : List (Nat × Nat)} {E : Env}, Match h es E →
    (∀ p ∈ E, ∃ v, F.lookup p.1 = some v ∧ f false p.2 v = .ok (true, false)) →
    Graph.entriesOf f (fun k e => Graph.lookup hit h k fs e) es false = .ok (true, false)
  | [], [], _, _ => rfl
  | [], _ :: _, m, _ => m.elim
  | _ :: _, [], m, _ => m.elim
  | (k, t) :: es, (n, t') :: E, ⟨a, b, c⟩, hf => by
    obtain ⟨v, hv, hfv⟩ := hf (n, t') (by simp)
    have b' : t = t' := b
    subst b'
    unfold Graph.entriesOf
    rw [lookup_names hh a fs hm.keys, Exec.bind_ok, hm.find, hv]
    dsimp only
    rw [hfv, Exec.bind_ok]
    dsimp only
    rw [if_pos rfl]
    exact entriesOf_match hh hm c fun p hp => hf p (List.mem_cons_of_mem _ hp)

theorem isType_kind {hit : Nat → Nat → Bool} {w : World} {n : Nat} {e : Bool} {k : Kind} {v : Ref} {o : Obj}
    (hv : w.heap[v]? = some o) : Graph.isTypeOf hit w.heap (n + 1) e (typeRef k) v = .ok (decide (o.kind = k), e) := by
  unfold Graph.isTypeOf
  rw [rd_ok_iff.mpr (typeRef_static k w), Exec.bind_ok, rd_ok_iff.mpr hv, Exec.bind_ok]
  rfl

theorem isType_sum {hit : Nat → Nat → Bool} {w : World} {n : Nat} {e : Bool} {k k' : Kind} {t v : Ref} {o : Obj}
    (ht : w.heap[t]? = some (.sum (typeRef k) (typeRef k'))) (hv : w.heap[v]? = some o) :
    Graph.isTypeOf hit w.heap (n + 2) e t v = .ok (decide (o.kind = k ∨ o.kind = k'), e) := by
  unfold Graph.isTypeOf
  rw [rd_ok_iff.mpr ht, Exec.bind_ok, rd_ok_iff.mpr hv, Exec.bind_ok]
  simp only [Graph.typeBody, isType_kind hv, Exec.bind_ok]
  by_cases h1 : o.kind = k
  · simp [h1]
  · simp [h1]

/-- What an iterator consists of. -/
def fields (r kl iv f : Ref) : Env := [(N.set, r), (N.keys, kl), (N.index, iv), (N.next, f)]

/-- The number of the last item returned, after `k` items. -/
def indexObj : Nat → Obj
  | 0 => .none
  | k + 1 => .int k

theorem isType_iter (hB : Conf B) {x it r kl iv f nl : Ref} {o : Obj} {ks : List Ref} {k : Nat}
    (hx : Rec s.w x (typeFields (typeRef o.kind) nl P)) (hn : s.w.heap[nl]? = some (.nullable (typeRef .int)))
    (hi : Rec s.w it (fields r kl iv f)) (hr : s.w.heap[r]? = some o) (hk : s.w.heap[kl]? = some (.list ks))
    (hv : s.w.heap[iv]? = some (indexObj k)) (hf : s.w.heap[f]? = some (.opaque .func))
    (hc : s.w.heap[P.var N.Callable]? = some (.sum (typeRef .func) (typeRef .nfunc))) :
    Graph.isTypeOf B.hit s.w.heap B.fuel false x it = .ok (true, false) := by
  obtain ⟨n, hfu⟩ : ∃ n, B.fuel = n + 3 := ⟨B.fuel - 3, by have := hB.fuel; omega⟩
  rw [hfu]
  obtain ⟨es, ex, mx⟩ := hx
  obtain ⟨fs, ei, mi⟩ := hi
  unfold Graph.isTypeOf
  rw [rd_ok_iff.mpr ex, Exec.bind_ok, rd_ok_iff.mpr ei, Exec.bind_ok]
  refine entriesOf_match (hB.reach _) mi mx ?_
  intro p hp
  simp only [typeFields, List.mem_cons, List.not_mem_nil, or_false] at hp
  rcases hp with rfl | rfl | rfl | rfl
  · exact ⟨r, rfl, by rw [isType_kind hr]; simp⟩
  · exact ⟨kl, rfl, by rw [isType_kind hk]; rfl⟩
  · refine ⟨iv, rfl, ?_⟩
    unfold Graph.isTypeOf
    rw [rd_ok_iff.mpr hn, Exec.bind_ok, rd_ok_iff.mpr hv, Exec.bind_ok]
    cases k with
    | zero => rfl
    | succ k =>
      simp only [Graph.typeBody, indexObj, isType_kind (show s.w.heap[iv]? = some (.int k) from hv), Obj.kind]
      rfl
  · exact ⟨f, rfl, by rw [isType_sum hc hf]; rfl⟩

/-! ## makeGenericIterator -/

theorem consecutive_heap : ∀ (n i : Nat) (l : Ref) (rs : List Ref) (w : World), statics.length ≤ l → l < w.heap.length →
    (consecutive l n i rs w).heap = if n = 0 then w.heap else
      (w.heap ++ (List.range n).map fun j => Obj.int (i + j : Nat)).set l (.list (rs ++ (List.range n).map fun j => w.heap.length + j))
  | 0, i, l, rs, w, _, _ => rfl
  | n + 1, i, l, rs, w, hl, hw => by
    have e1 : ((w.alloc (.int i)).1.withHeap ((w.alloc (.int i)).1.heap.set l (.list (rs ++ [(w.alloc (.int i)).2])))).heap =
        (w.heap ++ [Obj.int i]).set l (.list (rs ++ [w.heap.length])) := by
      rw [heap_set hl, alloc_heap]
      rfl
    have hl' : l < (w.heap ++ [Obj.int i]).length := by
      rw [List.length_append]; exact Nat.lt_of_lt_of_le hw (Nat.le_add_right _ _)
    have ih := consecutive_heap n (i + 1) l (rs ++ [(w.alloc (.int i)).2])
      ((w.alloc (.int i)).1.withHeap ((w.alloc (.int i)).1.heap.set l (.list (rs ++ [(w.alloc (.int i)).2])))) hl
      (by rw [e1, List.length_set]; exact hl')
    unfold consecutive
    rw [ih, e1, if_neg (by omega : ¬ n + 1 = 0)]
    have ea : (List.range (n + 1)).map (fun j => Obj.int ((i + j : Nat) : Int)) =
        Obj.int (i : Nat) :: (List.range n).map (fun j => Obj.int ((i + 1 + j : Nat) : Int)) := by
      rw [List.range_succ_eq_map, List.map_cons, List.map_map]
      refine congrArg (_ :: ·) (List.map_congr_left fun j _ => ?_)
      simp only [Function.comp]
      rw [show i + (j + 1) = i + 1 + j by omega]
    have eb : (List.range (n + 1)).map (fun j => w.heap.length + j) =
        w.heap.length :: (List.range n).map (fun j => w.heap.length + 1 + j) := by
      rw [List.range_succ_eq_map, List.map_cons, List.map_map]
      refine congrArg (_ :: ·) (List.map_congr_left fun j _ => ?_)
      simp only [Function.comp]
      omega
    rw [ea, eb]
    by_cases h0 : n = 0
    · subst h0; simp [World.alloc]
    · rw [if_neg h0, List.length_set, List.length_append, List.length_singleton,
        ← List.set_append_left _ _ hl', List.set_set]
      simp [World.alloc]

theorem consecutive_rest : ∀ (n i : Nat) (l : Ref) (rs : List Ref) (w : World),
    (consecutive l n i rs w).err = w.err ∧ (consecutive l n i rs w).clos = w.clos ∧ (consecutive l n i rs w).fclo = w.fclo ∧
    (consecutive l n i rs w).nat = w.nat ∧ (consecutive l n i rs w).tab = w.tab ∧ (consecutive l n i rs w).out = w.out
  | 0, _, _, _, _ => ⟨rfl, rfl, rfl, rfl, rfl, rfl⟩
  | n + 1, i, l, rs, w => consecutive_rest n _ _ _ _

theorem Holds.mono {r : Ref} {ks vs : List Ref} {K' : List (Ref × Obj)} (h : Holds B O r ks vs K) (hK : ∀ p ∈ K, p ∈ K') :
    Holds B O r ks vs K' := by
  cases h with
  | list hr hl hk => exact .list hr hl fun i k hi => hK _ (hk i k hi)
  | map es hr hk hv hh hs => exact .map es hr hk hv hh hs

/-- The collection `r` has the values `vs`. -/
inductive Coll (B : Config) (O : Heap) (r : Ref) (vs : List Ref) : Prop
  | list (hr : O[r]? = some (.list vs))
  | map (es : List (Nat × Nat)) (hr : O[r]? = some (.map es)) (hv : vs = es.map (·.2))
      (hh : ∀ e ∈ es, ∃ z, Graph.hash O B.fuel e.1 = .ok z)
      (hs : ∀ e ∈ es, Graph.lookup B.hit O e.1 es false = .ok (some e.2, false))

theorem Coll.obj {r : Ref} {vs : List Ref} (h : Coll B O r vs) :
    ∃ o, O[r]? = some o ∧ (o.kind = .list ∨ o.kind = .map) := by
  cases h with
  | list hr => exact ⟨_, hr, .inl rfl⟩
  | map es hr hv hh hs => exact ⟨_, hr, .inr rfl⟩

section

variable {G : GEnv} {outer : List (Ref × Env)} {D : List Ref} {c : Ctx World} {s0 : SSt World} {env : Env}

/-- A list of the first integers. -/
theorem Sit.consecutive (h : Sit B G m outer D c s0 s env K) (n : Nat) :
    ∃ ks K', Sit B G m outer D c s0
        ⟨consecutive (s.w.alloc (.list [])).2 n 0 [] (s.w.alloc (.list [])).1, s.funs⟩ env K' ∧
      (∀ p ∈ K, p ∈ K') ∧ ((s.w.alloc (.list [])).2, .list ks) ∈ K' ∧ ks.length = n ∧
      ∀ (i : Nat) k, ks[i]? = some k → (k, .int i) ∈ K' := by
  have ha := alloc_heap s.w (.list [])
  have hg : statics.length ≤ (s.w.alloc (.list [])).2 := by
    show statics.length ≤ (statics ++ s.w.dyn).length
    simp
  have hl : (s.w.alloc (.list [])).2 < (s.w.alloc (.list [])).1.heap.length := by
    rw [ha, List.length_append]; exact Nat.lt_succ_self _
  have hlen : (s.w.alloc (.list [])).1.heap.length = s.w.heap.length + 1 := by rw [ha]; simp
  have e := consecutive_heap n 0 (s.w.alloc (.list [])).2 [] (s.w.alloc (.list [])).1 hg hl
  obtain ⟨r1, r2, r3, r4, r5, r6⟩ := consecutive_rest n 0 (s.w.alloc (.list [])).2 [] (s.w.alloc (.list [])).1
  generalize hw : VM.consecutive (s.w.alloc (.list [])).2 n 0 [] (s.w.alloc (.list [])).1 = w at e r1 r2 r3 r4 r5 r6 ⊢
  have e' : w.heap = s.w.heap ++ (.list ((List.range n).map fun j => s.w.heap.length + 1 + j) ::
      (List.range n).map fun j => Obj.int (j : Nat)) := by
    rw [e, hlen, ha]
    by_cases h0 : n = 0
    · subst h0; simp
    · rw [if_neg h0, List.append_assoc, show (s.w.alloc (.list [])).2 = s.w.heap.length from rfl,
        List.set_append_right _ _ (Nat.le_refl _), Nat.sub_self]
      simp
  have ext : Ext [] s ⟨w, s.funs⟩ :=
    { len := by show _ ≤ w.heap.length; rw [e', List.length_append]; exact Nat.le_add_right _ _
      heap := fun x hx _ => by show w.heap[x]? = _; rw [e', List.getElem?_append_left hx]
      dmap := nofun
      clos := fun x _ => by show w.clos x = _; rw [r2]; rfl
      fclo := fun x _ => by show w.fclo x = _; rw [r3]; rfl
      nat := fun x _ => by show w.nat x = _; rw [r4]; rfl
      tab := fun x _ => by show w.tab x = _; rw [r5]; rfl
      funs := fun _ _ => rfl
      out := by show w.out = _; rw [r6]; rfl }
  have h1 := h.after ext nofun (by show w.err = _; rw [r1]; exact h.glob.err)
  refine ⟨(List.range n).map fun j => s.w.heap.length + 1 + j,
    (s.w.heap.length, .list ((List.range n).map fun j => s.w.heap.length + 1 + j)) ::
      ((List.range n).map fun j => (s.w.heap.length + 1 + j, Obj.int (j : Nat))) ++ K, ?_, ?_, ?_, by simp, ?_⟩
  · refine { h1 with know := ?_ }
    intro p hp
    simp only [List.cons_append, List.mem_cons, List.mem_append, List.mem_map, List.mem_range] at hp
    rcases hp with rfl | ⟨j, hj, rfl⟩ | hp
    · refine ⟨nofun, ?_⟩
      show w.heap[s.w.heap.length]? = _
      rw [e', List.getElem?_append_right (Nat.le_refl _), Nat.sub_self]
      rfl
    · refine ⟨nofun, ?_⟩
      show w.heap[s.w.heap.length + 1 + j]? = _
      rw [e', List.getElem?_append_right (by omega), show s.w.heap.length + 1 + j - s.w.heap.length = j + 1 by omega]
      simp [hj]
    · exact h1.know p hp
  · intro p hp; simp [hp]
  · exact List.mem_append_left _ List.mem_cons_self
  · intro i k hi
    rw [List.getElem?_map] at hi
    by_cases hn : i < n
    · rw [List.getElem?_range hn] at hi
      cases hi
      refine List.mem_append_left _ (List.mem_cons_of_mem _ ?_)
      exact List.mem_map.2 ⟨i, List.mem_range.2 hn, rfl⟩
    · rw [List.getElem?_eq_none (by simp; omega)] at hi
      cases hi

/-- `keysof` of a collection. -/
theorem wp_keysof (hB : Conf B) (h : Sit B G (m + 1) outer D c s0 s env K)
    (hr : resolve G env outer N.keysof = none) {r : Ref} {vs : List Ref} (hc : Coll B G.old r vs)
    {Q : Ref → SSt World → Prop}
    (hq : ∀ kl ks K' s', Sit B G (m + 1) outer D c s0 s' env K' → (∀ p ∈ K, p ∈ K') → (kl, .list ks) ∈ K' →
      Holds B G.old r ks vs K' → Q kl s') :
    wp ((Expr.ident N.keysof).eval c) (fun g s => wp (c.call g [r].reverse 1) (fun x s => ∃ v, x = [v] ∧ Q v s) s) s := by
  refine wp_fn hB h hr rfl fun g s1 h1 hg hn => ?_
  rw [h1.call]
  cases hc with
  | list ho =>
    have hr' := old_get h1.glob ho
    obtain ⟨ks, K', h2, hK, hl, hlen, hk⟩ := Sit.consecutive h1 vs.length
    refine wp_native (w := consecutive (s1.w.alloc (.list [])).2 vs.length 0 [] (s1.w.alloc (.list [])).1)
      (vs := [(s1.w.alloc (.list [])).2]) h1.glob.err hg hn ?_ h2.glob.err (by simp)
      ⟨_, rfl, hq _ ks K' _ h2 hK hl (.list ho hlen hk)⟩
    show (keysOf r s1.w).bind _ = _
    unfold keysOf
    rw [hr']
    rfl
  | map es ho hv hh hs =>
    have hr' := old_get h1.glob ho
    have h2 := h1.alloc (o := .list (es.map (·.1))) nofun
    refine wp_native (w := (s1.w.alloc (.list (es.map (·.1)))).1)
      (vs := [(s1.w.alloc (.list (es.map (·.1)))).2]) h1.glob.err hg hn ?_ h2.glob.err (by simp)
      ⟨_, rfl, hq _ (es.map (·.1)) _ _ h2 (fun p hp => List.mem_cons_of_mem _ hp) List.mem_cons_self
        (.map es ho rfl hv hh hs)⟩
    show (keysOf r s1.w).bind _ = _
    unfold keysOf
    rw [hr']
    rfl

end

/-- The iterator `it` over the collection `r` has returned `k` items. -/
structure Iter (B : Config) (P : Place) (O : Heap) (it r : Ref) (ks vs : List Ref) (k : Nat) (kl iv f sc : Ref)
    (K : List (Ref × Obj)) (s : SSt World) : Prop where
  glob : Globals B (P.genv [(it, fields r kl iv f)] O) s
  know : Knows s K
  keys : (kl, .list ks) ∈ K
  index : (iv, indexObj k) ∈ K
  holds : Holds B O r ks vs K
  fn : IsFun s f F.next [sc, P.V]
  vars : Vars s.w sc [(N.set, r)]
  ne : it ≠ P.V ∧ it ≠ P.M ∧ it ≠ sc
  lo : O.length ≤ it

theorem mgi_spec (hB : Conf B) (g : Globals B (P.genv [] O) s) (hk : Knows s K) {r : Ref} {vs : List Ref}
    (hc : Coll B O r vs) :
    wp (callN (objects (std B)) (m + 2) (P.var N.makeGenericIterator) [r] 1) (fun us s' => ∃ it ks kl f sc K', us = [it] ∧
      Ext [] s s' ∧ s'.w.err = false ∧ s.w.heap.length ≤ it ∧ (∀ p ∈ K, p ∈ K') ∧
      Iter B P O it r ks vs 0 kl 0 f sc K' s') s := by
  refine wp_enterG (m := m + 1) g hk (fd := F.makeGenericIterator) ?_ ?_
  · simp [Place.genv, Place.env, vfuncs]
  intro c s1 h
  refine run_results ?_
  unfold F.makeGenericIterator
  obtain ⟨o, ho, hok⟩ := hc.obj
  refine wp_run (wp_paramT (v := r) (vs := []) ?_)
  refine wp_var hB h rfl fun s2 h => ?_
  refine wp_isSum hB h (k := .list) (k' := .map) (h.gobj (by simp [Place.genv, Place.env])) (old_get h.glob ho) hok ⟨rfl, ?_⟩
  refine wp_store hB h fun s3 h => ?_
  simp only [Params.bind]
  refine wp_pure (wp_ret (wp_cons (wp_map ?_)))
  have hl := h.ext.len
  refine wp_newMap h fun x s4 h hx hn hr => ?_
  have hx0 : s.w.heap.length ≤ x := Nat.le_trans hl hx
  have hxO : O.length ≤ x := Nat.le_trans g.old_le hx0
  refine wp_fill (wp_str h fun k1 s5 h => ?_)
  refine wp_var hB h rfl fun s6 h => ?_
  refine wp_insertRec (n := N.set) hB h rfl (.inr hx0) hn hr hxO (by mem) fun s7 h e => ?_
  refine wp_fill (wp_str h fun k2 s8 h => ?_)
  refine wp_call (wp_cons (wp_var hB h rfl fun s9 h => wp_nil ?_))
  refine wp_keysof hB h rfl (r := r) hc fun kl ks K' s10 h hK hkl hho => ?_
  refine wp_insertRec (n := N.keys) hB h rfl (.inr hx0) hn hr hxO (hK _ (by mem)) fun s11 h e => ?_
  refine wp_fill (wp_str h fun k3 s12 h => wp_none h ?_)
  refine wp_insertRec (n := N.index) hB h rfl (.inr hx0) hn hr hxO (by mem) fun s13 h e => ?_
  refine wp_fill (wp_str h fun k4 s14 h => wp_func h fun f s15 h hf => ?_)
  refine wp_insertRec (n := N.next) hB h rfl (.inr hx0) hn hr hxO (by mem) fun s16 h e => ?_
  have h := h.learn (r := 0) (o := .none) nofun (none_static _)
  have hxl : x ≠ c.locals := h.recs.1 _ List.mem_cons_self
  refine wp_fillEnd (wp_nil ⟨_, rfl, rfl, by decide, x, ks, kl, f, c.locals, _, rfl, h.done, h.glob.err, hx0, ?_,
    { glob := h.glob, know := h.know, keys := by mem, index := List.mem_cons_self, holds := hho.mono ?_
      fn := hf.ext e ?_, vars := h.vars, ne := ⟨hn.1, hn.2.1, hxl⟩, lo := hxO }⟩)
  · intro p hp
    have := hK p (List.mem_cons_of_mem _ (List.mem_cons_of_mem _ hp))
    mem
  · intro p hp; mem
  · intro y hy
    simp only [List.map_cons, List.map_nil, List.mem_cons, List.not_mem_nil, or_false] at hy ⊢
    rcases hy with rfl | rfl
    · exact fun e => hxl e.symm
    · exact fun e => hn.1 e.symm

/-! ## next -/

/-- The first `w` results, completed with none. -/
def shape (w : Nat) (vs : List Ref) : List Ref := vs.take w ++ List.replicate (w - vs.length) 0

theorem run_shape {m : M World (List Ref)} {k : Nat} {Q : List Ref → SSt World → Prop} {s : SSt World}
    (h : wp m (fun vs s' => vs.length ≤ 8 ∧ Q (shape k vs) s') s) :
    wp (m >>= fun vs => results (objects (std B)) k vs) Q s := by
  refine wp_bind (wp_mono h fun vs s' h' => ?_)
  exact wp_results (Nat.le_trans (Nat.min_le_left _ _) h'.1) h'.2

theorem opEql_int (a b : Int) : (if (Obj.int a).kind ≠ (Obj.int b).kind then Exec.ok false else Graph.opEql (.int a) (.int b)) =
    .ok (decide (a = b)) := by simp [Obj.kind, Graph.opEql]

theorem wp_typeofAny (hB : Conf B) {G : GEnv} {outer : List (Ref × Env)} {D : List Ref} {c : Ctx World}
    {s0 s : SSt World} {env : Env} (h : Sit B G (m + 1) outer D c s0 s env K)
    (hr : resolve G env outer N.type = none) {x : Ref} {o : Obj} (hx : G.old[x]? = some o) {Q : Ref → SSt World → Prop}
    (hq : ∀ s', Sit B G (m + 1) outer D c s0 s' env K → Q (typeRef o.kind) s') :
    wp ((Expr.ident N.type).eval c) (fun g s => wp (c.call g [x].reverse 1) (fun r s => ∃ v, r = [v] ∧ Q v s) s) s := by
  refine wp_fn hB h hr rfl fun g s1 h1 hg hn => ?_
  rw [h1.call]
  refine wp_native (w := s1.w) (vs := [typeRef o.kind]) h1.glob.err hg hn ?_ h1.glob.err (by simp) ?_
  · show (kindOf x s1.w).bind _ = _
    unfold kindOf
    rw [old_get h1.glob hx]
    rfl
  · exact ⟨typeRef o.kind, rfl, hq _ h1⟩

theorem wp_isTrue {G : GEnv} {outer : List (Ref × Env)} {D : List Ref} {c : Ctx World}
    {s0 s : SSt World} {env : Env} (h : Sit B G m outer D c s0 s env K) {t v : Ref} {b : Bool}
    (hi : Graph.isTypeOf B.hit s.w.heap B.fuel false t v = .ok (b, false)) {Q : Bool → SSt World → Prop} (hq : Q b s) :
    wp (lift c.L (c.L.isType t v)) Q s := by
  refine wp_lift (w := s.w) (a := b) ?_ (by rw [h.L]; exact h.glob.err) hq
  rw [h.L]
  show (outOf s.w (Graph.isTypeOf B.hit s.w.heap B.fuel s.w.err t v)).bind _ = _
  rw [h.glob.err, hi]
  show Out.ok _ _ = _
  rw [← h.glob.err]

def nextBody : Stmts := stmts [
  (.ifOnly (.bin .eql (.ident N.index) (.call (.fn (.ident N.count) (.cons (.select (.ident N.iter) (.str N.keys)) .nil)))) (.ret (.cons .none .nil))),
  (.expr (.assign (.sel (.ident N.iter) (.str N.index)) (.ident N.index))),
  (.expr (.assign (.var N.key) (.select (.select (.ident N.iter) (.str N.keys)) (.ident N.index)))),
  (.expr (.assign (.var N.val) (.select (.select (.ident N.iter) (.str N.set)) (.ident N.key)))),
  (.ret (.cons (.ident N.val) (.cons (.ident N.key) (.cons (.ident N.index) .nil))))]

/-- What `next` returns after `k` items, and how the iterator is then. -/
def NextPost (B : Config) (P : Place) (O : Heap) (it r : Ref) (ks vs : List Ref) (k : Nat) (kl f sc : Ref)
    (K : List (Ref × Obj)) (s : SSt World) (us : List Ref) (s' : SSt World) : Prop :=
  Ext [it] s s' ∧ ∃ iv K', (∀ p ∈ K, p ∈ K') ∧
    ((∃ key v, ks[k]? = some key ∧ vs[k]? = some v ∧ us = [v, key, iv] ∧ (iv, .int k) ∈ K' ∧
        Iter B P O it r ks vs (k + 1) kl iv f sc K' s') ∨
      (k = ks.length ∧ us = [0] ∧ Iter B P O it r ks vs k kl iv f sc K' s'))

theorem next_tail (hB : Conf B) {it r kl iv f sc rj : Ref} {ks vs : List Ref} {k : Nat} {c : Ctx World}
    {s0 : SSt World} {K0 : List (Ref × Obj)} (hn : ks.length < 2 ^ 31) (hk : k ≤ ks.length)
    (i : Iter B P O it r ks vs k kl iv f sc K0 s0) (hK : ∀ p ∈ K0, p ∈ K)
    (h : Sit B (P.genv [(it, fields r kl iv f)] O) (m + 1) [(sc, [(N.set, r)]), (P.V, P.env.venv)] [it] c s0 s
      [(N.index, rj), (N.index, iv), (N.iter, it)] K) (hj : (rj, .int k) ∈ K) :
    wp (nextBody.eval c) (fun x s' => ∃ us, x = .ret us ∧ us.length ≤ 8 ∧
      NextPost B P O it r ks vs k kl f sc K0 s0 us s') s := by
  have hkl := hK _ i.keys
  have hiv := hK _ i.index
  unfold nextBody stmts
  have hne : ∀ p ∈ [(sc, [(N.set, r)]), (P.V, P.env.venv)], it ≠ p.1 := by
    intro p hp
    simp only [List.mem_cons, List.not_mem_nil, or_false] at hp
    rcases hp with rfl | rfl
    · exact i.ne.2.2
    · exact i.ne.1
  have hfn : ∀ s', Ext [it] s0 s' → IsFun s' f F.next [sc, P.V] := by
    intro s' e
    refine i.fn.ext e fun y hy hm => ?_
    rw [List.mem_singleton.1 hm] at hy
    simp only [List.mem_cons, List.not_mem_nil, or_false] at hy
    rcases hy with hy | hy
    · exact i.ne.2.2 hy
    · exact i.ne.1 hy
  have hcount : ∀ {Q : Bool → SSt World → Prop}, (∀ K' s', Sit B (P.genv [(it, fields r kl iv f)] O) (m + 1)
      [(sc, [(N.set, r)]), (P.V, P.env.venv)] [it] c s0 s' [(N.index, rj), (N.index, iv), (N.iter, it)] K' →
      (∀ p ∈ K, p ∈ K') → Q (decide (k = ks.length)) s') →
      wp ((Expr.bin .eql (.ident N.index) (.call (.fn (.ident N.count) (.cons (.select (.ident N.iter) (.str N.keys)) .nil)))).eval c)
        (fun v s => wp (lift c.L (c.L.asBool v)) Q s) s := by
    intro Q hq
    refine wp_bin (wp_var hB h rfl fun s1 h => wp_call (wp_cons (wp_select (wp_var hB h rfl fun s2 h => ?_))))
    refine wp_str h fun y1 s3 h => wp_selRec (n := N.keys) hB h List.mem_cons_self (by mem) rfl (wp_nil ?_)
    refine wp_count hB h rfl (h.obj (o := .list ks) (by mem)) nofun rfl fun rn s4 h => ?_
    refine wp_eql h (h.obj (r := rj) (o := .int k) (by mem)) (h.obj (o := .int ks.length) (by mem)) (opEql_int _ _) ?_
    refine wp_asBool h ?_
    rw [show decide ((k : Int) = (ks.length : Int)) = decide (k = ks.length) from decide_eq_decide.2 (by omega)]
    exact hq _ _ h fun p hp => by mem
  by_cases hkn : k = ks.length
  · refine wp_last (wp_ifOnly (hcount fun K' s1 h hK' => ?_))
    rw [decide_eq_true hkn, if_pos rfl]
    refine wp_ret (wp_cons (wp_none h (wp_nil ⟨_, rfl, _, rfl, by decide, h.done, iv, K', fun p hp => hK' _ (hK _ hp), .inr
      ⟨hkn, rfl, ?_⟩⟩)))
    exact { glob := h.glob, know := h.know, keys := hK' _ hkl, index := hK' _ hiv, holds := i.holds.mono fun p hp => hK' _ (hK _ hp)
            fn := hfn _ h.done, vars := h.outs _ List.mem_cons_self, ne := i.ne, lo := i.lo }
  · have hlt : k < ks.length := Nat.lt_of_le_of_ne hk hkn
    obtain ⟨key, hkey⟩ : ∃ key, ks[k]? = some key := ⟨_, List.getElem?_eq_getElem hlt⟩
    obtain ⟨v, hv⟩ : ∃ v, vs[k]? = some v := ⟨_, List.getElem?_eq_getElem (i.holds.len ▸ hlt)⟩
    refine wp_seq (wp_ifOnly (hcount fun K' s1 h hK' => ?_))
    rw [decide_eq_false hkn, if_neg (by simp)]
    have hkl' := hK' _ hkl
    have hj' := hK' _ hj
    refine ⟨rfl, wp_seq (wp_expr (wp_assignSel ?_))⟩
    refine wp_var hB h rfl fun s2 h => wp_var hB h rfl fun s3 h => wp_str h fun y2 s4 h => ?_
    refine wp_insertRec (n := N.index) hB h rfl (.inl List.mem_cons_self) ⟨i.ne.1, i.ne.2.1, hne⟩ nofun i.lo (by mem)
      fun s5 h _ => ⟨rfl, ?_⟩
    have h : Sit B (P.genv [(it, fields r kl rj f)] O) (m + 1) [(sc, [(N.set, r)]), (P.V, P.env.venv)] [it] c s0 s5
      [(N.index, rj), (N.index, iv), (N.iter, it)] _ := h
    refine wp_seq (wp_expr (wp_assign (wp_select (wp_select (wp_var hB h rfl fun s6 h => wp_str h fun y3 s7 h => ?_)))))
    refine wp_selRec (n := N.keys) hB h List.mem_cons_self (by mem) rfl ?_
    refine wp_var hB h rfl fun s8 h => ?_
    refine wp_selList h (h.obj (o := .list ks) (by mem)) (y := rj) (by mem) (by omega) hkey ?_
    refine wp_store hB h fun s9 h => ⟨rfl, ?_⟩
    refine wp_seq (wp_expr (wp_assign (wp_select (wp_select (wp_var hB h rfl fun s10 h => wp_str h fun y4 s11 h => ?_)))))
    refine wp_selRec (n := N.set) hB h List.mem_cons_self (by mem) rfl ?_
    refine wp_var hB h rfl fun s12 h => ?_
    refine wp_selCol h (G := P.genv [(it, fields r kl rj f)] O) i.holds (fun p hp => ?_) (by omega) hkey hv ?_
    · have := hK' _ (hK p hp); mem
    refine wp_store hB h fun s13 h => ⟨rfl, wp_last (wp_ret ?_)⟩
    refine wp_cons (wp_var hB h rfl fun s14 h => wp_cons (wp_var hB h rfl fun s15 h => wp_cons (wp_var hB h rfl fun s16 h => wp_nil ?_)))
    have hK2 : ∀ p ∈ K0, p ∈ _ := fun p hp => List.mem_cons_of_mem (y4, .str (ascii N.set)) (List.mem_cons_of_mem (y3, .str (ascii N.keys))
      (List.mem_cons_of_mem (y2, .str (ascii N.index)) (hK' _ (hK p hp))))
    refine ⟨_, rfl, _, rfl, by show 3 ≤ 8; decide, h.done, rj, _, hK2, .inl ⟨key, v, hkey, hv, rfl, by mem, ?_⟩⟩
    exact { glob := h.glob, know := h.know, keys := by mem, index := by show (rj, Obj.int k) ∈ _; mem, holds := i.holds.mono hK2
            fn := hfn _ h.done, vars := h.outs _ List.mem_cons_self, ne := i.ne, lo := i.lo }

theorem next_spec (hB : Conf B) {it r kl iv f sc : Ref} {ks vs : List Ref} {k w : Nat} (hn : ks.length < 2 ^ 31)
    (hk : k ≤ ks.length) (i : Iter B P O it r ks vs k kl iv f sc K s) :
    wp (callN (objects (std B)) (m + 2) f [it] w) (fun us s' => ∃ us', us = shape w us' ∧
      NextPost B P O it r ks vs k kl f sc K s us' s') s := by
  obtain ⟨a, b, clo, d, e⟩ := i.fn
  refine enterF (P := Returns _) (m := m + 1) (D := [it]) i.glob i.know a b d
    (outer := [(sc, [(N.set, r)]), (P.V, P.env.venv)]) e ?_ ?_ ?_ ?_
  · intro p hp
    simp only [List.mem_cons, List.not_mem_nil, or_false] at hp
    rcases hp with rfl | rfl
    · exact i.vars
    · exact i.glob.vars
  · intro x hx
    rw [List.mem_singleton.1 hx]
    refine ⟨i.ne.1, i.ne.2.1, fun p hp => ?_⟩
    simp only [List.mem_cons, List.not_mem_nil, or_false] at hp
    rcases hp with rfl | rfl
    · exact i.ne.2.2
    · exact i.ne.1
  · intro x hx
    rw [List.mem_singleton.1 hx]
    obtain ⟨es, he, -⟩ := i.glob.recs _ List.mem_cons_self
    exact ⟨es, he⟩
  intro c s1 h
  refine run_shape ?_
  unfold F.next
  obtain ⟨o, ho, -⟩ := i.holds.obj
  refine wp_run (wp_paramT (v := it) (vs := []) ?_)
  refine wp_call (wp_cons (wp_call (wp_cons (wp_var hB h rfl fun s2 h => wp_nil ?_))))
  refine wp_typeofAny hB h rfl (x := r) ho fun s3 h => wp_nil (wp_var hB h rfl fun s4 h => ?_)
  rw [h.call]
  refine wp_mono (gi_spec (m := m) hB h.glob h.know (typeRef o.kind)) fun ws s5 hw => ?_
  obtain ⟨x, nl, rfl, hx, he, hrec, hnl⟩ := hw
  refine ⟨x, rfl, ?_⟩
  have h := h.after hx nofun he
  refine wp_isTrue h (isType_iter hB hrec hnl (h.glob.recs _ List.mem_cons_self) (old_get h.glob ho) (h.obj i.keys)
    (h.obj i.index) ?_ (h.gobj (by simp [Place.genv, Place.env]))) ⟨rfl, ?_⟩
  · exact (i.fn.ext h.done fun y hy hm => by
      rw [List.mem_singleton.1 hm] at hy
      simp only [List.mem_cons, List.not_mem_nil, or_false] at hy
      rcases hy with hy | hy
      · exact i.ne.2.2 hy
      · exact i.ne.1 hy).1
  refine wp_store hB h fun s6 h => ?_
  simp only [Params.bind]
  refine wp_pure (wp_comp ?_)
  refine wp_seq (wp_expr (wp_assign (wp_select (wp_var hB h rfl fun s7 h => wp_str h fun y s8 h => ?_))))
  refine wp_selRec (n := N.index) hB h List.mem_cons_self (by mem) rfl ?_
  refine wp_store hB h fun s9 h => ⟨rfl, ?_⟩
  have hkl := i.keys
  have hiv := i.index
  refine wp_seq (wp_ifElse (wp_bin (wp_var hB h rfl fun s10 h => wp_none h ?_)))
  have fin : ∀ {K' s11 rj}, (∀ p ∈ K, p ∈ K') → Sit B (P.genv [(it, fields r kl iv f)] O) (m + 1)
      [(sc, [(N.set, r)]), (P.V, P.env.venv)] [it] c s s11 [(N.index, rj), (N.index, iv), (N.iter, it)] K' →
      (rj, .int k) ∈ K' → wp (nextBody.eval c) (fun x s' => ∃ us, x = .ret us ∧ us.length ≤ 8 ∧
        ∃ us', shape w us = shape w us' ∧ NextPost B P O it r ks vs k kl f sc K s us' s') s11 := by
    intro K' s11 rj hK h hj
    refine wp_mono (next_tail hB hn hk i hK h hj) fun x s' hx => ?_
    obtain ⟨us, rfl, hl, hp⟩ := hx
    exact ⟨us, rfl, hl, us, rfl, hp⟩
  cases k with
  | zero =>
    refine wp_eql h (h.obj (r := iv) (o := .none) (by mem)) (none_static _) (b := true) (by simp [Graph.opEql]) ?_
    refine wp_asBool h ?_
    rw [if_pos rfl]
    refine wp_expr (wp_assign (wp_int h fun r0 s11 h => wp_store hB h fun s12 h => ⟨rfl, ?_⟩))
    exact fin (fun p hp => by mem) h (by exact List.mem_cons_self)
  | succ k =>
    have hiv : (iv, Obj.int k) ∈ K := hiv
    refine wp_eql h (h.obj (r := iv) (o := .int k) (by mem)) (none_static _) (b := false) (by simp [Obj.kind]) ?_
    refine wp_asBool h ?_
    rw [if_neg (by simp)]
    refine wp_comp (wp_seq (wp_ifOnly (wp_bin (wp_var hB h rfl fun s11 h => ?_))))
    refine wp_call (wp_cons (wp_select (wp_var hB h rfl fun s12 h => wp_str h fun y1 s13 h => ?_)))
    refine wp_selRec (n := N.keys) hB h List.mem_cons_self (by mem) rfl (wp_nil ?_)
    refine wp_count hB h rfl (h.obj (o := .list ks) (by mem)) nofun rfl fun rn s14 h => ?_
    refine wp_rel h (o := .lss) (x := iv) (a := k) (b := ks.length) rfl (by mem) (by mem) ?_
    rw [show Num.relInt .lss k ks.length = true by simp only [Num.relInt]; simp; omega]
    refine wp_asBool h ?_
    rw [if_pos rfl]
    refine wp_expr (wp_assign (wp_bin (wp_var hB h rfl fun s15 h => wp_int h fun r1 s16 h => ?_)))
    refine wp_math h (o := .add) (a := k) (b := 1) (v := (k + 1 : Nat)) rfl (by mem) (by mem)
      (int_ok (by simp [Num.mathInt]) (by omega) (by omega)) fun rj s17 h => ?_
    refine wp_store hB h fun s18 h => ⟨rfl, wp_end ⟨rfl, ?_⟩⟩
    exact fin (fun p hp => by mem) h (by exact List.mem_cons_self)

/-! ## makeIterator -/

/-- The map with the entries `es` has no method `iter`: nothing is found under this name, or
something that cannot be called. -/
def NoIter (O : Heap) (es : List (Nat × Nat)) : Prop :=
  ∀ e ∈ es, ∀ t, O[e.1]? = some (.str t) → ∃ b, Str.opEql (ascii N.iter) t = .ok b ∧
    (b = true → ∃ o, O[e.2]? = some o ∧ o.kind ≠ .func ∧ o.kind ≠ .nfunc)

theorem lookup_iter {hit : Nat → Nat → Bool} {h O : Heap} {key : Ref} (hk : h[key]? = some (.str (ascii N.iter)))
    (ha : ∀ (x : Nat) o, O[x]? = some o → h[x]? = some o) :
    ∀ es : List (Nat × Nat), (∀ e ∈ es, ∃ o, O[e.1]? = some o ∧ o ≠ .opaque .string) → NoIter O es →
      ∃ v, Graph.lookup hit h key es false = .ok (v, false) ∧
        ∀ r, v = some r → ∃ o, O[r]? = some o ∧ o.kind ≠ .func ∧ o.kind ≠ .nfunc
  | [], _, _ => ⟨none, rfl, nofun⟩
  | (k, v) :: es, hr, hn => by
    have ih := lookup_iter (hit := hit) hk ha es (fun e he => hr e (List.mem_cons_of_mem _ he))
      fun e he => hn e (List.mem_cons_of_mem _ he)
    unfold Graph.lookup
    by_cases q : hit key k = true
    · rw [if_pos q]
      obtain ⟨o, ho, hno⟩ := hr (k, v) (by simp)
      obtain ⟨b, hb, hv⟩ : ∃ b, Graph.compare h key k = .ok b ∧
          (b = true → ∃ o, O[v]? = some o ∧ o.kind ≠ .func ∧ o.kind ≠ .nfunc) := by
        unfold Graph.compare
        rw [rd_ok_iff.mpr hk, Exec.bind_ok, rd_ok_iff.mpr (ha _ _ ho), Exec.bind_ok]
        by_cases hkind : (Obj.str (ascii N.iter)).kind ≠ o.kind
        · exact ⟨false, if_pos hkind, nofun⟩
        · rw [if_neg hkind]
          cases o with
          | str t =>
            obtain ⟨b, hb, hv⟩ := hn (k, v) (by simp) t ho
            exact ⟨b, hb, hv⟩
          | «opaque» k =>
            have : k ≠ .string := fun e => hno (by rw [e])
            exact absurd (fun e => this e.symm) hkind
          | _ => exact absurd nofun hkind
      rw [hb]
      cases b with
      | true =>
        refine ⟨some v, rfl, fun r hr => ?_⟩
        cases hr
        exact hv rfl
      | false => exact ih
    · rw [if_neg q]
      exact ih

/-- No method `iter`, if the collection is a map. -/
def Plain (O : Heap) (r : Ref) : Prop := ∀ es, O[r]? = some (.map es) → NoIter O es

theorem mi_spec (hB : Conf B) (g : Globals B (P.genv [] O) s) (hk : Knows s K) {r : Ref} {vs : List Ref}
    (hc : Coll B O r vs) (hp : Plain O r) :
    wp (callN (objects (std B)) (m + 3) (P.lib N.makeIterator) [r] 1) (fun us s' => ∃ it ks kl f sc K', us = [it] ∧
      Ext [] s s' ∧ s'.w.err = false ∧ s.w.heap.length ≤ it ∧ (∀ p ∈ K, p ∈ K') ∧
      Iter B P O it r ks vs 0 kl 0 f sc K' s') s := by
  refine wp_enterG (m := m + 2) g hk (fd := F.makeIterator) ?_ ?_
  · simp [Place.genv, Place.env, lfuncs]
  intro c s1 h
  refine run_results ?_
  unfold F.makeIterator
  obtain ⟨o, ho, hok⟩ := hc.obj
  refine wp_run ?_
  show wp ((Params.cons N.can_use_method (.yes .tru) .no (.cons N.set .no (.yes (.ident N.Collection)) .nil)).bind c [0, r]) _ s1
  refine wp_paramD h (wp_tru h ?_)
  refine wp_store hB h fun s2 h => wp_paramT ?_
  refine wp_var hB h rfl fun s3 h => ?_
  refine wp_isSum hB h (k := .list) (k' := .map) (h.gobj (by simp [Place.genv, Place.env])) (old_get h.glob ho) hok ⟨rfl, ?_⟩
  refine wp_store hB h fun s4 h => ?_
  simp only [Params.bind]
  refine wp_pure (wp_comp ?_)
  have fin : ∀ {K' s5}, (∀ p ∈ K, p ∈ K') → Sit B (P.genv [] O) (m + 2) [(P.V, P.env.venv)] [] c s s5
      [(N.set, r), (N.can_use_method, boolRef true)] K' →
      wp ((stmts [(.ret (.cons (.call (.fn (.ident N.makeGenericIterator) (.cons (.ident N.set) .nil))) .nil))]).eval c)
        (fun x s' => ∃ us, x = .ret us ∧ us.length = 1 ∧ 1 ≤ 8 ∧ ∃ it ks kl f sc K', us = [it] ∧
          Ext [] s s' ∧ s'.w.err = false ∧ s.w.heap.length ≤ it ∧ (∀ p ∈ K, p ∈ K') ∧
          Iter B P O it r ks vs 0 kl 0 f sc K' s') s5 := by
    intro K' s5 hK h
    refine wp_last (wp_ret (wp_cons (wp_call (wp_cons (wp_var hB h rfl fun s6 h => wp_nil (wp_var hB h rfl fun s7 h => ?_))))))
    rw [h.call]
    refine wp_mono (mgi_spec (m := m) hB h.glob h.know hc) fun us s8 hu => ?_
    obtain ⟨it, ks, kl, f, sc, K'', rfl, e, he, hit, hK2, hI⟩ := hu
    have h' := h.after e nofun he
    exact ⟨it, rfl, wp_nil ⟨_, rfl, _, rfl, rfl, by decide, it, ks, kl, f, sc, K'', rfl, h'.done, he,
      Nat.le_trans h.ext.len hit, fun p hp => hK2 _ (hK _ hp), hI⟩⟩
  unfold stmts
  refine wp_seq (wp_ifOnly (wp_and (wp_and (wp_var hB h rfl fun s5 h => wp_asBool h ?_))))
  rw [if_pos rfl]
  refine wp_bin (wp_call (wp_cons (wp_var hB h rfl fun s6 h => wp_nil ?_)))
  refine wp_typeofAny hB h rfl (x := r) ho fun s7 h => wp_type hB h (k := .map) rfl rfl fun s8 h => ?_
  refine wp_eqlType h (wp_asBool h ?_)
  rw [show (if decide (o.kind = Kind.map) = true then c.L.tru else c.L.fls) = boolRef (decide (o.kind = .map)) by
    rw [h.L]; cases decide (o.kind = Kind.map) <;> rfl]
  refine wp_asBool h ?_
  by_cases hm : o.kind = .map
  · rw [decide_eq_true hm, if_pos rfl]
    obtain ⟨es, rfl⟩ : ∃ es, o = .map es := by
      cases hc with
      | list ho' => rw [ho] at ho'; cases ho'; cases hm
      | map es ho' hv hh hs => rw [ho] at ho'; cases ho'; exact ⟨es, rfl⟩
    refine wp_call (wp_cons (wp_select (wp_var hB h rfl fun s9 h => wp_str h fun y s10 h => ?_)))
    have hy := h.obj (r := y) (o := .str (ascii N.iter)) (by mem)
    have hr' := old_get h.glob ho
    cases hc with
    | list ho' => rw [ho] at ho'; cases ho'
    | map es' ho' hv hh hs =>
      rw [ho] at ho'
      cases ho'
      have hget : ∀ e ∈ es, ∃ o, O[e.1]? = some o ∧ o ≠ .opaque .string := by
        intro e he
        obtain ⟨z, hz⟩ := hh e he
        obtain ⟨n, hf⟩ : ∃ n, B.fuel = n + 1 := ⟨B.fuel - 1, by have := hB.fuel; omega⟩
        rw [hf] at hz
        cases hx : O[e.1]? with
        | some o =>
          refine ⟨o, rfl, ?_⟩
          rintro rfl
          rw [Graph.hash_succ hx] at hz
          cases hz
        | none =>
          unfold Graph.hash at hz
          have : rd O e.1 = .ub := by unfold rd; rw [hx]
          rw [this] at hz
          cases hz
      obtain ⟨v, hv1, hv2⟩ := lookup_iter (hit := B.hit) hy (fun x o hx => old_get h.glob hx) es hget (hp es ho)
      obtain ⟨z, hz⟩ := hash_name (name_of hy rfl) (fuel := B.fuel) (Nat.lt_trans (by decide) hB.fuel)
      refine wp_sel h (r := v) ⟨s10.w.err, ?_⟩ ?_
      · show selectObj (std B) (s10.w.heap.length + 1) r y s10.w = _
        unfold selectObj
        rw [hr']
        dsimp only
        rw [show Graph.hash s10.w.heap (std B).fuel y = .ok z from hz]
        dsimp only
        rw [show Graph.lookup (std B).hit s10.w.heap y es s10.w.err = .ok (v, false) by rw [h.glob.err]; exact hv1]
        dsimp only
        rw [h.glob.err]
      refine wp_cons (wp_var hB h rfl fun s11 h => wp_nil ?_)
      refine wp_fn hB h rfl rfl fun g' s12 h hg' hn' => ?_
      rw [h.call]
      obtain ⟨o', ho', hf1, hf2⟩ : ∃ o', s12.w.heap[v.getD 0]? = some o' ∧ o'.kind ≠ .func ∧ o'.kind ≠ .nfunc := by
        cases v with
        | none => exact ⟨.none, none_static _, nofun, nofun⟩
        | some r =>
          obtain ⟨o', h1, h2⟩ := hv2 r rfl
          exact ⟨o', old_get h.glob h1, h2⟩
      refine wp_native (w := s12.w) (vs := [boolRef false]) h.glob.err hg' hn' ?_ h.glob.err (by simp) ⟨boolRef false, rfl, ?_⟩
      · show (outOf s12.w (Graph.isTypeOf B.hit s12.w.heap B.fuel s12.w.err (P.var N.Callable) (v.getD 0))).bind _ = _
        obtain ⟨n, hf⟩ : ∃ n, B.fuel = n + 2 := ⟨B.fuel - 2, by have := hB.fuel; omega⟩
        rw [hf, isType_sum (k := .func) (k' := .nfunc) (h.gobj (by simp [Place.genv, Place.env])) ho',
          decide_eq_false (by simp [hf1, hf2])]
        rfl
      · refine wp_asBool h ?_
        rw [show (if false = true then c.L.tru else c.L.fls) = boolRef false by rw [h.L]; rfl]
        refine wp_asBool h ?_
        rw [if_neg (by simp)]
        exact ⟨rfl, fin (fun p hp => by mem) h⟩
  · rw [decide_eq_false hm, if_neg (by simp)]
    rw [show c.L.fls = boolRef false by rw [h.L]; rfl]
    refine wp_asBool h ?_
    rw [if_neg (by simp)]
    exact ⟨rfl, fin (fun p hp => by mem) h⟩

/-! ## Repeated calls -/

/-- `it->next()` with three results (`Call.method`). -/
def callNext (L : Layer World) (n : Nat) (it : Ref) : M World (List Ref) := do
  let y ← lift L (L.str N.next)
  let g ← lift L (L.select it y)
  callN L n g [it] 3

def rep {α : Type} : Nat → M World α → M World (List α)
  | 0, _ => pure []
  | n + 1, x => do
    let a ← x
    let as ← rep n x
    pure (a :: as)

/-- `it = makeIterator(r)`, then `n` times `it->next()`. -/
def rounds (L : Layer World) (fuel : Nat) (f r : Ref) (n : Nat) : M World (List (List Ref)) := do
  let us ← callN L fuel f [r] 1
  rep n (callNext L fuel (us.headD 0))

/-- This is what the machine does for `it->next()`. -/
theorem callNext_method (c : Ctx World) (hc : c.call = callN c.L c.fuel) (it : Ref) (e : Expr) (he : e.eval c = pure it) :
    (Call.method e (.str N.next) .nil).eval c 3 = callNext c.L c.fuel it := by
  simp only [Call.eval, Exprs.eval, Expr.eval, he, hc]
  rfl

/-- The rows after `k` items have been returned. -/
def Rows (s : SSt World) (ks vs : List Ref) (k : Nat) (rows : List (List Ref)) : Prop :=
  ∀ i row, rows[i]? = some row →
    (∃ v key ix, vs[k + i]? = some v ∧ ks[k + i]? = some key ∧ s.w.heap[ix]? = some (.int (k + i : Nat)) ∧ row = [v, key, ix]) ∨
    (vs.length ≤ k + i ∧ row = [0, 0, 0])

theorem str_eq {w : World} {t : List UInt8} (ht : good t = true) :
    (objects (std B)).str t w = .ok (w.alloc (.str (ascii t))).1 (w.alloc (.str (ascii t))).2 := by
  show (outOf w (cstring (t.takeWhile (· ≠ 0)))).bind _ = _
  rw [takeWhile_noNul t (good_nul ht), good_cstring ht]
  rfl

theorem name_next (hB : Conf B) {it r kl iv f sc : Ref} {ks vs : List Ref} {k : Nat}
    (i : Iter B P O it r ks vs k kl iv f sc K s) : ∃ s', Iter B P O it r ks vs k kl iv f sc K s' ∧ Ext [] s s' ∧
    ∀ (Q : List Ref → SSt World → Prop), wp (callN (objects (std B)) (m + 3) f [it] 3) Q s' →
      wp (callNext (objects (std B)) (m + 3) it) Q s := by
  have hg := good_cstring (n := N.next) rfl
  have e := Ext.alloc s (.str (ascii N.next))
  have i' : Iter B P O it r ks vs k kl iv f sc K ⟨(s.w.alloc (.str (ascii N.next))).1, s.funs⟩ :=
    { glob := i.glob.ext e (by simp) (by simp) i.glob.err, know := i.know.ext e, keys := i.keys, index := i.index
      holds := i.holds, fn := i.fn.ext e (by simp), vars := i.vars.ext e (by simp), ne := i.ne, lo := i.lo }
  refine ⟨_, i', e, fun Q hQ => ?_⟩
  unfold callNext
  refine wp_bind (wp_lift (w := (s.w.alloc (.str (ascii N.next))).1) (a := (s.w.alloc (.str (ascii N.next))).2) ?_ i.glob.err ?_)
  · exact str_eq rfl
  · refine wp_bind (wp_lift (w := (s.w.alloc (.str (ascii N.next))).1) (a := f) ?_ i.glob.err hQ)
    have hsel := select_rec (C := std B) (w := (s.w.alloc (.str (ascii N.next))).1) (x := it)
      (y := (s.w.alloc (.str (ascii N.next))).2) (n := N.next) (Nat.lt_trans (by decide) hB.fuel) (hB.reach _) i.glob.err
      (i'.glob.recs _ List.mem_cons_self) (name_of (alloc_get _ _) rfl) (s.w.alloc (.str (ascii N.next))).1.heap.length
    have hw : ({ (s.w.alloc (.str (ascii N.next))).1 with err := false } : World) = (s.w.alloc (.str (ascii N.next))).1 := by
      have : (s.w.alloc (.str (ascii N.next))).1.err = false := i.glob.err
      rw [← this]
    show (selectObj (std B) (selFuel _) it _ { (s.w.alloc (.str (ascii N.next))).1 with err := false }).bind _ = _
    rw [hw]
    show (selectObj (std B) ((s.w.alloc (.str (ascii N.next))).1.heap.length + 1) it _ _).bind _ = _
    rw [hsel]
    rfl

theorem rep_spec (hB : Conf B) {it r kl f sc : Ref} {ks vs : List Ref} (hn : ks.length < 2 ^ 31) :
    ∀ (n k : Nat) (iv : Ref) (K : List (Ref × Obj)) (s : SSt World), k ≤ ks.length →
      Iter B P O it r ks vs k kl iv f sc K s →
      wp (rep n (callNext (objects (std B)) (m + 3) it)) (fun rows s' => rows.length = n ∧ Rows s' ks vs k rows ∧
        Ext [it] s s' ∧ ∃ iv' K', Iter B P O it r ks vs (min (k + n) ks.length) kl iv' f sc K' s') s
  | 0, k, iv, K, s, hk, i => wp_pure ⟨rfl, (by intro i row h; cases h),
      { (Ext.refl s) with
        heap := fun x hx _ => (Ext.refl s).heap x hx (by simp)
        dmap := fun x hx _ => by
          rw [List.mem_singleton.1 hx]
          obtain ⟨es, he, -⟩ := i.glob.recs _ List.mem_cons_self
          exact ⟨es, he⟩ }, iv, K, by rw [show min (k + 0) ks.length = k by omega]; exact i⟩
  | n + 1, k, iv, K, s, hk, i => by
    obtain ⟨s0, i0, e0, hwp⟩ := name_next (m := m) hB i
    refine wp_bind (hwp _ (wp_mono (next_spec (m := m + 1) (w := 3) hB hn hk i0) fun row s1 h1 => ?_))
    obtain ⟨us, rfl, e1, iv1, K1, hK1, h1⟩ := h1
    rcases h1 with ⟨key, v, hkey, hv, rfl, hix, i1⟩ | ⟨hkn, rfl, i1⟩
    · have hlt : k < ks.length := (List.getElem?_eq_some_iff.1 hkey).1
      refine wp_bind (wp_mono (rep_spec hB hn n (k + 1) iv1 K1 s1 hlt i1) fun rows s2 h2 => wp_pure ?_)
      obtain ⟨hl, hrows, e2, iv2, K2, i2⟩ := h2
      refine ⟨by simp [hl], ?_, ?_, iv2, K2, by rw [show k + (n + 1) = k + 1 + n by omega]; exact i2⟩
      · intro j row hj
        cases j with
        | zero =>
          cases hj
          exact .inl ⟨v, key, iv1, hv, hkey, e2.obj (i1.know _ hix).2 nofun, rfl⟩
        | succ j =>
          have := hrows j row hj
          rw [show k + 1 + j = k + (j + 1) by omega] at this
          exact this
      · refine (Ext.trans ?_ e1 (by simp)).trans e2 (by simp)
        exact { e0 with
          heap := fun x hx _ => e0.heap x hx (by simp)
          dmap := fun x hx _ => by
            rw [List.mem_singleton.1 hx]
            obtain ⟨es, he, -⟩ := i.glob.recs _ List.mem_cons_self
            exact ⟨es, he⟩ }
    · refine wp_bind (wp_mono (rep_spec hB hn n k iv1 K1 s1 hk i1) fun rows s2 h2 => wp_pure ?_)
      obtain ⟨hl, hrows, e2, iv2, K2, i2⟩ := h2
      have hvl := i.holds.len
      refine ⟨by simp [hl], ?_, ?_, iv2, K2, by rw [show min (k + (n + 1)) ks.length = min (k + n) ks.length by omega]; exact i2⟩
      · intro j row hj
        cases j with
        | zero =>
          cases hj
          exact .inr ⟨by omega, rfl⟩
        | succ j =>
          rcases hrows j row hj with ⟨v, key, ix, hv, -⟩ | ⟨hle, hrow⟩
          · have := (List.getElem?_eq_some_iff.1 hv).1
            omega
          · exact .inr ⟨by omega, hrow⟩
      · refine (Ext.trans ?_ e1 (by simp)).trans e2 (by simp)
        exact { e0 with
          heap := fun x hx _ => e0.heap x hx (by simp)
          dmap := fun x hx _ => by
            rw [List.mem_singleton.1 hx]
            obtain ⟨es, he, -⟩ := i.glob.recs _ List.mem_cons_self
            exact ⟨es, he⟩ }

/-- The keys of a collection: those of the entries of a map, the first integers for a list. -/
def Keys (s' : SSt World) : Obj → List Ref → Prop
  | .map es, ks => ks = es.map (·.1)
  | _, ks => ∀ (i : Nat) k, ks[i]? = some k → s'.w.heap[k]? = some (.int i)

theorem rounds_spec (hB : Conf B) (g : Globals B P.env s) {r : Ref} {vs : List Ref} {o : Obj} (hr : s.w.heap[r]? = some o)
    (hc : Coll B s.w.heap r vs) (hp : Plain s.w.heap r) (hn : vs.length < 2 ^ 31) (n : Nat) :
    wp (rounds (objects (std B)) (m + 3) (P.lib N.makeIterator) r n) (fun rows s' => ∃ ks, ks.length = vs.length ∧
      Keys s' o ks ∧ rows.length = n ∧ Rows s' ks vs 0 rows ∧ s'.w.err = false ∧
      ∀ x, x < s.w.heap.length → s'.w.heap[x]? = s.w.heap[x]?) s := by
  have g' : Globals B (P.genv [] s.w.heap) s := genv_of (R := []) (O := []) g nofun fun _ _ => rfl
  refine wp_bind (wp_mono (mi_spec (m := m) (K := []) hB g' nofun hc hp) fun us s1 h1 => ?_)
  obtain ⟨it, ks, kl, f, sc, K', rfl, e, he, hit, -, i⟩ := h1
  have hl := i.holds.len
  refine wp_mono (rep_spec (m := m) hB (by omega) n 0 0 K' s1 (Nat.zero_le _) i) fun rows s2 h2 => ?_
  obtain ⟨h3, h4, e2, iv', K2, i2⟩ := h2
  refine ⟨ks, hl, ?_, h3, h4, i2.glob.err, fun x hx => ?_⟩
  · cases i.holds with
    | list hr' hl hk =>
      rw [hr] at hr'
      cases hr'
      intro j k hj
      exact e2.obj (i.know _ (hk j k hj)).2 nofun
    | map es hr' hk hv hh hs =>
      rw [hr] at hr'
      cases hr'
      exact hk
  · rw [e2.heap x (Nat.lt_of_lt_of_le hx e.len) ?_, e.heap x hx (by simp)]
    intro hm
    rw [List.mem_singleton.1 hm] at hx
    exact absurd hit (Nat.not_le_of_lt hx)

end Noja.VM.Start
