import Verif.Graph.Print

/-! # C25: keys are deep copies -/

namespace Noja.Graph

set_option linter.unusedSimpArgs false

/-! ## Specification -/

/-- Objects that cannot be changed by a program: none, booleans, numbers, strings and builtin
namespaces. -/
def Immut : Obj → Prop
  | .none | .bool _ | .int _ | .float _ | .str _ | .opaque .smap => True
  | _ => False

/-- Object `r'` of heap `g` has the same contents as object `r` of heap `h`, all the way down. -/
inductive Same (h g : Heap) : Nat → Nat → Prop
  | atom (r r' : Nat) (o : Obj) (hi : Immut o) (hr : h[r]? = some o) (hr' : g[r']? = some o) :
      Same h g r r'
  | list (r r' : Nat) (xs ys : List Nat) (hr : h[r]? = some (.list xs)) (hr' : g[r']? = some (.list ys))
      (hl : xs.length = ys.length)
      (hi : ∀ (i x y : Nat), xs[i]? = some x → ys[i]? = some y → Same h g x y) : Same h g r r'
  | map (r r' : Nat) (xs ys : List (Nat × Nat)) (hr : h[r]? = some (.map xs))
      (hr' : g[r']? = some (.map ys)) (hl : xs.length = ys.length)
      (hk : ∀ (i : Nat) x y, xs[i]? = some x → ys[i]? = some y → Same h g x.1 y.1)
      (hv : ∀ (i : Nat) x y, xs[i]? = some x → ys[i]? = some y → Same h g x.2 y.2) : Same h g r r'

/-- The keys of one map are pairwise different. -/
def KeysSep (h : Heap) : Prop :=
  ∀ (r : Nat) es, h[r]? = some (.map es) → es.Pairwise fun e f =>
    compare h e.1 f.1 ≠ .ok true ∧ compare h f.1 e.1 ≠ .ok true

/-- `g` is a heap the program may have produced from `h'` by changing, in any way, lists and maps
that already existed in `h` (and allocating more). -/
def LaterChange (h h' g : Heap) : Prop :=
  (∀ x, h.length ≤ x → x < h'.length → g[x]? = h'[x]?) ∧
  (∀ (x : Nat) o, h[x]? = some o → Immut o → g[x]? = some o)

/-! ## Proof -/

theorem get_of_lt {h : Heap} {x : Nat} (hx : x < h.length) : ∃ o, h[x]? = some o :=
  ⟨_, List.getElem?_eq_getElem hx⟩

theorem lt_of_some {α} {l : List α} {i : Nat} {x : α} (h : l[i]? = some x) : i < l.length :=
  (List.getElem?_eq_some_iff.mp h).1

theorem mem_children_entry {es : List (Nat × Nat)} {e : Nat × Nat} (h : e ∈ es) :
    e.1 ∈ children (.map es) ∧ e.2 ∈ children (.map es) := by
  simp only [children, List.mem_flatMap]
  exact ⟨⟨e, h, by simp⟩, ⟨e, h, by simp⟩⟩

theorem Same.trans {a b c : Heap} {x y z : Nat} (h1 : Same a b x y) (h2 : Same b c y z) :
    Same a c x z := by
  induction h1 generalizing z with
  | atom r r' o hi hr hr' =>
    cases h2 with
    | atom _ _ o' hi' hs hs' => rw [hr'] at hs; cases hs; exact .atom _ _ o hi hr hs'
    | list _ _ _ _ hs => rw [hr'] at hs; cases hs; exact hi.elim
    | map _ _ _ _ hs => rw [hr'] at hs; cases hs; exact hi.elim
  | list r r' xs ys hr hr' hl hi ih =>
    cases h2 with
    | atom _ _ o' hi' hs hs' => rw [hr'] at hs; cases hs; exact hi'.elim
    | list _ _ _ zs hs hs' hl' hi' =>
      rw [hr'] at hs; cases hs
      refine .list _ _ _ _ hr hs' (hl.trans hl') ?_
      intro i x z hx hz
      have li := lt_of_some hx
      have hy := List.getElem?_eq_getElem (show i < ys.length by omega)
      exact ih i x _ hx hy (hi' i _ z hy hz)
    | map _ _ _ _ hs => rw [hr'] at hs; cases hs
  | map r r' xs ys hr hr' hl hk hv ihk ihv =>
    cases h2 with
    | atom _ _ o' hi' hs hs' => rw [hr'] at hs; cases hs; exact hi'.elim
    | list _ _ _ _ hs => rw [hr'] at hs; cases hs
    | map _ _ _ zs hs hs' hl' hk' hv' =>
      rw [hr'] at hs; cases hs
      refine .map _ _ _ _ hr hs' (hl.trans hl') ?_ ?_
      · intro i x z hx hz
        have li := lt_of_some hx
        have hy := List.getElem?_eq_getElem (show i < ys.length by omega)
        exact ihk i x _ hx hy (hk' i _ z hy hz)
      · intro i x z hx hz
        have li := lt_of_some hx
        have hy := List.getElem?_eq_getElem (show i < ys.length by omega)
        exact ihv i x _ hx hy (hv' i _ z hy hz)

theorem Same.source {h h1 g : Heap} (hc : Closed h) (ha : ∀ x, x < h.length → h1[x]? = h[x]?)
    {x y : Nat} (hs : Same h1 g x y) : x < h.length → Same h g x y := by
  induction hs with
  | atom r r' o hi hr hr' => intro hx; exact .atom _ _ o hi (ha r hx ▸ hr) hr'
  | list r r' xs ys hr hr' hl hi ih =>
    intro hx
    rw [ha r hx] at hr
    exact .list _ _ _ _ hr hr' hl (fun i x y p q => ih i x y p q
      (hc r _ hr x (by simp only [children]; exact List.mem_of_getElem? p)))
  | map r r' xs ys hr hr' hl hk hv ihk ihv =>
    intro hx
    rw [ha r hx] at hr
    exact .map _ _ _ _ hr hr' hl
      (fun i x y p q => ihk i x y p q
        (hc r _ hr x.1 (mem_children_entry (List.mem_of_getElem? p)).1))
      (fun i x y p q => ihv i x y p q
        (hc r _ hr x.2 (mem_children_entry (List.mem_of_getElem? p)).2))

theorem compare_get {h g : Heap} {a b a' b' : Nat} (ha : h[a]? = g[a']?) (hb : h[b]? = g[b']?) :
    compare h a b = compare g a' b' := by
  unfold compare rd; rw [ha, hb]

theorem compare_def {h : Heap} {a b : Nat} {x y : Obj} (ha : h[a]? = some x) (hb : h[b]? = some y) :
    compare h a b = if x.kind ≠ y.kind then .ok false else opEql x y := by
  unfold compare
  rw [rd_ok_iff.mpr ha, rd_ok_iff.mpr hb]; rfl

theorem opEql_list (x y : Obj) (h : (∃ xs, x = .list xs) ∨ ∃ xs, x = .map xs) : opEql x y = .err := by
  rcases h with ⟨xs, rfl⟩ | ⟨xs, rfl⟩ <;> cases y <;> rfl

theorem opEql_list' (x y : Obj) (h : (∃ xs, y = .list xs) ∨ ∃ xs, y = .map xs) : opEql x y = .err := by
  rcases h with ⟨xs, rfl⟩ | ⟨xs, rfl⟩ <;> cases x <;> rfl

/-- Two objects that comparisons cannot tell apart. -/
def Alike (x x' : Obj) : Prop :=
  x = x' ∨ ((∃ xs, x = .list xs) ∧ ∃ xs, x' = .list xs) ∨ ((∃ xs, x = .map xs) ∧ ∃ xs, x' = .map xs)

theorem Alike.kind {x x' : Obj} (h : Alike x x') : x.kind = x'.kind := by
  rcases h with rfl | ⟨⟨_, rfl⟩, _, rfl⟩ | ⟨⟨_, rfl⟩, _, rfl⟩ <;> rfl

theorem opEql_alike {x x' y y' : Obj} (hx : Alike x x') (hy : Alike y y') : opEql x y = opEql x' y' := by
  rcases hx with rfl | hx
  · rcases hy with rfl | hy
    · rfl
    · rw [opEql_list' x y, opEql_list' x y']
      · rcases hy with ⟨_, h⟩ | ⟨_, h⟩
        · exact .inl h
        · exact .inr h
      · rcases hy with ⟨h, _⟩ | ⟨h, _⟩
        · exact .inl h
        · exact .inr h
  · rw [opEql_list x y, opEql_list x' y']
    · rcases hx with ⟨_, h⟩ | ⟨_, h⟩
      · exact .inl h
      · exact .inr h
    · rcases hx with ⟨h, _⟩ | ⟨h, _⟩
      · exact .inl h
      · exact .inr h

theorem compare_alike {h g : Heap} {a b a' b' : Nat} {x x' y y' : Obj} (ha : h[a]? = some x)
    (hb : h[b]? = some y) (ha' : g[a']? = some x') (hb' : g[b']? = some y') (hx : Alike x x')
    (hy : Alike y y') : compare h a b = compare g a' b' := by
  rw [compare_def ha hb, compare_def ha' hb', hx.kind, hy.kind, opEql_alike hx hy]

theorem Same.alike {h g : Heap} {x y : Nat} (hs : Same h g x y) :
    ∃ o o', h[x]? = some o ∧ g[y]? = some o' ∧ Alike o o' := by
  cases hs with
  | atom o hi hr hr' => exact ⟨_, _, by assumption, by assumption, .inl rfl⟩
  | list xs ys hr hr' => exact ⟨_, _, by assumption, by assumption, .inr (.inl ⟨⟨_, rfl⟩, _, rfl⟩)⟩
  | map xs ys hr hr' => exact ⟨_, _, by assumption, by assumption, .inr (.inr ⟨⟨_, rfl⟩, _, rfl⟩)⟩

theorem Same.compare {h g : Heap} {a b a' b' : Nat} (h1 : Same h g a a') (h2 : Same h g b b') :
    Graph.compare h a b = Graph.compare g a' b' := by
  obtain ⟨x, x', p, q, r⟩ := h1.alike
  obtain ⟨y, y', p', q', r'⟩ := h2.alike
  exact compare_alike p p' q q' r r'

/-- What a copy does to the heap: it only adds objects. -/
structure Ext (h h' : Heap) : Prop where
  len : h.length ≤ h'.length
  old : ∀ x, x < h.length → h'[x]? = h[x]?

theorem Ext.refl (h : Heap) : Ext h h := ⟨Nat.le_refl _, fun _ _ => rfl⟩
theorem Ext.trans {a b c : Heap} (h1 : Ext a b) (h2 : Ext b c) : Ext a c :=
  ⟨Nat.le_trans h1.len h2.len, fun x hx => by
    rw [h2.old x (Nat.lt_of_lt_of_le hx h1.len), h1.old x hx]⟩

/-- The conclusion about one call of `copy`. -/
structure Good (h : Heap) (r : Nat) (h' : Heap) (r' : Nat) : Prop where
  ext : Ext h h'
  closed : Closed h'
  sep : KeysSep h'
  lt : r' < h'.length
  same : ∀ g, LaterChange h h' g → Same h g r r'

/-- A copying function that is right on every heap. -/
def CopyOK (c : Heap → Nat → Exec (Heap × Nat)) : Prop :=
  ∀ h r h' r', Closed h → KeysSep h → r < h.length → c h r = .ok (h', r') → Good h r h' r'

theorem later_self {h h' : Heap} (e : Ext h h') : LaterChange h h' h' :=
  ⟨fun _ _ _ => rfl, fun x o hx _ => by rw [e.old x (lt_of_some hx), hx]⟩

theorem copyItems_good {c : Heap → Nat → Exec (Heap × Nat)} (hc : CopyOK c) :
    ∀ (items : List Nat) (h h' : Heap) (rs : List Nat), Closed h → KeysSep h →
      (∀ x ∈ items, x < h.length) → copyItems c h items = .ok (h', rs) →
      Ext h h' ∧ Closed h' ∧ KeysSep h' ∧ (∀ x ∈ rs, x < h'.length) ∧ items.length = rs.length ∧
      ∀ g, LaterChange h h' g → ∀ (i x y : Nat), items[i]? = some x → rs[i]? = some y → Same h g x y := by
  intro items
  induction items with
  | nil =>
    intro h h' rs h1 h2 _ hr
    unfold copyItems at hr; cases hr
    exact ⟨.refl _, h1, h2, by simp, rfl, by simp⟩
  | cons r items ih =>
    intro h h' rs h1 h2 hx hr
    unfold copyItems at hr
    obtain ⟨⟨h3, r'⟩, e1, hr⟩ := Exec.bind_eq_ok.mp hr
    obtain ⟨⟨h4, rs'⟩, e2, hr⟩ := Exec.bind_eq_ok.mp hr
    cases hr
    have g1 := hc h r h3 r' h1 h2 (hx r (by simp)) e1
    obtain ⟨g2, g3, g4, g5, g6, g7⟩ := ih h3 h' rs' g1.closed g1.sep
      (fun x m => Nat.lt_of_lt_of_le (hx x (by simp [m])) g1.ext.len) e2
    refine ⟨g1.ext.trans g2, g3, g4, ?_, by simp [g6], ?_⟩
    · intro x m
      simp at m
      rcases m with rfl | m
      · exact Nat.lt_of_lt_of_le g1.lt g2.len
      · exact g5 x m
    · intro g hg i x y hx' hy
      cases i with
      | zero =>
        simp at hx' hy; subst hx'; subst hy
        refine g1.same g ⟨fun x a b => ?_, hg.2⟩
        rw [hg.1 x a (Nat.lt_of_lt_of_le b g2.len), g2.old x b]
      | succ i =>
        simp at hx' hy
        have := g7 g ⟨fun x a b => hg.1 x (Nat.le_trans g1.ext.len a) b, fun x o ho hi => by
          by_cases l : x < h.length
          · rw [g1.ext.old x l] at ho; exact hg.2 x o ho hi
          · have lx := lt_of_some ho
            rw [hg.1 x (by omega) (Nat.lt_of_lt_of_le lx g2.len), g2.old x lx, ho]⟩ i x y hx' hy
        exact this.source h1 g1.ext.old (hx x (by simp [List.mem_of_getElem? hx']))

theorem compare_set {h : Heap} {m : Nat} {o o' : Obj} (ho : h[m]? = some o) (ha : Alike o o')
    (a b : Nat) : compare (h.set m o') a b = compare h a b := by
  have key : ∀ a : Nat, (h.set m o')[a]? = h[a]? ∨ ∃ x x', h[a]? = some x ∧ (h.set m o')[a]? = some x' ∧
      Alike x x' := by
    intro a
    by_cases e : m = a
    · subst e
      right
      exact ⟨o, o', ho, by simp [List.getElem?_set, lt_of_some ho], ha⟩
    · left; simp [List.getElem?_set, e]
  have key' : ∀ a : Nat, ((h.set m o')[a]? = none ∧ h[a]? = none) ∨
      ∃ x x', h[a]? = some x ∧ (h.set m o')[a]? = some x' ∧ Alike x x' := by
    intro a
    rcases key a with e | e
    · cases q : h[a]? with
      | none => left; rw [e, q]; simp
      | some x => right; exact ⟨x, x, rfl, by rw [e, q], .inl rfl⟩
    · exact .inr e
  rcases key' a with ⟨p, q⟩ | ⟨x, x', p, q, r⟩
  · unfold compare rd; rw [p, q]; rfl
  · rcases key' b with ⟨p', q'⟩ | ⟨y, y', p', q', r'⟩
    · unfold compare rd; rw [p, q, p', q']; rfl
    · exact (compare_alike p p' q q' r r').symm

theorem sep_set {h : Heap} (hs : KeysSep h) {m : Nat} {o o' : Obj} (ho : h[m]? = some o)
    (ha : Alike o o')
    (hn : ∀ es, o' = .map es → es.Pairwise fun e f =>
      compare h e.1 f.1 ≠ .ok true ∧ compare h f.1 e.1 ≠ .ok true) : KeysSep (h.set m o') := by
  intro r es hr
  have : es.Pairwise fun e f => compare h e.1 f.1 ≠ .ok true ∧ compare h f.1 e.1 ≠ .ok true := by
    by_cases e : m = r
    · subst e
      simp [List.getElem?_set, lt_of_some ho] at hr
      exact hn es hr
    · simp [List.getElem?_set, e] at hr
      exact hs r es hr
  refine this.imp ?_
  intro e f q
  rw [compare_set ho ha, compare_set ho ha]
  exact q

theorem sep_append {h : Heap} (hc : Closed h) (hs : KeysSep h) {o : Obj}
    (hn : ∀ es, o = .map es → es = []) : KeysSep (h ++ [o]) := by
  intro r es hr
  have lr := lt_of_some hr
  by_cases l : r < h.length
  · rw [List.getElem?_append_left l] at hr
    have hp := hs r es hr
    refine hp.imp_of_mem ?_
    intro e f me mf q
    have l1 := hc r _ hr e.1 (mem_children_entry me).1
    have l2 := hc r _ hr f.1 (mem_children_entry mf).1
    rw [compare_get (List.getElem?_append_left l1) (List.getElem?_append_left l2),
      compare_get (List.getElem?_append_left l2) (List.getElem?_append_left l1)]
    exact q
  · have : r = h.length := by simp at lr; omega
    subst this
    simp at hr
    rw [hn es hr]
    exact .nil

theorem closed_append {h : Heap} (hc : Closed h) {o : Obj} (hn : children o = []) :
    Closed (h ++ [o]) := by
  intro r o' hr c m
  have lr := lt_of_some hr
  by_cases l : r < h.length
  · rw [List.getElem?_append_left l] at hr
    have := hc r _ hr c m
    simp; omega
  · have : r = h.length := by simp at lr; omega
    subst this
    simp at hr
    rw [← hr, hn] at m
    simp at m

theorem closed_set {h : Heap} (hc : Closed h) {m : Nat} {o : Obj}
    (hn : ∀ c ∈ children o, c < h.length) : Closed (h.set m o) := by
  intro r o' hr c hm
  rw [List.length_set]
  by_cases e : m = r
  · subst e
    have := lt_of_some hr
    simp at this
    simp [List.getElem?_set, this] at hr
    subst hr
    exact hn c hm
  · simp [List.getElem?_set, e] at hr
    exact hc r _ hr c hm

theorem set_old {h0 h : Heap} (e : Ext h0 h) {m : Nat} (hm : h0.length ≤ m) (o : Obj) :
    Ext h0 (h.set m o) :=
  ⟨by simp [e.len], fun x hx => by
    have : m ≠ x := by omega
    simp [List.getElem?_set, this, e.old x hx]⟩

theorem findKey_none (hit : Nat → Nat → Bool) (h : Heap) (key : Nat) :
    ∀ (es : List (Nat × Nat)) (j : Nat), (∀ e ∈ es, compare h key e.1 ≠ .ok true) →
      ∀ o, findKey hit h key es j = .ok o → o = none := by
  intro es
  induction es with
  | nil => intro j _ o ho; cases ho; rfl
  | cons e es ih =>
    intro j hn o ho
    obtain ⟨k, v⟩ := e
    unfold findKey at ho
    by_cases q : hit key k = true
    · rw [if_pos q] at ho
      obtain ⟨c, hc, ho⟩ := Exec.bind_eq_ok.mp ho
      have := hn (k, v) (by simp)
      cases c with
      | true => exact absurd hc this
      | false => exact ih (j + 1) (fun e m => hn e (by simp [m])) o ho
    · rw [if_neg q] at ho
      exact ih (j + 1) (fun e m => hn e (by simp [m])) o ho

/-- The state of the loop that fills the new map at `h.length`: `ds` have been copied, to `ds'`. -/
structure Filling (h hc : Heap) (ds ds' : List (Nat × Nat)) : Prop where
  ext : Ext h hc
  lt : h.length < hc.length
  here : hc[h.length]? = some (.map ds')
  closed : Closed hc
  sep : KeysSep hc
  len : ds.length = ds'.length
  same : ∀ g, (∀ x, h.length < x → x < hc.length → g[x]? = hc[x]?) →
    (∀ (x : Nat) o, h[x]? = some o → Immut o → g[x]? = some o) →
    ∀ (i : Nat) e e', ds[i]? = some e → ds'[i]? = some e' → Same h g e.1 e'.1 ∧ Same h g e.2 e'.2

theorem copyEntries_good {hit : Nat → Nat → Bool} {hs : Heap → Nat → Exec (BitVec 32)}
    {c : Heap → Nat → Exec (Heap × Nat)} (hc : CopyOK c) (h : Heap) (hcl : Closed h) :
    ∀ (es ds ds' : List (Nat × Nat)) (h1 h' : Heap), Filling h h1 ds ds' →
      (∀ e ∈ es, e.1 < h.length ∧ e.2 < h.length) →
      ((ds ++ es).Pairwise fun e f => compare h e.1 f.1 ≠ .ok true ∧ compare h f.1 e.1 ≠ .ok true) →
      copyEntries hit hs c h.length h1 es = .ok h' →
      ∃ ds'', Filling h h' (ds ++ es) ds'' := by
  intro es
  induction es with
  | nil =>
    intro ds ds' h1 h' hf _ _ hr
    unfold copyEntries at hr; cases hr
    exact ⟨ds', by simpa using hf⟩
  | cons e es ih =>
    intro ds ds' h1 h' hf hlt hp hr
    obtain ⟨k, v⟩ := e
    unfold copyEntries at hr
    obtain ⟨⟨h2, k'⟩, e1, hr⟩ := Exec.bind_eq_ok.mp hr
    obtain ⟨⟨h3, v'⟩, e2, hr⟩ := Exec.bind_eq_ok.mp hr
    obtain ⟨h5, e3, hr⟩ := Exec.bind_eq_ok.mp hr
    have lk := (hlt (k, v) (by simp)).1
    have lv := (hlt (k, v) (by simp)).2
    simp only [] at lk lv e1 e2 e3 hr
    have g1 := hc h1 k h2 k' hf.closed hf.sep (Nat.lt_of_lt_of_le lk hf.ext.len) e1
    have x12 := hf.ext.trans g1.ext
    have g2 := hc h2 v h3 v' g1.closed g1.sep (Nat.lt_of_lt_of_le lv x12.len) e2
    have x13 := x12.trans g2.ext
    have xx := g1.ext.trans g2.ext
    have here3 : h3[h.length]? = some (.map ds') := by rw [xx.old _ hf.lt, hf.here]
    unfold mapInsert at e3
    rw [rd_ok_iff.mpr here3, Exec.bind_ok] at e3
    simp only [] at e3
    obtain ⟨_, -, e3⟩ := Exec.bind_eq_ok.mp e3
    obtain ⟨o, e4, e3⟩ := Exec.bind_eq_ok.mp e3
    -- immutable objects of `h` are still there in any extension
    have imm : ∀ {g}, Ext h g → ∀ (x : Nat) o, h[x]? = some o → Immut o → g[x]? = some o :=
      fun e x o ho _ => by rw [e.old x (lt_of_some ho), ho]
    -- the copied key in `h3`
    have sk3 : Same h h3 k k' := by
      refine (g1.same h3 ⟨fun x a b => g2.ext.old x b, fun x o ho _ => ?_⟩).source hcl hf.ext.old lk
      rw [xx.old x (lt_of_some ho), ho]
    have dup : ∀ (i : Nat) e, ds[i]? = some e →
        compare h k e.1 ≠ .ok true ∧ compare h e.1 k ≠ .ok true := by
      intro i e he
      have li := lt_of_some he
      rw [List.pairwise_append] at hp
      have := hp.2.2 e (List.mem_of_getElem? he) (k, v) (by simp)
      exact ⟨this.2, this.1⟩
    have hnone : o = none := by
      refine findKey_none hit h3 k' ds' 0 ?_ o e4
      intro e' me'
      obtain ⟨i, li, ei⟩ := List.mem_iff_getElem.mp me'
      have hd' : ds'[i]? = some e' := by rw [List.getElem?_eq_getElem li, ei]
      have hd := List.getElem?_eq_getElem (show i < ds.length by have := hf.len; omega)
      have := (hf.same h3 (fun x a b => xx.old x b) (imm x13) i _ e' hd hd').1
      rw [← sk3.compare this]
      exact (dup i _ hd).1
    subst hnone
    obtain ⟨⟨h4, k''⟩, e5, e3⟩ := Exec.bind_eq_ok.mp e3
    simp only [Exec.ok.injEq] at e3
    have g3 := hc h3 k' h4 k'' g2.closed g2.sep (Nat.lt_of_lt_of_le g1.lt g2.ext.len) e5
    have x14 := x13.trans g3.ext
    have x34 := g3.ext
    have here4 : h4[h.length]? = some (.map ds') := by
      rw [g3.ext.old _ (lt_of_some here3), here3]
    have alike : Alike (.map ds') (.map (ds' ++ [(k'', v')])) := .inr (.inr ⟨⟨_, rfl⟩, _, rfl⟩)
    -- contents of the new entry in any later heap
    have new : ∀ g, (∀ x, h.length < x → x < h4.length → g[x]? = h4[x]?) →
        (∀ (x : Nat) o, h[x]? = some o → Immut o → g[x]? = some o) →
        Same h g k k'' ∧ Same h g v v' := by
      intro g ga gi
      have im : ∀ {hh}, Ext h hh → h.length < hh.length → hh[h.length]? = some (.map ds') →
          Ext hh h4 → ∀ (x : Nat) o, hh[x]? = some o → Immut o → g[x]? = some o := by
        intro hh eh lh hm e4 x o ho hi
        have lx := lt_of_some ho
        rcases Nat.lt_trichotomy x h.length with q | q | q
        · rw [eh.old x q] at ho; exact gi x o ho hi
        · subst q; rw [hm] at ho; cases ho; exact hi.elim
        · rw [ga x q (Nat.lt_of_lt_of_le lx e4.len), e4.old x lx, ho]
      have l12 : h.length < h2.length := Nat.lt_of_lt_of_le hf.lt g1.ext.len
      have l13 : h.length < h3.length := Nat.lt_of_lt_of_le l12 g2.ext.len
      have here2 : h2[h.length]? = some (.map ds') := by rw [g1.ext.old _ hf.lt, hf.here]
      constructor
      · refine sk3.trans (g3.same g ⟨fun x a b => ga x (by omega) b, ?_⟩)
        exact im x13 l13 here3 x34
      · refine (g2.same g ⟨fun x a b => ?_, ?_⟩).source hcl x12.old lv
        · rw [ga x (by omega) (Nat.lt_of_lt_of_le b x34.len), x34.old x b]
        · exact im x12 l12 here2 (g2.ext.trans x34)
    have next : Filling h h5 (ds ++ [(k, v)]) (ds' ++ [(k'', v')]) := by
      subst e3
      refine ⟨set_old x14 (Nat.le_refl _) _, ?_, ?_, ?_, ?_, by simp [hf.len], ?_⟩
      · simp; exact Nat.lt_of_lt_of_le hf.lt (xx.trans x34).len
      · simp [List.getElem?_set, lt_of_some here4]
      · refine closed_set g3.closed ?_
        intro c' hm
        simp only [children, List.mem_flatMap] at hm
        obtain ⟨a, ha, hb⟩ := hm
        simp at ha
        rcases ha with ha | ha
        · have q := mem_children_entry ha
          simp at hb
          rcases hb with rfl | rfl
          · exact g3.closed _ _ here4 _ q.1
          · exact g3.closed _ _ here4 _ q.2
        · subst ha
          simp at hb
          rcases hb with rfl | rfl
          · exact g3.lt
          · exact Nat.lt_of_lt_of_le g2.lt x34.len
      · refine sep_set g3.sep here4 alike ?_
        intro es' hes
        cases hes
        rw [List.pairwise_append]
        refine ⟨g3.sep _ _ here4, by simp, ?_⟩
        intro e' me' f' mf'
        simp at mf'; subst mf'
        obtain ⟨i, li, ei⟩ := List.mem_iff_getElem.mp me'
        have hd' : ds'[i]? = some e' := by rw [List.getElem?_eq_getElem li, ei]
        have hd := List.getElem?_eq_getElem (show i < ds.length by have := hf.len; omega)
        have s1 := (hf.same h4 (fun x a b => (xx.trans x34).old x b) (imm x14) i _ e' hd hd').1
        have s2 := (new h4 (fun _ _ _ => rfl) (imm x14)).1
        rw [← s1.compare s2, ← s2.compare s1]
        exact ⟨(dup i _ hd).2, (dup i _ hd).1⟩
      · intro g ga gi i e e' he he'
        have ga' : ∀ x, h.length < x → x < h4.length → g[x]? = h4[x]? := by
          intro x a b
          rw [ga x a (by simpa using b)]
          have : h.length ≠ x := by omega
          simp [List.getElem?_set, this]
        by_cases li : i < ds.length
        · rw [List.getElem?_append_left li] at he
          rw [List.getElem?_append_left (by have := hf.len; omega)] at he'
          refine hf.same g (fun x a b => ?_) gi i e e' he he'
          rw [ga' x a (Nat.lt_of_lt_of_le b (xx.trans x34).len), (xx.trans x34).old x b]
        · have l1 := lt_of_some he
          simp at l1
          have hi : i = ds.length := by omega
          subst hi
          have hl := hf.len
          simp at he
          rw [hl] at he'
          simp at he'
          subst he; subst he'
          exact new g ga' gi
    obtain ⟨ds'', q⟩ := ih (ds ++ [(k, v)]) (ds' ++ [(k'', v')]) h5 h' next
      (fun e m => hlt e (by simp [m])) (by simpa using hp) hr
    exact ⟨ds'', by simpa using q⟩

theorem copy_succ (hit : Nat → Nat → Bool) {n : Nat} {h : Heap} {r : Nat} {o : Obj}
    (hr : h[r]? = some o) :
    copy hit (n + 1) h r = copyBody hit (fun h => hash h n) (copy hit n) h r o := by
  have : copy hit (n + 1) h r = (rd h r >>= copyBody hit (fun h => hash h n) (copy hit n) h r) :=
    (rfl)
  rw [this, rd_ok_iff.mpr hr, Exec.bind_ok]

theorem copyBody_list (hit : Nat → Nat → Bool) (hs : Heap → Nat → Exec (BitVec 32))
    (c : Heap → Nat → Exec (Heap × Nat)) (h : Heap) (r : Nat) (items : List Nat) :
    copyBody hit hs c h r (.list items) = (copyItems c (h ++ [.list []]) items >>= fun p =>
      .ok (p.1.set h.length (.list p.2), h.length)) := (rfl)

theorem copyBody_map (hit : Nat → Nat → Bool) (hs : Heap → Nat → Exec (BitVec 32))
    (c : Heap → Nat → Exec (Heap × Nat)) (h : Heap) (r : Nat) (es : List (Nat × Nat)) :
    copyBody hit hs c h r (.map es) = (copyEntries hit hs c h.length (h ++ [.map []]) es >>=
      fun h1 => .ok (h1, h.length)) := (rfl)

theorem copy_good (hit : Nat → Nat → Bool) : ∀ n, CopyOK (copy hit n) := by
  intro n
  induction n with
  | zero => intro h r h' r' _ _ _ hr; cases hr
  | succ n ih =>
    intro h r h' r' hc hk lr hr
    have ho := List.getElem?_eq_getElem lr
    rw [copy_succ hit ho] at hr
    have atom : Immut h[r] → copyBody hit (fun h => hash h n) (copy hit n) h r h[r] = .ok (h, r) →
        Good h r h' r' := by
      intro hi he
      rw [he] at hr; cases hr
      exact ⟨.refl _, hc, hk, lr, fun g hg => .atom _ _ _ hi ho (hg.2 _ _ ho hi)⟩
    cases hor : h[r] with
    | none => exact atom (by rw [hor]; trivial) (by rw [hor]; rfl)
    | bool b => exact atom (by rw [hor]; trivial) (by rw [hor]; rfl)
    | int v => exact atom (by rw [hor]; trivial) (by rw [hor]; rfl)
    | float x => exact atom (by rw [hor]; trivial) (by rw [hor]; rfl)
    | str s => exact atom (by rw [hor]; trivial) (by rw [hor]; rfl)
    | «opaque» k =>
      cases k <;> first
        | exact atom (by rw [hor]; trivial) (by rw [hor]; rfl)
        | (rw [hor] at hr; cases hr)
    | list items =>
      rw [hor] at hr ho
      rw [copyBody_list] at hr
      obtain ⟨⟨h1, rs⟩, e1, hr⟩ := Exec.bind_eq_ok.mp hr
      cases hr
      have xa : Ext h (h ++ [Obj.list []]) :=
        ⟨by simp, fun x hx => List.getElem?_append_left hx⟩
      obtain ⟨g1, g2, g3, g4, g5, g6⟩ := copyItems_good ih items _ h1 rs
        (closed_append hc rfl) (sep_append hc hk (by simp))
        (fun x m => by
          have := hc r _ ho x (by simpa [children] using m)
          simp; omega) e1
      have here : h1[h.length]? = some (.list []) := by
        rw [g1.old _ (by simp)]; simp
      have ext := xa.trans g1
      refine ⟨set_old ext (Nat.le_refl _) _, closed_set g2 (by simpa [children] using g4),
        sep_set g3 here (.inr (.inl ⟨⟨_, rfl⟩, _, rfl⟩)) (by simp), by simpa using lt_of_some here, ?_⟩
      intro g hg
      have hhere : g[h.length]? = some (.list rs) := by
        rw [hg.1 _ (Nat.le_refl _) (by simpa using lt_of_some here)]
        simp [List.getElem?_set, lt_of_some here]
      refine .list _ _ items rs ho hhere g5 ?_
      intro i x y hx hy
      have lx := hc r _ ho x (by simp only [children]; exact List.mem_of_getElem? hx)
      refine (g6 g ⟨fun x a b => ?_, fun x o ho' hi => ?_⟩ i x y hx hy).source hc xa.old lx
      · simp at a
        have : h.length ≠ x := by omega
        rw [hg.1 x (by omega) (by simpa using b)]
        simp [List.getElem?_set, this]
      · have lx' := lt_of_some ho'
        by_cases l : x < h.length
        · rw [xa.old x l] at ho'; exact hg.2 x o ho' hi
        · have : x = h.length := by simp at lx'; omega
          subst this
          simp at ho'; subst ho'; exact hi.elim
    | map es =>
      rw [hor] at hr ho
      rw [copyBody_map] at hr
      obtain ⟨h1, e1, hr⟩ := Exec.bind_eq_ok.mp hr
      cases hr
      have init : Filling h (h ++ [Obj.map []]) [] [] := by
        refine ⟨⟨by simp, fun x hx => List.getElem?_append_left hx⟩, by simp, by simp,
          closed_append hc rfl, sep_append hc hk (fun es he => by cases he; rfl), rfl, by simp⟩
      obtain ⟨ds, hf⟩ := copyEntries_good ih h hc es [] [] _ h' init
        (fun e m => ⟨hc r _ ho _ (mem_children_entry m).1, hc r _ ho _ (mem_children_entry m).2⟩)
        (by simpa using hk r es ho) e1
      refine ⟨hf.ext, hf.closed, hf.sep, hf.lt, ?_⟩
      intro g hg
      have q := hf.same g (fun x a b => hg.1 x (by omega) b) hg.2
      simp only [List.nil_append] at q
      have hl := hf.len
      simp only [List.nil_append] at hl
      exact .map _ _ es ds ho (by rw [hg.1 _ (Nat.le_refl _) hf.lt, hf.here]) hl
        (fun i x y a b => (q i x y a b).1) (fun i x y a b => (q i x y a b).2)
    | type k => rw [hor] at hr; cases hr
    | buffer b => rw [hor] at hr; cases hr
    | nullable i => rw [hor] at hr; cases hr
    | sum a b => rw [hor] at hr; cases hr
    | any => rw [hor] at hr; cases hr

/-- C25: when a key is inserted as a new entry, the map `m` gets, after the entries it had, an entry
with the given value whose key has the contents of the given key; and no later change to any list
or map that existed before the insertion (the given key itself or anything it contains included)
changes the contents of the stored key. -/
theorem C25_key_copied (hit : Nat → Nat → Bool) (fuel : Nat) (h h' : Heap) (m key val : Nat)
    (es : List (Nat × Nat)) (hc : Closed h) (hk : KeysSep h) (hm : h[m]? = some (.map es))
    (lk : key < h.length) (hnew : ∀ e ∈ es, compare h key e.1 ≠ .ok true)
    (hr : mapInsert hit (fun h => hash h fuel) (copy hit fuel) h m key val = .ok h') :
    ∃ k', h'[m]? = some (.map (es ++ [(k', val)])) ∧
      ∀ g, LaterChange h h' g → Same h g key k' := by
  unfold mapInsert at hr
  rw [rd_ok_iff.mpr hm, Exec.bind_ok] at hr
  simp only [] at hr
  obtain ⟨_, -, hr⟩ := Exec.bind_eq_ok.mp hr
  obtain ⟨o, e1, hr⟩ := Exec.bind_eq_ok.mp hr
  have := findKey_none hit h key es 0 hnew o e1
  subst this
  obtain ⟨⟨h1, k'⟩, e2, hr⟩ := Exec.bind_eq_ok.mp hr
  cases hr
  have g1 := copy_good hit fuel h key h1 k' hc hk lk e2
  have lm := lt_of_some hm
  refine ⟨k', ?_, ?_⟩
  · simp [List.getElem?_set, Nat.lt_of_lt_of_le lm g1.ext.len]
  · intro g hg
    refine g1.same g ⟨fun x a b => ?_, hg.2⟩
    rw [hg.1 x a (by simpa using b)]
    have : m ≠ x := by omega
    simp [List.getElem?_set, this]

/-- C25: inserting never changes anything but the map itself. -/
theorem C25_insert_changes_only_map (hit : Nat → Nat → Bool) (fuel : Nat) (h h' : Heap)
    (m key val : Nat) (hc : Closed h) (hk : KeysSep h) (lk : key < h.length)
    (hr : mapInsert hit (fun h => hash h fuel) (copy hit fuel) h m key val = .ok h') :
    ∀ x, x < h.length → x ≠ m → h'[x]? = h[x]? := by
  unfold mapInsert at hr
  obtain ⟨o, hm, hr⟩ := Exec.bind_eq_ok.mp hr
  cases o <;> simp only [reduceCtorEq] at hr
  next es =>
  obtain ⟨_, -, hr⟩ := Exec.bind_eq_ok.mp hr
  obtain ⟨o, e1, hr⟩ := Exec.bind_eq_ok.mp hr
  intro x hx ne
  cases o with
  | some i =>
    simp only [] at hr
    cases q : es[i]? with
    | none => rw [q] at hr; cases hr
    | some e =>
      rw [q] at hr; cases hr
      simp [List.getElem?_set, Ne.symm ne]
  | none =>
    obtain ⟨⟨h1, k'⟩, e2, hr⟩ := Exec.bind_eq_ok.mp hr
    cases hr
    have g1 := copy_good hit fuel h key h1 k' hc hk lk e2
    simp [List.getElem?_set, Ne.symm ne, g1.ext.old x hx]

/-- Using the list `[true, [true]]` as a key of an empty map: a copy of both lists is made, and the
hypotheses of `C25_key_copied` hold. -/
example : mapInsert (fun _ _ => true) (fun h => hash h 3) (copy (fun _ _ => true) 3)
      [.bool true, .list [0], .list [0, 1], .map []] 3 2 0 =
    .ok [.bool true, .list [0], .list [0, 1], .map [(4, 0)], .list [0, 5], .list [0]] ∧
    KeysSep [.bool true, .list [0], .list [0, 1], .map []] := by
  refine ⟨by decide, ?_⟩
  intro r es hr
  have := lt_of_some hr
  simp at this
  match r with
  | 0 | 1 | 2 => simp at hr
  | 3 => simp at hr; subst hr; exact .nil
  | n + 4 => omega

end Noja.Graph
