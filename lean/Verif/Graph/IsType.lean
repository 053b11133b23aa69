import Verif.Graph.Eq
import Verif.Graph.Print

/-! # C23: type assertions -/

namespace Noja.Graph

set_option linter.unusedSimpArgs false

/-! ## Specification -/

/-- Two keys are equal in the sense of ==. -/
def KeyEq (h : Heap) (k k' : Nat) : Prop := compare h k k' = .ok true

/-- The documented meaning of "`v` is a `t`". -/
inductive IsA (h : Heap) : Nat → Nat → Prop
  | type (t v : Nat) (k : Kind) (o : Obj) (ht : h[t]? = some (.type k)) (hv : h[v]? = some o)
      (hk : o.kind = k) : IsA h t v
  | any (t v : Nat) (ht : h[t]? = some .any) : IsA h t v
  | nullNone (t v i : Nat) (ht : h[t]? = some (.nullable i)) (hv : h[v]? = some .none) : IsA h t v
  | nullSome (t v i : Nat) (ht : h[t]? = some (.nullable i)) (hi : IsA h i v) : IsA h t v
  | sumL (t v a b : Nat) (ht : h[t]? = some (.sum a b)) (hi : IsA h a v) : IsA h t v
  | sumR (t v a b : Nat) (ht : h[t]? = some (.sum a b)) (hi : IsA h b v) : IsA h t v
  | list (t v : Nat) (ts vs : List Nat) (ht : h[t]? = some (.list ts)) (hv : h[v]? = some (.list vs))
      (hl : ts.length = vs.length)
      (hi : ∀ (i a b : Nat), ts[i]? = some a → vs[i]? = some b → IsA h a b) : IsA h t v
  | map (t v : Nat) (es fs : List (Nat × Nat)) (ht : h[t]? = some (.map es))
      (hv : h[v]? = some (.map fs)) (hl : es.length = fs.length) (k' : Nat → Nat) (b : Nat → Nat)
      (hf : ∀ k a, (k, a) ∈ es → (k' k, b k) ∈ fs ∧ KeyEq h k (k' k))
      (hi : ∀ k a, (k, a) ∈ es → IsA h a (b k)) : IsA h t v

/-- The (type, value) pairs that meet when `v` is checked against `t`. -/
inductive Paired (h : Heap) (t v : Nat) : Nat → Nat → Prop
  | root : Paired h t v t v
  | null (a b i : Nat) (p : Paired h t v a b) (ha : h[a]? = some (.nullable i)) : Paired h t v i b
  | sumL (a b x y : Nat) (p : Paired h t v a b) (ha : h[a]? = some (.sum x y)) : Paired h t v x b
  | sumR (a b x y : Nat) (p : Paired h t v a b) (ha : h[a]? = some (.sum x y)) : Paired h t v y b
  | item (a b : Nat) (ts vs : List Nat) (i x y : Nat) (p : Paired h t v a b)
      (ha : h[a]? = some (.list ts)) (hb : h[b]? = some (.list vs)) (hx : ts[i]? = some x)
      (hy : vs[i]? = some y) : Paired h t v x y
  | entry (a b : Nat) (es fs : List (Nat × Nat)) (k k' x y : Nat) (p : Paired h t v a b)
      (ha : h[a]? = some (.map es)) (hb : h[b]? = some (.map fs)) (hx : (k, x) ∈ es)
      (hy : (k', y) ∈ fs) (hk : KeyEq h k k') : Paired h t v x y

/-- Wherever a list meets a list, or a map a map, they have the same size. -/
def SameSizes (h : Heap) (t v : Nat) : Prop :=
  ∀ a b, Paired h t v a b →
    (∀ ts vs, h[a]? = some (.list ts) → h[b]? = some (.list vs) → ts.length = vs.length) ∧
    (∀ es fs, h[a]? = some (.map es) → h[b]? = some (.map fs) → es.length = fs.length)

/-- Map keys are of types with equality, and the keys of one map are pairwise different. -/
def KeysOK (h : Heap) : Prop :=
  ∀ (r : Nat) es, h[r]? = some (.map es) →
    (∀ e ∈ es, ∃ o, h[e.1]? = some o ∧ HasEq o) ∧
    es.Pairwise (fun e f => ¬ KeyEq h e.1 f.1)

/-- The hash table finds equal keys. -/
def Complete (hit : Nat → Nat → Bool) (h : Heap) : Prop := ∀ k k', KeyEq h k k' → hit k k' = true

/-! ## Proof -/

theorem opEql_total {h : Heap} (hs : StringsOK h) {a b : Nat} {x y : Obj} (ha : h[a]? = some x)
    (hb : h[b]? = some y) : opEql x y = .err ∨ ∃ c, opEql x y = .ok c := by
  cases x <;> cases y <;> simp only [opEql] <;> simp
  obtain ⟨s1, f1⟩ := hs _ _ ha
  obtain ⟨s2, f2⟩ := hs _ _ hb
  obtain ⟨r, hr, -⟩ := str_eql f1 f2
  cases r
  · exact .inr (.inl hr)
  · exact .inr (.inr hr)

theorem compare_total {h : Heap} (hs : StringsOK h) {a b : Nat} (ha : a < h.length)
    (hb : b < h.length) : compare h a b = .err ∨ ∃ c, compare h a b = .ok c := by
  have e1 := List.getElem?_eq_getElem ha
  have e2 := List.getElem?_eq_getElem hb
  rw [compare_eq e1 e2]
  split
  · exact .inr ⟨false, rfl⟩
  · exact opEql_total hs e1 e2

theorem compare_hasEq {h : Heap} (hs : StringsOK h) (ho : OpaqueOK h) {a b : Nat} {x y : Obj}
    (ha : h[a]? = some x) (hb : h[b]? = some y) (hx : HasEq x) : ∃ c, compare h a b = .ok c := by
  rw [compare_eq ha hb]
  by_cases k : x.kind = y.kind
  · rw [if_neg (by simpa using k)]
    rcases opEql_total hs ha hb with e | e
    · exfalso
      cases x <;> simp [HasEq, Obj.kind] at hx <;> cases y <;> simp [Obj.kind] at k <;>
        simp [opEql] at e
      case str s t =>
        obtain ⟨s1, f1⟩ := hs _ _ ha
        obtain ⟨s2, f2⟩ := hs _ _ hb
        obtain ⟨r, hr, -⟩ := str_eql f1 f2
        rw [hr] at e; cases e
      all_goals
        first
        | (rcases ho _ _ hb with e | e | e | e | e | e <;> simp [e] at k; done)
        | (rcases ho _ _ ha with e | e | e | e | e | e <;> simp [e] at hx; done)
    · exact e
  · rw [if_pos (by simpa using k)]; exact ⟨false, rfl⟩

theorem lookup_total {hit : Nat → Nat → Bool} {h : Heap} (hs : StringsOK h) {key : Nat}
    (hk : key < h.length) : ∀ (es : List (Nat × Nat)) (e : Bool), (∀ x ∈ es, x.1 < h.length) →
    ∃ o e', lookup hit h key es e = .ok (o, e') ∧ ∀ v, o = some v → ∃ k, (k, v) ∈ es := by
  intro es
  induction es with
  | nil => intro e _; exact ⟨none, e, rfl, by simp⟩
  | cons x es ih =>
    intro e hx
    obtain ⟨k, v⟩ := x
    have ih' : ∀ e : Bool, ∃ o e', lookup hit h key es e = .ok (o, e') ∧
        ∀ w, o = some w → ∃ k', (k', w) ∈ (k, v) :: es := by
      intro e
      obtain ⟨o, e', h1, h2⟩ := ih e (fun x m => hx x (by simp [m]))
      refine ⟨o, e', h1, fun w hw => ?_⟩
      obtain ⟨k', hk'⟩ := h2 w hw
      exact ⟨k', by simp [hk']⟩
    unfold lookup
    by_cases q : hit key k = true
    · rw [if_pos q]
      rcases compare_total hs hk (hx (k, v) (by simp)) with c | ⟨c, hc⟩
      · rw [c]; exact ⟨none, true, rfl, by simp⟩
      · simp only [] at hc
        rw [hc]
        cases c with
        | true => exact ⟨some v, e, rfl, fun w hw => ⟨k, by simp at hw; simp [hw]⟩⟩
        | false =>
          cases e with
          | true => exact ⟨none, true, rfl, by simp⟩
          | false => exact ih' false
    · rw [if_neg q]
      exact ih' e

theorem lookup_spec {hit : Nat → Nat → Bool} {h : Heap} (hs : StringsOK h) (ho : OpaqueOK h)
    (hh : Complete hit h) {key : Nat} {x : Obj} (hk : h[key]? = some x) (hx : HasEq x) :
    ∀ (es : List (Nat × Nat)), (∀ y ∈ es, y.1 < h.length) →
    ∃ o, lookup hit h key es false = .ok (o, false) ∧
      (∀ v, o = some v → ∃ k, (k, v) ∈ es ∧ KeyEq h key k) ∧
      (o = none → ∀ k v, (k, v) ∈ es → ¬ KeyEq h key k) := by
  intro es
  induction es with
  | nil => intro _; exact ⟨none, rfl, by simp, by simp⟩
  | cons y es ih =>
    intro hy
    obtain ⟨k, v⟩ := y
    obtain ⟨o, h1, h2, h3⟩ := ih (fun y m => hy y (by simp [m]))
    obtain ⟨c, hc⟩ := compare_hasEq hs ho hk (List.getElem?_eq_getElem (hy (k, v) (by simp))) hx
    simp only [] at hc
    have rest : c = false → ∃ o, lookup hit h key es false = .ok (o, false) ∧
        (∀ w, o = some w → ∃ k', (k', w) ∈ (k, v) :: es ∧ KeyEq h key k') ∧
        (o = none → ∀ k' w, (k', w) ∈ (k, v) :: es → ¬ KeyEq h key k') := by
      intro hcf
      refine ⟨o, h1, fun w hw => ?_, fun hn k' w m => ?_⟩
      · obtain ⟨k', hk', hq⟩ := h2 w hw
        exact ⟨k', by simp [hk'], hq⟩
      · simp at m
        rcases m with ⟨rfl, rfl⟩ | m
        · intro q; unfold KeyEq at q; rw [hc, hcf] at q; cases q
        · exact h3 hn k' w m
    unfold lookup
    by_cases q : hit key k = true
    · rw [if_pos q, hc]
      cases c with
      | true =>
        exact ⟨some v, rfl, fun w hw => ⟨k, by simp at hw; simp [hw], hc⟩, by simp⟩
      | false => exact rest rfl
    · rw [if_neg q]
      refine rest ?_
      cases c with
      | false => rfl
      | true => exact absurd (hh key k hc) q

theorem isTypeOf_succ (hit : Nat → Nat → Bool) {h : Heap} {n t v : Nat} {e : Bool} {ot ov : Obj}
    (ht : h[t]? = some ot) (hv : h[v]? = some ov) :
    isTypeOf hit h (n + 1) e t v = typeBody (isTypeOf hit h n) hit h e v ov ot := by
  have : isTypeOf hit h (n + 1) e t v = (rd h t >>= fun ot => rd h v >>= fun ov =>
    typeBody (isTypeOf hit h n) hit h e v ov ot) := (rfl)
  rw [this, rd_ok_iff.mpr ht, Exec.bind_ok, rd_ok_iff.mpr hv, Exec.bind_ok]

theorem itemsOf_total (f : Bool → Nat → Nat → Exec (Bool × Bool)) :
    ∀ (ts vs : List Nat) (e : Bool), (∀ t ∈ ts, ∀ v ∈ vs, ∀ e, ∃ r, f e t v = .ok r) →
      ∃ r, itemsOf f ts vs e = .ok r := by
  intro ts
  induction ts with
  | nil => intro vs e _; exact ⟨_, rfl⟩
  | cons t ts ih =>
    intro vs e hf
    cases vs with
    | nil => exact ⟨_, rfl⟩
    | cons v vs =>
      unfold itemsOf
      obtain ⟨⟨b, e'⟩, hr⟩ := hf t (by simp) v (by simp) e
      rw [hr, Exec.bind_ok]
      cases b with
      | true => exact ih vs e' (fun t ht v hv e => hf t (by simp [ht]) v (by simp [hv]) e)
      | false => exact ⟨_, rfl⟩

theorem entriesOf_total (f : Bool → Nat → Nat → Exec (Bool × Bool))
    (look : Nat → Bool → Exec (Option Nat × Bool)) (fs : List Nat) :
    ∀ (es : List (Nat × Nat)) (e : Bool),
      (∀ x ∈ es, ∀ e, ∃ o e', look x.1 e = .ok (o, e') ∧ ∀ v, o = some v → v ∈ fs) →
      (∀ x ∈ es, ∀ v ∈ fs, ∀ e, ∃ r, f e x.2 v = .ok r) →
      ∃ r, entriesOf f look es e = .ok r := by
  intro es
  induction es with
  | nil => intro e _ _; exact ⟨_, rfl⟩
  | cons x es ih =>
    intro e hl hf
    obtain ⟨k, t⟩ := x
    unfold entriesOf
    obtain ⟨o, e', h1, h2⟩ := hl (k, t) (by simp) e
    simp only [] at h1
    rw [h1, Exec.bind_ok]
    cases o with
    | none => exact ⟨_, rfl⟩
    | some v =>
      obtain ⟨⟨b, e''⟩, hr⟩ := hf (k, t) (by simp) v (h2 v rfl) e'
      simp only [] at hr ⊢
      rw [hr, Exec.bind_ok]
      cases b with
      | true => exact ih e'' (fun x m => hl x (by simp [m])) (fun x m => hf x (by simp [m]))
      | false => exact ⟨_, rfl⟩

theorem mem_children_map {es : List (Nat × Nat)} {k v : Nat} (h : (k, v) ∈ es) :
    k ∈ children (.map es) ∧ v ∈ children (.map es) := by
  simp only [children, List.mem_flatMap]
  exact ⟨⟨(k, v), h, by simp⟩, ⟨(k, v), h, by simp⟩⟩

theorem isTypeOf_total (hit : Nat → Nat → Bool) (h : Heap) (hc : Closed h) (hs : StringsOK h) :
    ∀ (k : Nat) (fl : Nat → Bool) (t : Nat), t < h.length → free h.length fl ≤ k →
      (∀ x, fl x = true → Reaches h x t) → Acyclic h t →
      ∀ (n : Nat), k < n → ∀ v, v < h.length → ∀ e, ∃ r, isTypeOf hit h n e t v = .ok r := by
  intro k
  induction k with
  | zero =>
    intro fl t ht hk hfl hac
    exfalso
    cases hf : fl t with
    | true => exact hac.1 (hfl t hf)
    | false =>
      have := free_set h.length fl t hf
      rw [if_pos ht] at this; omega
  | succ k ih =>
    intro fl t ht hk hfl hac n hn v hv e
    obtain ⟨m, rfl⟩ : ∃ m, n = m + 1 := ⟨n - 1, by omega⟩
    have hf : fl t = false := by
      cases hf : fl t with
      | true => exact absurd (hfl t hf) hac.1
      | false => rfl
    have hfree := free_set h.length fl t hf
    rw [if_pos ht] at hfree
    have et := List.getElem?_eq_getElem ht
    have ev := List.getElem?_eq_getElem hv
    have hch : ∀ c, c ∈ children h[t] → ∀ w, w < h.length → ∀ e, ∃ r, isTypeOf hit h m e c w = .ok r := by
      intro c hcc w hw e
      have re : Reaches h t c := .edge t c _ et hcc
      refine ih (setFlag fl t true) c (hc t _ et c hcc) (by omega) ?_
        ⟨hac.2 c re, fun x hx => hac.2 x (.trans _ _ _ re hx)⟩ m (by omega) w hw e
      intro x hx
      unfold setFlag at hx
      by_cases q : x = t
      · rw [q]; exact re
      · rw [if_neg q] at hx
        exact .trans _ _ _ (hfl x hx) re
    rw [isTypeOf_succ hit et ev]
    cases hot : h[t] with
    | nullable i =>
      simp only [typeBody]
      by_cases q : h[v].kind = .none
      · rw [if_pos q]; exact ⟨_, rfl⟩
      · rw [if_neg q]; exact hch i (by simp [hot, children]) v hv e
    | sum a b =>
      simp only [typeBody]
      obtain ⟨⟨r, e'⟩, h1⟩ := hch a (by simp [hot, children]) v hv e
      rw [h1, Exec.bind_ok]
      cases r with
      | true => exact ⟨_, rfl⟩
      | false => exact hch b (by simp [hot, children]) v hv e'
    | list ts =>
      simp only [typeBody]
      cases hov : h[v] with
      | list vs =>
        refine itemsOf_total _ _ _ _ (fun t' ht' v' hv' e => hch t' (by simpa [hot, children] using ht') v' ?_ e)
        exact hc v _ ev v' (by simpa [hov, children] using hv')
      | _ => exact ⟨_, rfl⟩
    | map es =>
      simp only [typeBody]
      cases hov : h[v] with
      | map fs =>
        refine entriesOf_total _ _ (fs.map (·.2)) _ _ ?_ ?_
        · intro x hx e
          have hx1 := hc t _ et x.1 (by rw [hot]; exact (mem_children_map hx).1)
          obtain ⟨o, e', h1, h2⟩ := lookup_total (hit := hit) hs hx1 fs e
            (fun y hy => hc v _ ev y.1 (by rw [hov]; exact (mem_children_map hy).1))
          refine ⟨o, e', h1, fun w hw => ?_⟩
          obtain ⟨k', hk'⟩ := h2 w hw
          exact List.mem_map.mpr ⟨_, hk', rfl⟩
        · intro x hx w hw e
          obtain ⟨y, hy, rfl⟩ := List.mem_map.mp hw
          exact hch x.2 (by rw [hot]; exact (mem_children_map hx).2) y.2
            (hc v _ ev y.2 (by rw [hov]; exact (mem_children_map hy).2)) e
      | _ => exact ⟨_, rfl⟩
    | _ => exact ⟨_, rfl⟩

/-- What is to be shown of one recursive call. -/
def Right (h : Heap) (f : Bool → Nat → Nat → Exec (Bool × Bool)) (t v : Nat) : Prop :=
  ∀ b e, f false t v = .ok (b, e) → e = false ∧ (b = true ↔ IsA h t v)

theorem itemsOf_right {h : Heap} (f : Bool → Nat → Nat → Exec (Bool × Bool)) :
    ∀ (ts vs : List Nat), ts.length = vs.length →
      (∀ (i x y : Nat), ts[i]? = some x → vs[i]? = some y → Right h f x y) →
      ∀ b e, itemsOf f ts vs false = .ok (b, e) → e = false ∧
        (b = true ↔ ∀ (i x y : Nat), ts[i]? = some x → vs[i]? = some y → IsA h x y) := by
  intro ts
  induction ts with
  | nil =>
    intro vs hl _ b e hr
    unfold itemsOf at hr; cases hr
    exact ⟨rfl, by simp⟩
  | cons t ts ih =>
    intro vs hl hf b e hr
    cases vs with
    | nil => simp at hl
    | cons v vs =>
      unfold itemsOf at hr
      obtain ⟨⟨b1, e1⟩, h1, hr⟩ := Exec.bind_eq_ok.mp hr
      obtain ⟨rfl, hb1⟩ := hf 0 t v rfl rfl b1 e1 h1
      cases b1 with
      | true =>
        obtain ⟨he, hb⟩ := ih vs (by simpa using hl)
          (fun i x y hx hy => hf (i + 1) x y (by simpa using hx) (by simpa using hy)) b e hr
        refine ⟨he, hb.trans ⟨?_, ?_⟩⟩
        · intro hall i x y hx hy
          cases i with
          | zero => simp at hx hy; subst hx; subst hy; exact hb1.mp rfl
          | succ i => exact hall i x y (by simpa using hx) (by simpa using hy)
        · intro hall i x y hx hy
          exact hall (i + 1) x y (by simpa using hx) (by simpa using hy)
      | false =>
        cases hr
        refine ⟨rfl, by simp, ?_⟩
        intro hall
        exact absurd (hb1.mpr (hall 0 t v rfl rfl)) (by simp)

theorem entriesOf_right {h : Heap} (f : Bool → Nat → Nat → Exec (Bool × Bool))
    (look : Nat → Bool → Exec (Option Nat × Bool)) (fs : List (Nat × Nat))
    (huniq : ∀ k k1 k2 v1 v2, (k1, v1) ∈ fs → (k2, v2) ∈ fs → KeyEq h k k1 → KeyEq h k k2 → v1 = v2) :
    ∀ (es : List (Nat × Nat)),
      (∀ x ∈ es, ∃ o, look x.1 false = .ok (o, false) ∧
        (∀ v, o = some v → ∃ k, (k, v) ∈ fs ∧ KeyEq h x.1 k) ∧
        (o = none → ∀ k v, (k, v) ∈ fs → ¬ KeyEq h x.1 k)) →
      (∀ k x k' y, (k, x) ∈ es → (k', y) ∈ fs → KeyEq h k k' → Right h f x y) →
      ∀ b e, entriesOf f look es false = .ok (b, e) → e = false ∧
        (b = true ↔ ∀ k x, (k, x) ∈ es → ∃ k' y, (k', y) ∈ fs ∧ KeyEq h k k' ∧ IsA h x y) := by
  intro es
  induction es with
  | nil =>
    intro _ _ b e hr
    unfold entriesOf at hr; cases hr
    exact ⟨rfl, by simp⟩
  | cons x es ih =>
    intro hl hf b e hr
    obtain ⟨k, t⟩ := x
    unfold entriesOf at hr
    obtain ⟨o, h1, h2, h3⟩ := hl (k, t) (by simp)
    simp only [] at h1
    rw [h1, Exec.bind_ok] at hr
    cases o with
    | none =>
      cases hr
      refine ⟨rfl, by simp, ?_⟩
      intro hall
      obtain ⟨k', y, m, q, -⟩ := hall k t (by simp)
      exact absurd q (h3 rfl k' y m)
    | some v =>
      obtain ⟨k', m, q⟩ := h2 v rfl
      simp only [] at hr q
      obtain ⟨⟨b1, e1⟩, h4, hr⟩ := Exec.bind_eq_ok.mp hr
      obtain ⟨rfl, hb1⟩ := hf k t k' v (by simp) m q b1 e1 h4
      cases b1 with
      | true =>
        obtain ⟨he, hb⟩ := ih (fun x m => hl x (by simp [m]))
          (fun k x k' y hx hy => hf k x k' y (by simp [hx]) hy) b e hr
        refine ⟨he, hb.trans ⟨?_, ?_⟩⟩
        · intro hall k2 x2 m2
          simp at m2
          rcases m2 with ⟨rfl, rfl⟩ | m2
          · exact ⟨k', v, m, q, hb1.mp rfl⟩
          · exact hall k2 x2 m2
        · intro hall k2 x2 m2
          exact hall k2 x2 (by simp [m2])
      | false =>
        cases hr
        refine ⟨rfl, by simp, ?_⟩
        intro hall
        obtain ⟨k2, y2, m2, q2, i2⟩ := hall k t (by simp)
        have : y2 = v := huniq k k2 k' y2 v m2 m q2 q
        subst this
        exact absurd (hb1.mpr i2) (by simp)

theorem pairwise_uniq {h : Heap} (hs : StringsOK h) (hc : Closed h) {r : Nat} {fs : List (Nat × Nat)}
    (hr : h[r]? = some (.map fs)) (hp : fs.Pairwise (fun e f => ¬ KeyEq h e.1 f.1))
    (k k1 k2 v1 v2 : Nat) (hk : k < h.length) (m1 : (k1, v1) ∈ fs) (m2 : (k2, v2) ∈ fs)
    (q1 : KeyEq h k k1) (q2 : KeyEq h k k2) : v1 = v2 := by
  have l1 := hc r _ hr k1 (mem_children_map m1).1
  have l2 := hc r _ hr k2 (mem_children_map m2).1
  have q12 : KeyEq h k1 k2 := by
    have := C22_symmetric hs k k1 hk l1
    exact C22_transitive hs (this ▸ q1) q2
  have q21 : KeyEq h k2 k1 := by
    unfold KeyEq; rw [C22_symmetric hs k2 k1 l2 l1]; exact q12
  obtain ⟨i, hi, ei⟩ := List.mem_iff_getElem.mp m1
  obtain ⟨j, hj, ej⟩ := List.mem_iff_getElem.mp m2
  rw [List.pairwise_iff_getElem] at hp
  rcases Nat.lt_trichotomy i j with l | l | l
  · have := hp i j hi hj l
    rw [ei, ej] at this; exact absurd q12 this
  · subst l; rw [ei] at ej; cases ej; rfl
  · have := hp j i hj hi l
    rw [ei, ej] at this; exact absurd q21 this

theorem isTypeOf_right (hit : Nat → Nat → Bool) (h : Heap) (hc : Closed h) (hs : StringsOK h)
    (ho : OpaqueOK h) (hk : KeysOK h) (hh : Complete hit h) (t0 v0 : Nat) (hz : SameSizes h t0 v0) :
    ∀ (n t v : Nat), t < h.length → v < h.length → Paired h t0 v0 t v →
      Right h (isTypeOf hit h n) t v := by
  intro n
  induction n with
  | zero => intro t v _ _ _ b e hr; cases hr
  | succ n ih =>
    intro t v ht hv hp b e hr
    have et := List.getElem?_eq_getElem ht
    have ev := List.getElem?_eq_getElem hv
    rw [isTypeOf_succ hit et ev] at hr
    cases hot : h[t] with
    | type k =>
      rw [hot] at hr et
      simp only [typeBody] at hr
      cases hr
      refine ⟨rfl, ?_⟩
      rw [decide_eq_true_eq]
      constructor
      · intro q; exact .type t v k _ et ev q
      · intro q
        cases q <;> simp_all
    | any =>
      rw [hot] at hr et
      cases hr
      exact ⟨rfl, by simp; exact .any t v et⟩
    | nullable i =>
      rw [hot] at hr et
      simp only [typeBody] at hr
      have hi : i < h.length := hc t _ et i (by simp [children])
      by_cases q : h[v].kind = .none
      · rw [if_pos q] at hr
        cases hr
        have hn : h[v] = .none := by
          cases q' : h[v] with
          | none => rfl
          | «opaque» k =>
            rw [q'] at q
            rcases ho _ _ (ev.trans (congrArg some q')) with e | e | e | e | e | e <;>
              simp [e, Obj.kind] at q
          | _ => simp [q', Obj.kind] at q
        exact ⟨rfl, ⟨fun _ => .nullNone t v i et (by rw [ev, hn]), fun _ => rfl⟩⟩
      · rw [if_neg q] at hr
        obtain ⟨he, hb⟩ := ih i v hi hv (.null t v i hp et) b e hr
        refine ⟨he, hb.trans ⟨fun x => .nullSome t v i et x, ?_⟩⟩
        intro x
        cases x <;> simp_all [Obj.kind]
    | sum x y =>
      rw [hot] at hr et
      simp only [typeBody] at hr
      have hx : x < h.length := hc t _ et x (by simp [children])
      have hy : y < h.length := hc t _ et y (by simp [children])
      obtain ⟨⟨b1, e1⟩, h1, hr⟩ := Exec.bind_eq_ok.mp hr
      obtain ⟨rfl, hb1⟩ := ih x v hx hv (.sumL t v x y hp et) b1 e1 h1
      cases b1 with
      | true =>
        cases hr
        exact ⟨rfl, ⟨fun _ => .sumL t v x y et (hb1.mp rfl), fun _ => rfl⟩⟩
      | false =>
        obtain ⟨he, hb⟩ := ih y v hy hv (.sumR t v x y hp et) b e hr
        refine ⟨he, hb.trans ⟨fun q => .sumR t v x y et q, ?_⟩⟩
        intro q
        cases q <;> simp_all
    | list ts =>
      rw [hot] at hr et
      simp only [typeBody] at hr
      have no : (∀ vs, h[v] ≠ .list vs) → ¬ IsA h t v := by
        intro hne q
        cases q <;> simp_all
      cases hov : h[v] with
      | list vs =>
        rw [hov] at hr ev
        simp only [] at hr
        have hl := (hz t v hp).1 ts vs et ev
        obtain ⟨he, hb⟩ := itemsOf_right (h := h) (isTypeOf hit h n) ts vs hl
          (fun i x y hx hy => ih x y
            (hc t _ et x (by simp only [children]; exact List.mem_of_getElem? hx))
            (hc v _ ev y (by simp only [children]; exact List.mem_of_getElem? hy))
            (.item t v ts vs i x y hp et ev hx hy)) b e hr
        refine ⟨he, hb.trans ⟨fun q => .list t v ts vs et ev hl q, ?_⟩⟩
        intro q
        cases q with
        | list _ _ ts' vs' ht' hv' hl' hi' =>
          rw [et] at ht'; cases ht'
          rw [ev] at hv'; cases hv'
          exact hi'
        | _ => simp_all
      | _ =>
        rw [hov] at hr
        cases hr
        exact ⟨rfl, by simp; exact no (by simp [hov])⟩
    | map es =>
      rw [hot] at hr et
      simp only [typeBody] at hr
      have no : (∀ vs, h[v] ≠ .map vs) → ¬ IsA h t v := by
        intro hne q
        cases q <;> simp_all
      cases hov : h[v] with
      | map fs =>
        rw [hov] at hr ev
        simp only [] at hr
        have hl := (hz t v hp).2 es fs et ev
        have hfk : ∀ y ∈ fs, y.1 < h.length := fun y hy => hc v _ ev y.1 (mem_children_map hy).1
        have hek : ∀ y ∈ es, y.1 < h.length := fun y hy => hc t _ et y.1 (mem_children_map hy).1
        obtain ⟨he, hb⟩ := entriesOf_right (h := h) (isTypeOf hit h n)
          (fun k e => lookup hit h k fs e) fs
          (fun k k1 k2 v1 v2 m1 m2 q1 q2 => by
            have : k < h.length := by
              obtain ⟨x, y, hx, -⟩ := compare_true q1
              exact (List.getElem?_eq_some_iff.mp hx).1
            exact pairwise_uniq hs hc ev (hk v fs ev).2 k k1 k2 v1 v2 this m1 m2 q1 q2) es
          (fun x hx => by
            obtain ⟨o, h1, h2⟩ := (hk t es et).1 x hx
            exact lookup_spec hs ho hh h1 h2 fs hfk)
          (fun k x k' y hx hy hq => ih x y (hc t _ et x (mem_children_map hx).2)
            (hc v _ ev y (mem_children_map hy).2) (.entry t v es fs k k' x y hp et ev hx hy hq)) b e hr
        refine ⟨he, hb.trans ⟨fun q => ?_, ?_⟩⟩
        · have q' : ∀ k, ∃ z : Nat × Nat, ∀ x, (k, x) ∈ es →
              ((z.1, z.2) ∈ fs ∧ KeyEq h k z.1) ∧ IsA h x z.2 := by
            intro k
            by_cases m : ∃ x, (k, x) ∈ es
            · obtain ⟨x, hx⟩ := m
              obtain ⟨k', y, m1, m2, m3⟩ := q k x hx
              refine ⟨(k', y), fun x' hx' => ⟨⟨m1, m2⟩, ?_⟩⟩
              have : x' = x := by
                -- the keys of `es` are pairwise different
                obtain ⟨o, ho1, ho2⟩ := (hk t es et).1 _ hx
                have hkk : KeyEq h k k ∨ x' = x := by
                  by_cases nan : ∃ bits, o = .float bits ∧ isNaN bits = true
                  · obtain ⟨bits, rfl, hn⟩ := nan
                    exfalso
                    obtain ⟨x1, y1, e1, e2, e3, e4⟩ := compare_true m2
                    simp only [] at ho1
                    rw [ho1] at e1; cases e1
                    cases y1 <;> simp [opEql] at e4
                    unfold floatEq at e4; simp [hn] at e4
                  · left
                    refine C22_reflexive hs ho ho1 ho2 ?_
                    intro bits hbits
                    cases hn : isNaN bits with
                    | false => rfl
                    | true => exact absurd ⟨bits, hbits, hn⟩ nan
                rcases hkk with hkk | hkk
                · exact pairwise_uniq hs hc et (hk t es et).2 k k k x' x (hek _ hx) hx' hx hkk hkk
                · exact hkk
              rw [this]; exact m3
            · exact ⟨(0, 0), fun x hx => absurd ⟨x, hx⟩ m⟩
          obtain ⟨z, hz'⟩ := Classical.axiomOfChoice q'
          exact .map t v es fs et ev hl (fun k => (z k).1) (fun k => (z k).2)
            (fun k a m => (hz' k a m).1) (fun k a m => (hz' k a m).2)
        · intro q
          cases q with
          | map _ _ es' fs' ht' hv' hl' k' b' hf' hi' =>
            rw [et] at ht'; cases ht'
            rw [ev] at hv'; cases hv'
            intro k x m
            exact ⟨k' k, b' k, (hf' k x m).1, (hf' k x m).2, hi' k x m⟩
          | _ => simp_all
      | _ =>
        rw [hov] at hr
        cases hr
        exact ⟨rfl, by simp; exact no (by simp [hov])⟩
    | _ =>
      rw [hot] at hr et
      cases hr
      refine ⟨rfl, by simp; intro q; cases q <;> simp_all⟩

/-- C23, the full property, for types that do not contain themselves: the check ends, reports no
error and answers whether the value is of the type. -/
def C23Statement : Prop :=
  ∀ (hit : Nat → Nat → Bool) (h : Heap), Closed h → StringsOK h → OpaqueOK h → KeysOK h →
    Complete hit h → ∀ t v, t < h.length → v < h.length → Acyclic h t →
    ∀ fuel, h.length < fuel →
      ∃ b, isTypeOf hit h fuel false t v = .ok (b, false) ∧ (b = true ↔ IsA h t v)

/-- C23 when the lists and maps that meet have the same sizes.  Missing: lists of different lengths
and maps with different numbers of entries, which the code gets wrong (see the refutations). -/
theorem C23_istypeof_partial (hit : Nat → Nat → Bool) (h : Heap) (hc : Closed h) (hs : StringsOK h)
    (ho : OpaqueOK h) (hk : KeysOK h) (hh : Complete hit h) (t v : Nat) (ht : t < h.length)
    (hv : v < h.length) (ha : Acyclic h t) (hz : SameSizes h t v) (fuel : Nat)
    (hf : h.length < fuel) :
    ∃ b, isTypeOf hit h fuel false t v = .ok (b, false) ∧ (b = true ↔ IsA h t v) := by
  obtain ⟨⟨b, e⟩, hr⟩ := isTypeOf_total hit h hc hs h.length (fun _ => false) t ht (free_le _ _)
    (by simp) ha fuel hf v hv false
  obtain ⟨rfl, hb⟩ := isTypeOf_right hit h hc hs ho hk hh t v hz fuel t v ht hv .root b e hr
  exact ⟨b, hr, hb⟩

/-- Termination does not need the sizes to agree: checking against any type that does not contain
itself ends. -/
theorem C23_terminates (hit : Nat → Nat → Bool) (h : Heap) (hc : Closed h) (hs : StringsOK h)
    (t v : Nat) (ht : t < h.length) (hv : v < h.length) (ha : Acyclic h t) (fuel : Nat)
    (hf : h.length < fuel) (e : Bool) : ∃ r, isTypeOf hit h fuel e t v = .ok r :=
  isTypeOf_total hit h hc hs h.length (fun _ => false) t ht (free_le _ _) (by simp) ha fuel hf v hv e

/-! ### Refutations -/

theorem lt_of_get {α} {l : List α} {i : Nat} {x : α} (h : l[i]? = some x) : i < l.length :=
  (List.getElem?_eq_some_iff.mp h).1

/-- The list type `[int]` and the values `[7]` and `[7, 7]`. -/
def demo : Heap := [.type .int, .list [0], .int 7, .list [2, 2], .list [2]]

theorem demo_closed : Closed demo := by
  intro r o ho c hc
  have := lt_of_get ho
  simp [demo] at this
  match r with
  | 0 | 1 | 2 | 3 | 4 => simp [demo] at ho; subst ho; simp [children] at hc; try (simp [demo]; omega)
  | n + 5 => omega

theorem demo_noMap (r : Nat) (es : List (Nat × Nat)) : demo[r]? ≠ some (.map es) := by
  intro ho
  have := lt_of_get ho
  simp [demo] at this
  match r with
  | 0 | 1 | 2 | 3 | 4 => simp [demo] at ho
  | n + 5 => omega

theorem demo_noStr (r : Nat) (s : Str.Str) : demo[r]? ≠ some (.str s) := by
  intro ho
  have := lt_of_get ho
  simp [demo] at this
  match r with
  | 0 | 1 | 2 | 3 | 4 => simp [demo] at ho
  | n + 5 => omega

theorem demo_noOpaque (r : Nat) (k : Kind) : demo[r]? ≠ some (.opaque k) := by
  intro ho
  have := lt_of_get ho
  simp [demo] at this
  match r with
  | 0 | 1 | 2 | 3 | 4 => simp [demo] at ho
  | n + 5 => omega

theorem demo_reaches (x y : Nat) (h : Reaches demo x y) : y = 0 ∧ x = 1 ∨ y = 2 := by
  induction h with
  | edge x y o ho hc =>
    have := lt_of_get ho
    simp [demo] at this
    match x with
    | 0 | 1 | 2 | 3 | 4 => simp [demo] at ho; subst ho; simp [children] at hc <;> simp [hc]
    | n + 5 => omega
  | trans x y z _ _ ih1 ih2 => omega

theorem demo_two (y : Nat) : ¬ Reaches demo 2 y := by
  intro h
  generalize hx : 2 = x at h
  induction h with
  | edge x y o ho hc => subst hx; simp [demo] at ho; subst ho; simp [children] at hc
  | trans x y z _ _ ih1 _ => exact ih1 hx

theorem demo_acyclic : Acyclic demo 1 := by
  have h2 : ¬ Reaches demo 2 2 := demo_two 2
  refine ⟨fun h => ?_, fun x hx h => ?_⟩
  · have := demo_reaches _ _ h; omega
  · rcases demo_reaches _ _ h with ⟨a, b⟩ | a
    · omega
    · subst a; exact h2 h

/-- C23 is violated: a list type accepts longer lists (o_list.c:79 only looks at the type's items):
`istypeof([int], [7, 7])` is true. -/
theorem C23_violated : ¬ C23Statement := by
  intro hs
  obtain ⟨b, hb, hi⟩ := hs (fun _ _ => true) demo demo_closed
    (fun r s h => absurd h (demo_noStr r s)) (fun r k h => absurd h (demo_noOpaque r k))
    (fun r es h => absurd h (demo_noMap r es)) (fun _ _ _ => rfl) 1 3 (by decide) (by decide)
    demo_acyclic 6 (by decide)
  have e : isTypeOf (fun _ _ => true) demo 6 false 1 3 = .ok (true, false) := by decide
  rw [e] at hb; cases hb
  have := hi.mp rfl
  cases this with
  | list _ _ ts vs ht hv hl _ =>
    simp [demo] at ht hv
    subst ht; subst hv
    simp at hl
  | _ => simp_all [demo]

/-- A shorter list makes the check report an error: `istypeof([int, int], [7])`. -/
theorem C23_short_list_error :
    isTypeOf (fun _ _ => true) [.type .int, .list [0, 0], .int 7, .list [2]] 5 false 1 3 =
      .ok (false, true) := by decide

/-- A map type accepts maps with further entries: `istypeof({7: int}, {7: 7, 8: 8})`. -/
theorem C23_map_extra_entries :
    isTypeOf (fun _ _ => true) [.type .int, .int 7, .map [(1, 0)], .int 8, .map [(1, 1), (3, 3)]]
      6 false 2 4 = .ok (true, false) := by decide

/-- With a type and a value that contain themselves the check never ends. -/
theorem C23_cyclic_diverges (fuel : Nat) (e : Bool) :
    isTypeOf (fun _ _ => true) [.list [0]] fuel e 0 0 = .diverge := by
  induction fuel with
  | zero => rfl
  | succ n ih =>
    rw [isTypeOf_succ (ot := .list [0]) (ov := .list [0]) _ rfl rfl]
    simp only [typeBody, itemsOf, ih, Exec.bind_diverge]

/-- `istypeof([int], [7])` meets the hypotheses of `C23_istypeof_partial` and is true. -/
example : SameSizes demo 1 4 ∧ Acyclic demo 1 ∧
    isTypeOf (fun _ _ => true) demo 6 false 1 4 = .ok (true, false) := by
  refine ⟨?_, demo_acyclic, by decide⟩
  have hp : ∀ a b, Paired demo 1 4 a b → (a = 1 ∧ b = 4) ∨ (a = 0 ∧ b = 2) := by
    intro a b p
    induction p with
    | root => simp
    | null a b i p ha ih => rcases ih with ⟨rfl, rfl⟩ | ⟨rfl, rfl⟩ <;> simp [demo] at ha
    | sumL a b x y p ha ih => rcases ih with ⟨rfl, rfl⟩ | ⟨rfl, rfl⟩ <;> simp [demo] at ha
    | sumR a b x y p ha ih => rcases ih with ⟨rfl, rfl⟩ | ⟨rfl, rfl⟩ <;> simp [demo] at ha
    | entry a b es fs k k' x y p ha hb hx hy hk ih => exact absurd ha (demo_noMap _ _)
    | item a b ts vs i x y p ha hb hx hy ih =>
      rcases ih with ⟨rfl, rfl⟩ | ⟨rfl, rfl⟩
      · simp [demo] at ha hb; subst ha; subst hb
        have := lt_of_get hx
        simp at this; subst this
        simp at hx hy; omega
      · simp [demo] at ha
  intro a b p
  refine ⟨fun ts vs h1 h2 => ?_, fun es fs h1 h2 => absurd h1 (demo_noMap _ _)⟩
  rcases hp a b p with ⟨rfl, rfl⟩ | ⟨rfl, rfl⟩
  · simp [demo] at h1 h2; subst h1; subst h2; rfl
  · simp [demo] at h1

end Noja.Graph
