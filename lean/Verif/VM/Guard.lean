import Verif.VM.TablesMain

/-!
# A layer that says when tables can lose keys

The layer of `Verif.VM.Objects`, except that it is undefined when something is inserted in a map whose
keys do not meet a condition, when something that is no key is looked for in a map, or when a search
reports an error. If the condition is `few`, the watched layer of `Verif.VM.Tables` is defined wherever
this layer is (`guarded_tables`): a map that has fewer than five keys does not grow, and a map all of
whose keys have a hash that is not negative grows without losing one.
-/

set_option linter.unusedVariables false
set_option linter.unusedSimpArgs false

namespace Noja.VM

open Noja.Graph (Obj Kind Heap)

variable {α β : Type}

/-- The members of a list, once each. -/
def distinct {α : Type} [DecidableEq α] : List α → List α
  | [] => []
  | a :: l => if a ∈ l then distinct l else a :: distinct l

/-- The condition under which a map with these keys may be inserted in. -/
def few (h : Heap) (ks : List Ref) : Bool :=
  decide ((distinct (ks.map (keyAt h))).length < 5) || ks.all fun k => decide (((aops h).hash k).toNat < 2 ^ 31)

/-- Undefined if an error was reported. -/
def quiet (x : Out World α) : Out World α :=
  match x with
  | .ok w a => if w.err then .ub else .ok w a
  | .err w => if w.err then .ub else .err w
  | .ub => .ub

/-- Undefined if an error was reported or raised. -/
def silent (x : Out World α) : Out World α :=
  match x with
  | .ok w a => if w.err then .ub else .ok w a
  | _ => .ub

def insertG (C : Config) (pos : Heap → List Ref → Bool) (col key val : Ref) (w : World) : Out World Unit :=
  match w.heap[col]? with
  | some (.map es) => if isKey w.heap key && pos w.heap (es.map (·.1)) then insertObj C col key val w else .ub
  | _ => insertObj C col key val w

/-- What is searched with a key. -/
def searched (h : Heap) (col : Ref) : Bool :=
  match h[col]? with
  | some (.map _) => true
  | some (.opaque .closure) => true
  | _ => false

def nameOk (n : Name) : Bool :=
  match cstring n with
  | .ok s => isAtom (.str s)
  | _ => false

def guarded (C : Config) (pos : Heap → List Ref → Bool) : Layer World :=
  { objects C with
    isType := fun t v w => if w.err then .ub else silent ((objects C).isType t v w)
    select := fun col key w => if searched w.heap col && !isKey w.heap key then .ub else selectI C col key w
    insert := insertG C pos
    setVar := fun l n v w =>
      (outOf w (cstring n)).bind fun s w => insertG C pos l (w.alloc (.str s)).2 v (w.alloc (.str s)).1
    getVar := fun l c n w => if w.err || !nameOk n then .ub else quiet (getVar C l c n w)
    native := fun id args w => if id = 4 then (if w.err then .ub else silent (C.native id args w)) else C.native id args w }

theorem quiet_cases (x : Out World α) : quiet x = .ub ∨ quiet x = x := by
  unfold quiet
  split
  · split
    · exact .inl rfl
    · exact .inr rfl
  · split
    · exact .inl rfl
    · exact .inr rfl
  · exact .inl rfl

theorem silent_cases (x : Out World α) : silent x = .ub ∨ silent x = x := by
  unfold silent
  split
  · split
    · exact .inl rfl
    · exact .inr rfl
  · exact .inl rfl

theorem if_ub {c : Prop} [Decidable c] {x y : Out World α} (h : x = .ub ∨ x = y) : (if c then .ub else x) = .ub ∨ (if c then .ub else x) = y := by
  by_cases hc : c
  · exact .inl (if_pos hc)
  · rw [if_neg hc]; exact h

theorem insertG_cases (C : Config) (pos : Heap → List Ref → Bool) (col key val : Ref) (w : World) :
    insertG C pos col key val w = .ub ∨ insertG C pos col key val w = insertObj C col key val w := by
  unfold insertG
  split
  · split
    · exact .inr rfl
    · exact .inl rfl
  · exact .inr rfl

theorem bind_ub {x : Out World α} {f g : α → World → Out World β} (h : ∀ a w, f a w = .ub ∨ f a w = g a w) :
    x.bind f = .ub ∨ x.bind f = x.bind g := by
  cases x with
  | ok w a => exact h a w
  | err w => exact .inr rfl
  | ub => exact .inl rfl

/-- What the guarded layer does, the layer does. -/
theorem guarded_objects (C : Config) (pos : Heap → List Ref → Bool) : Refine.LRef Eq (guarded C pos) (objects C) where
  none := rfl
  tru := rfl
  fls := rfl
  pending w v h := by subst h; rfl
  int i w v h := by subst h; exact oref_eq (.inr rfl)
  float i w v h := by subst h; exact oref_eq (.inr rfl)
  str i w v h := by subst h; exact oref_eq (.inr rfl)
  un o a w v h := by subst h; exact oref_eq (.inr rfl)
  bin o a b w v h := by subst h; exact oref_eq (.inr rfl)
  asBool a w v h := by subst h; exact oref_eq (.inr rfl)
  isNone a w v h := by subst h; exact oref_eq (.inr rfl)
  isType a b w v h := by subst h; exact oref_eq (if_ub (silent_cases _))
  newList n w v h := by subst h; exact oref_eq (.inr rfl)
  newMap n w v h := by subst h; exact oref_eq (.inr rfl)
  select a b w v h := by subst h; exact oref_eq (if_ub (.inr rfl))
  insert a b c w v h := by subst h; exact oref_eq (insertG_cases C pos a b c w)
  newScope w v h := by subst h; exact oref_eq (.inr rfl)
  setVar a b c w v h := by subst h; exact oref_eq (bind_ub fun s w => insertG_cases C pos _ _ _ _)
  getVar a b c w v h := by subst h; exact oref_eq (if_ub (quiet_cases _))
  newFunc a b w v h := by subst h; exact oref_eq (.inr rfl)
  callee a w v h := by subst h; exact oref_eq (.inr rfl)
  native id args w v h := by
    subst h
    refine oref_eq ?_
    show (if id = 4 then _ else _) = _ ∨ (if id = 4 then _ else _) = _
    by_cases q : id = 4
    · rw [if_pos q]; exact if_ub (silent_cases _)
    · rw [if_neg q]; exact .inr rfl

/-! ## Reported errors stay -/

def Stays (x : Out World α) : Prop :=
  match x with
  | .ok w _ => w.err = true
  | .err w => w.err = true
  | .ub => True

/-- What is not modelled does not clear errors. -/
structure Loud (B : Config) : Prop where
  slot : ∀ t n f w, B.slot t n = some f → w.err = true → Stays (f w)
  selectX : ∀ o k w, w.err = true → Stays (B.selectX o k w)

theorem Stays.bind {x : Out World α} {f : α → World → Out World β} (h : Stays x)
    (hf : ∀ a w, w.err = true → Stays (f a w)) : Stays (x.bind f) := by
  cases x with
  | ok w a => exact hf a w h
  | err w => exact h
  | ub => trivial

variable {B : Config}

theorem Item.stays (i : Item) {w : World} (h : w.err = true) : Stays (i.value w) := by
  cases i <;> exact h

theorem stdSlot_stays (hL : Loud B) {t : Nat} {n : Name} {f : World → Out World Ref} (hf : stdSlot B t n = some f)
    {w : World} (h : w.err = true) : Stays (f w) := by
  match t, hf with
  | 0, hf =>
    have hf : (basicTable.lookup n).map Item.value = some f := hf
    cases hl : basicTable.lookup n with
    | none => rw [hl] at hf; cases hf
    | some i => rw [hl] at hf; cases hf; exact i.stays h
  | 1, hf =>
    have hf : some (((stringTable.lookup n).map Item.value).getD fun _ => .ub) = some f := hf
    cases hl : stringTable.lookup n with
    | none => rw [hl] at hf; cases hf; trivial
    | some i => rw [hl] at hf; cases hf; exact i.stays h
  | 2, hf => exact hL.slot 2 n f w hf h
  | 3, hf =>
    have hf : (mathTable.lookup n).map Item.value = some f := hf
    cases hl : mathTable.lookup n with
    | none => rw [hl] at hf; cases hf
    | some i => rw [hl] at hf; cases hf; exact i.stays h
  | 4, hf => exact hL.slot 4 n f w hf h
  | 5, hf =>
    have hf : some (((bufferTable.lookup n).map Item.value).getD fun _ => .ub) = some f := hf
    cases hl : bufferTable.lookup n with
    | none => rw [hl] at hf; cases hf; trivial
    | some i => rw [hl] at hf; cases hf; exact i.stays h
  | t + 6, hf => exact hL.slot (t + 6) n f w hf h

theorem stdSelectX_stays (hL : Loud B) (o : Obj) (key : Ref) {w : World} (h : w.err = true) : Stays ((std B).selectX o key w) := by
  cases o with
  | buffer b =>
    show Stays (bufSelect b key w)
    unfold bufSelect
    split
    · split
      · rfl
      · split
        · exact h
        · rfl
    · rfl
  | _ => exact hL.selectX _ _ _ h

theorem lookup_stays {hit : Nat → Nat → Bool} {h : Heap} {key : Nat} : ∀ (es : List (Nat × Nat)) {r : Option Nat × Bool},
    Graph.lookup hit h key es true = .ok r → r.2 = true
  | [], r, q => by cases q; rfl
  | (k, v) :: es, r, q => by
    unfold Graph.lookup at q
    split at q
    · split at q
      · cases q; rfl
      · cases q; rfl
      · cases q; rfl
      · cases q
      · cases q
    · exact lookup_stays es q

theorem selectObj_stays (hL : Loud B) : ∀ (fuel : Nat) (col key : Ref) (w : World), w.err = true →
    Stays (selectObj (std B) fuel col key w)
  | 0, _, _, _, _ => trivial
  | fuel + 1, col, key, w, h => by
    unfold selectObj
    split
    · trivial
    · split
      · split
        · rename_i v e hl
          rw [h] at hl
          exact lookup_stays _ hl
        · trivial
      · trivial
    · split
      · split
        · rfl
        · exact h
      · rfl
    · split
      · exact h
      · rfl
      · trivial
    · split
      · trivial
      · refine Stays.bind (selectObj_stays hL fuel _ key w h) fun v w h => ?_
        rw [if_pos h]
        exact h
    · split
      · exact h
      · split
        · exact h
        · rename_i f hf
          exact Stays.bind (stdSlot_stays hL hf h) fun _ w h => h
    · exact stdSelectX_stays hL _ _ h

theorem searchIn_stays (hL : Loud B) (key : Ref) : ∀ (ls : List (Option Ref)) (w : World), w.err = true →
    Stays (searchIn (std B) key ls w)
  | [], w, h => h
  | none :: ls, w, h => searchIn_stays hL key ls w h
  | some l :: ls, w, h => by
    unfold searchIn
    refine Stays.bind (selectObj_stays hL _ l key w h) fun v w h => ?_
    cases v with
    | some r => exact h
    | none => exact searchIn_stays hL key ls w h

theorem itemsOf_stays {f : Bool → Nat → Nat → Exec (Bool × Bool)} (hf : ∀ t v r, f true t v = .ok r → r.2 = true) :
    ∀ (ts vs : List Nat) {r : Bool × Bool}, Graph.itemsOf f ts vs true = .ok r → r.2 = true
  | [], _, r, q => by cases q; rfl
  | _ :: _, [], r, q => by cases q; rfl
  | t :: ts, v :: vs, r, q => by
    rw [Graph.itemsOf] at q
    obtain ⟨⟨b, e⟩, h1, h2⟩ := Exec.bind_eq_ok.1 q
    have h3 := hf t v _ h1
    dsimp only at h2 h3
    subst h3
    cases b with
    | true => exact itemsOf_stays hf ts vs h2
    | false => cases h2; rfl

theorem entriesOf_stays {f : Bool → Nat → Nat → Exec (Bool × Bool)} {look : Nat → Bool → Exec (Option Nat × Bool)}
    (hf : ∀ t v r, f true t v = .ok r → r.2 = true) (hl : ∀ k r, look k true = .ok r → r.2 = true) :
    ∀ (es : List (Nat × Nat)) {r : Bool × Bool}, Graph.entriesOf f look es true = .ok r → r.2 = true
  | [], r, q => by cases q; rfl
  | (k, t) :: es, r, q => by
    rw [Graph.entriesOf] at q
    obtain ⟨⟨v, e⟩, h1, h2⟩ := Exec.bind_eq_ok.1 q
    have h3 := hl k _ h1
    dsimp only at h2 h3
    subst h3
    cases v with
    | none => cases h2; rfl
    | some v =>
      obtain ⟨⟨b, e⟩, h1, h2⟩ := Exec.bind_eq_ok.1 h2
      have h3 := hf t v _ h1
      dsimp only at h2 h3
      subst h3
      cases b with
      | true => exact entriesOf_stays hf hl es h2
      | false => cases h2; rfl

theorem typeBody_stays {f : Bool → Nat → Nat → Exec (Bool × Bool)} {hit : Nat → Nat → Bool} {h : Heap}
    (hf : ∀ t v r, f true t v = .ok r → r.2 = true) (v : Nat) (ov ot : Obj) {r : Bool × Bool}
    (q : Graph.typeBody f hit h true v ov ot = .ok r) : r.2 = true := by
  cases ot with
  | nullable i =>
    simp only [Graph.typeBody] at q
    split at q
    · cases q; rfl
    · exact hf _ _ _ q
  | sum a b =>
    simp only [Graph.typeBody] at q
    obtain ⟨⟨b', e⟩, h1, h2⟩ := Exec.bind_eq_ok.1 q
    have h3 := hf _ _ _ h1
    dsimp only at h2 h3
    subst h3
    cases b' with
    | true => cases h2; rfl
    | false => exact hf _ _ _ h2
  | list ts =>
    simp only [Graph.typeBody] at q
    split at q
    · exact itemsOf_stays hf _ _ q
    · cases q; rfl
  | map es =>
    simp only [Graph.typeBody] at q
    split at q
    · exact entriesOf_stays hf (fun k r q => lookup_stays _ q) _ q
    · cases q; rfl
  | type k => cases q; rfl
  | any => cases q; rfl
  | _ => cases q; rfl

theorem isTypeOf_stays {hit : Nat → Nat → Bool} {h : Heap} : ∀ (fuel : Nat) (t v : Nat) (r : Bool × Bool),
    Graph.isTypeOf hit h fuel true t v = .ok r → r.2 = true
  | 0, _, _, _, q => by cases q
  | fuel + 1, t, v, r, q => by
    rw [Graph.isTypeOf] at q
    obtain ⟨ot, h1, h2⟩ := Exec.bind_eq_ok.1 q
    obtain ⟨ov, h3, h4⟩ := Exec.bind_eq_ok.1 h2
    exact typeBody_stays (isTypeOf_stays fuel) v ov ot h4

/-! ## Where the watched layer is defined -/

theorem lookT_def {C : Config} (hC : 0 < C.fuel) (hit1 : ∀ k k', C.hit k k' = true) {x : TWorld} {col key : Ref}
    {es : List (Nat × Nat)} (hh : HoldsAt x.w.heap (x.t col) es) (hk : isKey x.w.heap key = true) :
    lookT C true x col key false = Graph.lookup C.hit x.w.heap key es false ∧
      ∃ v, Graph.lookup C.hit x.w.heap key es false = .ok (v, false) := by
  have h := lookup_spec hit1 hk es hh.2
  refine ⟨?_, _, h⟩
  rcases lookT_ref hC hit1 hh (key := key) false with q | q
  · exfalso
    unfold lookT at q
    rw [if_neg (by rw [hk]; simp)] at q
    obtain ⟨⟨e, hh⟩, ha⟩ := hh
    rw [Map.select_congr hh (kops_hash hC hk) (fun p hp => kops_cmp hk (ha p hp)),
      hh.select (aops_consistent _) key _ (by unfold tfuel; rw [hh.w.size]; omega)] at q
    cases q
  · exact q

theorem itemsOf_def {f f' : Bool → Nat → Nat → Exec (Bool × Bool)} (hs : ∀ t v r, f' true t v = .ok r → r.2 = true)
    (hf : ∀ t v b, f' false t v = .ok (b, false) → f false t v = .ok (b, false)) :
    ∀ (ts vs : List Nat) {b : Bool}, Graph.itemsOf f' ts vs false = .ok (b, false) → Graph.itemsOf f ts vs false = .ok (b, false)
  | [], _, _, q => q
  | _ :: _, [], _, q => q
  | t :: ts, v :: vs, b, q => by
    rw [Graph.itemsOf] at q ⊢
    obtain ⟨⟨b', e⟩, h1, h2⟩ := Exec.bind_eq_ok.1 q
    dsimp only at h2
    have he : e = false := by
      cases b' with
      | false => cases h2; rfl
      | true =>
        cases e with
        | false => rfl
        | true => exact itemsOf_stays hs ts vs h2 |>.symm
    subst he
    rw [hf t v b' h1, Exec.bind_ok]
    dsimp only
    cases b' with
    | false => exact h2
    | true => exact itemsOf_def hs hf ts vs h2

theorem entriesOf_def {f f' : Bool → Nat → Nat → Exec (Bool × Bool)} {l l' : Nat → Bool → Exec (Option Nat × Bool)}
    (hs : ∀ t v r, f' true t v = .ok r → r.2 = true) (hls : ∀ k r, l' k true = .ok r → r.2 = true)
    (hf : ∀ t v b, f' false t v = .ok (b, false) → f false t v = .ok (b, false)) :
    ∀ (es : List (Nat × Nat)) {b : Bool}, (∀ p ∈ es, l p.1 false = l' p.1 false ∧ ∃ v, l' p.1 false = .ok (v, false)) →
      Graph.entriesOf f' l' es false = .ok (b, false) → Graph.entriesOf f l es false = .ok (b, false)
  | [], _, _, q => q
  | (k, t) :: es, b, hl, q => by
    rw [Graph.entriesOf] at q ⊢
    obtain ⟨h0, v, h1⟩ := hl (k, t) (List.mem_cons_self ..)
    dsimp only at h0 h1
    rw [h0, h1, Exec.bind_ok]
    rw [h1, Exec.bind_ok] at q
    cases v with
    | none => exact q
    | some v =>
      dsimp only at q ⊢
      obtain ⟨⟨b', e⟩, h1, h2⟩ := Exec.bind_eq_ok.1 q
      dsimp only at h2
      have he : e = false := by
        cases b' with
        | false => cases h2; rfl
        | true =>
          cases e with
          | false => rfl
          | true => exact entriesOf_stays hs hls es h2 |>.symm
      subst he
      rw [hf t v b' h1, Exec.bind_ok]
      dsimp only
      cases b' with
      | false => exact h2
      | true => exact entriesOf_def hs hls hf es (fun p hp => hl p (List.mem_cons_of_mem _ hp)) h2

theorem typeBody_def {f f' : Bool → Nat → Nat → Exec (Bool × Bool)} {hit hit' : Nat → Nat → Bool} (h : Heap)
    (hs : ∀ t v r, f' true t v = .ok r → r.2 = true)
    (hf : ∀ t v b, f' false t v = .ok (b, false) → f false t v = .ok (b, false)) (v : Nat) (ov ot : Obj)
    (hm : ∀ es fs, ot = .map es → ov ≠ .map fs) {b : Bool}
    (q : Graph.typeBody f' hit' h false v ov ot = .ok (b, false)) : Graph.typeBody f hit h false v ov ot = .ok (b, false) := by
  cases ot with
  | nullable i =>
    simp only [Graph.typeBody] at q ⊢
    by_cases p : ov.kind = .none
    · rw [if_pos p] at q ⊢; exact q
    · rw [if_neg p] at q ⊢; exact hf _ _ _ q
  | sum a b' =>
    simp only [Graph.typeBody] at q ⊢
    obtain ⟨⟨r, e⟩, h1, h2⟩ := Exec.bind_eq_ok.1 q
    dsimp only at h2
    have he : e = false := by
      cases r with
      | true => cases h2; rfl
      | false =>
        cases e with
        | false => rfl
        | true => exact (hs _ _ _ h2).symm
    subst he
    rw [hf _ _ _ h1, Exec.bind_ok]
    dsimp only
    cases r with
    | true => exact h2
    | false => exact hf _ _ _ h2
  | list ts =>
    simp only [Graph.typeBody] at q ⊢
    cases ov with
    | list vs => exact itemsOf_def hs hf ts vs q
    | _ => exact q
  | map es =>
    simp only [Graph.typeBody] at q ⊢
    cases ov with
    | map fs => exact absurd rfl (hm es fs rfl)
    | _ => exact q
  | _ => exact q

theorem isTypeT_def (hB : Tame B) {x : TWorld} (ht : TH x) : ∀ (fuel : Nat) (t v : Nat) (b : Bool),
    Graph.isTypeOf (std B).hit x.w.heap fuel false t v = .ok (b, false) → isTypeT (std B) true x fuel false t v = .ok (b, false)
  | 0, _, _, _, q => by cases q
  | fuel + 1, t, v, b, q => by
    rw [Graph.isTypeOf] at q
    obtain ⟨ot, h1, h2⟩ := Exec.bind_eq_ok.1 q
    obtain ⟨ov, h3, h4⟩ := Exec.bind_eq_ok.1 h2
    rw [isTypeT, h1, Exec.bind_ok, h3, Exec.bind_ok]
    unfold typeBodyT
    split
    · rename_i es fs
      refine entriesOf_def (isTypeOf_stays fuel) (fun k r q => lookup_stays _ q) (isTypeT_def hB ht fuel) es (fun p hp => ?_) h4
      exact lookT_def (C := std B) hB.fuel hB.hit (ht v _ (rd_ok_iff.mp h3)) ((ht t _ (rd_ok_iff.mp h1)).2 p hp)
    · rename_i h
      exact typeBody_def _ (isTypeOf_stays fuel) (isTypeT_def hB ht fuel) v ov ot (fun es fs h1 h2 => h es fs h1 h2) h4

theorem selectObj_keeps (hB : Tame B) : ∀ (fuel : Nat) (col key : Ref) (w : World), Kept w (selectObj (std B) fuel col key w)
  | 0, _, _, _ => trivial
  | fuel + 1, col, key, w => by
    unfold selectObj
    split
    · trivial
    · split
      · split
        · exact Keep.same rfl
        · trivial
      · trivial
    · split
      · split
        · exact Keep.same rfl
        · exact Keep.refl w
      · exact Keep.same rfl
    · split
      · exact Keep.alloc w (by exact nofun)
      · exact Keep.same rfl
      · trivial
    · split
      · trivial
      · refine Kept.bind (selectObj_keeps hB fuel _ key w) fun v w' _ => ?_
        split
        · exact Keep.refl w'
        · split
          · exact selectObj_keeps hB fuel _ key w'
          · exact Keep.refl w'
    · split
      · exact Keep.refl w
      · split
        · exact Keep.refl w
        · rename_i f hf
          exact Kept.bind (stdSlot_kept hB hf w) fun _ u _ => Kept.ok u _
    · exact stdSelectX_kept hB _ _ w

theorem Keep.isKey {w w' : World} (h : Keep w w') {k : Ref} (hk : isKey w.heap k = true) : isKey w'.heap k = true := by
  obtain ⟨o, h1, h2⟩ := isKey_iff.1 hk
  exact isKey_iff.2 ⟨o, h.keys _ _ h1 h2, h2⟩

theorem selectT_def (hB : Tame B) : ∀ (fuel : Nat) (col key : Ref) (x : TWorld), TH x → x.w.err = false →
    (searched x.w.heap col = true → isKey x.w.heap key = true) →
    selectT (std B) true fuel col key x = .ub → selectObj (std B) fuel col key x.w = .ub
  | 0, _, _, _, _, _, _, _ => rfl
  | fuel + 1, col, key, x, ht, he, hk, q => by
    cases hcol : x.w.heap[col]? with
    | none => unfold selectObj; rw [hcol]
    | some o =>
      by_cases hmap : ∃ es, o = .map es
      · obtain ⟨es, rfl⟩ := hmap
        have hk := hk (by unfold searched; rw [hcol])
        obtain ⟨h1, v, h2⟩ := lookT_def (C := std B) hB.fuel hB.hit (ht col es hcol) hk
        unfold selectT at q
        simp only [hcol] at q
        unfold selectObj
        simp only [hcol]
        cases hh : Graph.hash x.w.heap (std B).fuel key with
        | ok y =>
          rw [hh] at q
          dsimp only at q
          rw [he, h1, h2] at q
          cases q
        | _ => rfl
      · by_cases hclo : o = .opaque .closure
        · subst hclo
          have hk := hk (by unfold searched; rw [hcol])
          unfold selectT at q
          simp only [hcol] at q
          unfold selectObj
          simp only [hcol]
          cases hcl : x.w.clos col with
          | none => rfl
          | some p =>
            obtain ⟨prev, vars⟩ := p
            rw [hcl] at q
            dsimp only at q ⊢
            have href := selectT_ref hB fuel vars key x x.w ⟨rfl, ht⟩
            have ih := selectT_def hB fuel vars key x ht he (fun _ => hk)
            have hkept := selectObj_keeps hB fuel vars key x.w
            cases hs : selectT (std B) true fuel vars key x with
            | ub => rw [ih hs]; rfl
            | err u => rw [hs] at q; cases q
            | ok u v =>
              rw [hs] at q href
              obtain ⟨w', h1, h2, h3⟩ := href
              subst h2
              rw [h1]
              rw [h1] at hkept
              have q : (if u.w.err then Out.ok u none else match v, prev with
                | none, some p => selectT (std B) true fuel p key u
                | v, _ => Out.ok u v) = .ub := q
              show (if u.w.err then Out.ok u.w none else match v, prev with
                | none, some p => selectObj (std B) fuel p key u.w
                | v, _ => Out.ok u.w v) = .ub
              by_cases hue : u.w.err = true
              · rw [if_pos hue] at q; cases q
              · rw [if_neg hue] at q ⊢
                cases v with
                | some v => cases q
                | none =>
                  cases prev with
                  | none => cases q
                  | some p =>
                    exact selectT_def hB fuel p key u h3 (by simpa using hue) (fun _ => Keep.isKey hkept hk) q
        · have e : selectT (std B) true (fuel + 1) col key x = up (selectObj (std B) 1 col key) x := by
            unfold selectT
            simp only [hcol]
            cases o with
            | map es => exact absurd ⟨es, rfl⟩ hmap
            | «opaque» k =>
              cases k with
              | closure => exact absurd rfl hclo
              | _ => rfl
            | _ => rfl
          have e' : selectObj (std B) (fuel + 1) col key x.w = selectObj (std B) 1 col key x.w := by
            simp only [selectObj]
            split
            · rfl
            · rfl
            · rfl
            · rfl
            · rename_i h; rw [hcol] at h; cases h; exact absurd rfl hclo
            · rfl
            · rfl
          rw [e] at q
          rw [e']
          unfold up at q
          cases hz : selectObj (std B) 1 col key x.w with
          | ub => rfl
          | ok w a => rw [hz] at q; cases q
          | err w => rw [hz] at q; cases q

theorem quiet_stays {x : Out World α} (h : Stays x) : quiet x = .ub := by
  unfold quiet
  cases x with
  | ok w a => exact if_pos h
  | err w => exact if_pos h
  | ub => rfl

theorem searchInT_def (hB : Tame B) (hL : Loud B) (key : Ref) : ∀ (ls : List (Option Ref)) (x : TWorld), TH x →
    x.w.err = false → isKey x.w.heap key = true → searchInT (std B) true key ls x = .ub →
    Stays (searchIn (std B) key ls x.w)
  | [], x, _, _, _, q => by cases q
  | none :: ls, x, ht, he, hk, q => searchInT_def hB hL key ls x ht he hk q
  | some l :: ls, x, ht, he, hk, q => by
    unfold searchInT at q
    unfold searchIn
    have href := selectT_ref hB (selFuel x.w) l key x x.w ⟨rfl, ht⟩
    have hd := selectT_def hB (selFuel x.w) l key x ht he (fun _ => hk)
    have hkept := selectObj_keeps hB (selFuel x.w) l key x.w
    cases hs : selectT (std B) true (selFuel x.w) l key x with
    | ub => rw [hd hs]; trivial
    | err u => rw [hs] at q; cases q
    | ok u v =>
      rw [hs] at q href
      obtain ⟨w', h1, h2, h3⟩ := href
      subst h2
      rw [h1] at hkept ⊢
      cases v with
      | some r => cases q
      | none =>
        have q : searchInT (std B) true key ls u = .ub := q
        show Stays (searchIn (std B) key ls u.w)
        cases hue : u.w.err with
        | true => exact searchIn_stays hL key ls u.w hue
        | false => exact searchInT_def hB hL key ls u h3 hue (Keep.isKey hkept hk) q

/-! ## Growth -/

section
variable {γ : Type} [DecidableEq γ]

theorem mem_distinct {a : γ} : ∀ {l : List γ}, a ∈ distinct l ↔ a ∈ l
  | [] => Iff.rfl
  | b :: l => by
    unfold distinct
    by_cases h : b ∈ l
    · rw [if_pos h, mem_distinct, List.mem_cons]
      exact ⟨.inr, fun q => q.elim (fun q => by rw [q]; exact h) id⟩
    · rw [if_neg h, List.mem_cons, List.mem_cons, mem_distinct]

theorem distinct_nodup : ∀ (l : List γ), (distinct l).Nodup
  | [] => List.nodup_nil
  | b :: l => by
    unfold distinct
    by_cases h : b ∈ l
    · rw [if_pos h]; exact distinct_nodup l
    · rw [if_neg h, List.nodup_cons]
      exact ⟨fun q => h (mem_distinct.1 q), distinct_nodup l⟩

theorem distinct_of_nodup : ∀ {l : List γ}, l.Nodup → distinct l = l
  | [], _ => rfl
  | b :: l, h => by
    rw [List.nodup_cons] at h
    unfold distinct
    rw [if_neg h.1, distinct_of_nodup h.2]

theorem length_le_of_subset : ∀ {l m : List γ}, l.Nodup → (∀ a ∈ l, a ∈ m) → l.length ≤ m.length
  | [], m, _, _ => Nat.zero_le _
  | b :: l, m, hn, hs => by
    rw [List.nodup_cons] at hn
    have hb := hs b (List.mem_cons_self ..)
    have ih := length_le_of_subset (l := l) (m := m.erase b) hn.2 fun a ha => by
      refine (List.mem_erase_of_ne fun q => hn.1 (by rw [← q]; exact ha)).2 (hs a (List.mem_cons_of_mem _ ha))
    rw [List.length_erase_of_mem hb] at ih
    have := List.length_pos_of_mem hb
    simp only [List.length_cons]
    omega

theorem distinct_le {l m : List γ} (hs : ∀ a ∈ l, a ∈ m) : (distinct l).length ≤ (distinct m).length :=
  length_le_of_subset (distinct_nodup l) fun a ha => mem_distinct.2 (hs a (mem_distinct.1 ha))
end

end Noja.VM
