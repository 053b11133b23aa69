import Verif.VM.Move.Table
import Verif.VM.Move.World
import Verif.VM.TablesMain

/-!
# The layer with the tables under other names
-/

set_option linter.unusedVariables false
set_option linter.unusedSimpArgs false

namespace Noja.VM.Move

open Noja.Graph (Obj Kind Heap Text text)
open Noja.VM.Book (All2)

variable {α β γ δ : Type} {ρ : Ref → Ref → Prop} {N : Nat}

/-- The same world, with its tables, under other names. -/
structure TR (ρ : Ref → Ref → Prop) (N : Nat) (x y : TWorld) : Prop where
  w : WR ρ N x.w y.w
  tab : ∀ (a b : Ref) (es : List (Ref × Ref)), ρ a b → x.w.heap[a]? = some (.map es) → MR ρ (x.t a) (y.t b)
  /-- the entries of the maps of the second world are those of their tables -/
  held : ∀ (b : Ref) (es : List (Ref × Ref)), y.w.heap[b]? = some (.map es) → Tidy (y.t b) ∧ es = Map.entries (y.t b)

variable {x y : TWorld}

theorem TR.keep (h : TR ρ N x y) {w v : World} (hw : WR ρ N w v) (kx : Keep x.w w) (ky : Keep y.w v) : TR ρ N ⟨w, x.t⟩ ⟨v, y.t⟩ where
  w := hw
  tab a b es r q := h.tab a b es r (kx.maps a es q)
  held b es q := h.held b es (ky.maps b es q)

theorem up_rel (h : TR ρ N x y) {f g : World → Out World α} {Q : α → α → Prop} (hf : OutR (WR ρ N) Q (f x.w) (g y.w))
    (kx : Kept x.w (f x.w)) (ky : Kept y.w (g y.w)) : OutR (TR ρ N) Q (up f x) (up g y) := by
  unfold up
  revert hf kx ky
  cases f x.w <;> cases g y.w <;> first | exact fun hf kx ky => ⟨h.keep hf.1 kx ky, hf.2⟩ | exact fun hf kx ky => h.keep hf kx ky | exact fun hf _ _ => hf | exact fun hf _ _ => hf.elim

theorem TR.withErr (h : TR ρ N x y) {e e' : Bool} (he : e = e') : TR ρ N ⟨{ x.w with err := e }, x.t⟩ ⟨{ y.w with err := e' }, y.t⟩ :=
  h.keep (h.w.withErr he) (Keep.same rfl) (Keep.same rfl)

variable {B B' : Config}

theorem tfuel_rel {m m' : Map.MObj Ref Ref} (h : MR ρ m m') : tfuel m = tfuel m' := by unfold tfuel; rw [h.size]

theorem lookT_rel {C D : Config} (hf : C.fuel = D.fuel) (h : TR ρ N x y) {col col' key key' : Ref} {es : List (Ref × Ref)}
    (rc : ρ col col') (hm : x.w.heap[col]? = some (.map es)) (rk : ρ key key') (e : Bool) :
    ExR (fun p q => Opt2 ρ p.1 q.1 ∧ p.2 = q.2) (lookT C false x col key e) (lookT D false y col' key' e) := by
  have hr := h.tab col col' es rc hm
  have hs := select_rel (kops_rel hf h.w.heap e) hr rk (tfuel (x.t col))
  unfold lookT
  rw [if_neg (by rw [Bool.false_and]; decide), if_neg (by rw [Bool.false_and]; decide)]
  rw [tfuel_rel hr] at hs ⊢
  revert hs
  cases Map.select (kops C x.w.heap e) (tfuel (y.t col')) (x.t col) key <;>
    cases Map.select (kops D y.w.heap e) (tfuel (y.t col')) (y.t col') key' <;>
    first | exact fun q => ⟨q, rfl⟩ | exact fun q => q.elim | exact fun q => trivial | exact fun _ => ⟨trivial, rfl⟩

theorem selectT_rel (R : Ren ρ N) (hC : CR ρ N (std B) (std B')) (hB : Tame B) (hB' : Tame B') : ∀ (fuel : Nat) (col key col' key' : Ref)
    (x y : TWorld), TR ρ N x y → ρ col col' → ρ key key' →
      OutR (TR ρ N) (Opt2 ρ) (selectT (std B) false fuel col key x) (selectT (std B') false fuel col' key' y)
  | 0, _, _, _, _, _, _, _, _, _ => trivial
  | fuel + 1, col, key, col', key', x, y, h, rc, rk => by
    have hother : (∀ es, x.w.heap[col]? ≠ some (.map es)) → x.w.heap[col]? ≠ some (.opaque .closure) →
        (∀ es, y.w.heap[col']? ≠ some (.map es)) → y.w.heap[col']? ≠ some (.opaque .closure) →
        OutR (TR ρ N) (Opt2 ρ) (up (selectObj (std B) 1 col key) x) (up (selectObj (std B') 1 col' key') y) :=
      fun h1 h2 h3 h4 => up_rel h (selectObj_rel R hC 1 col key col' key' x.w y.w h.w rc rk) (selectObj_kept hB key x.w h1 h2)
        (selectObj_kept hB' key' y.w h3 h4)
    unfold selectT
    rcases h.w.obj rc with ⟨h1, h2⟩ | ⟨o, o', h1, h2, ho⟩
    · rw [h1, h2] at hother ⊢
      exact hother nofun nofun nofun nofun
    · cases ho with
      | map he =>
        rw [h1, h2]
        dsimp only
        rw [hC.fuel, hash_rel h.w.heap _ _ _ rk, h.w.err]
        cases Graph.hash y.w.heap (std B').fuel key' with
        | ok _ =>
          dsimp only
          have hl := lookT_rel hC.fuel h rc h1 rk y.w.err
          revert hl
          cases lookT (std B) false x col key y.w.err <;> cases lookT (std B') false y col' key' y.w.err <;>
            first | exact fun q => ⟨h.withErr q.2, q.1⟩ | exact fun q => q.elim | exact fun q => trivial
        | _ => trivial
      | «opaque» k =>
        cases k with
        | closure =>
          rw [h1, h2]
          dsimp only
          have hc := h.w.clos col col' rc
          revert hc
          cases x.w.clos col with
          | none =>
            cases y.w.clos col' with
            | none => exact fun _ => trivial
            | some _ => exact fun q => q.elim
          | some p =>
            cases y.w.clos col' with
            | none => exact fun q => q.elim
            | some p' =>
              obtain ⟨prev, vars⟩ := p
              obtain ⟨prev', vars'⟩ := p'
              intro q
              refine (selectT_rel R hC hB hB' fuel vars key vars' key' x y h q.2 rk).bind fun a b x y h hab => ?_
              rw [h.w.err]
              by_cases he : y.w.err = true
              · rw [if_pos he, if_pos he]; exact ⟨h, trivial⟩
              · rw [if_neg he, if_neg he]
                cases a with
                | some a =>
                  cases b with
                  | none => exact hab.elim
                  | some b => exact ⟨h, hab⟩
                | none =>
                  cases b with
                  | some b => exact hab.elim
                  | none =>
                    have q1 : Opt2 ρ prev prev' := q.1
                    cases prev with
                    | none =>
                      cases prev' with
                      | none => exact ⟨h, trivial⟩
                      | some _ => exact q1.elim
                    | some p =>
                      cases prev' with
                      | none => exact q1.elim
                      | some p' => exact selectT_rel R hC hB hB' fuel p key p' key' x y h q1 rk
        | _ =>
          rw [h1, h2] at hother ⊢
          exact hother nofun nofun nofun nofun
      | _ =>
        rw [h1, h2] at hother ⊢
        exact hother nofun nofun nofun nofun

/-- A map in the heap is not static. -/
theorem map_ge {w : World} {r : Ref} {es : List (Ref × Ref)} (h : w.heap[r]? = some (.map es)) : statics.length ≤ r := by
  refine Nat.le_of_not_lt fun hr => ?_
  unfold World.heap at h
  rw [List.getElem?_append_left hr] at h
  have : Obj.map es ∈ statics := List.mem_of_getElem? h
  unfold statics at this
  rcases List.mem_append.1 this with q | q
  · simp at q
  · obtain ⟨k, _, q⟩ := List.mem_map.1 q
    cases q

/-- A map is given another table. -/
theorem TR.setTable (R : Ren ρ N) (hN : statics.length ≤ N) (h : TR ρ N x y) {col col' : Ref} (rc : ρ col col') {es es' : List (Ref × Ref)}
    (h1 : x.w.heap[col]? = some (.map es)) (h2 : y.w.heap[col']? = some (.map es')) {m m' : Map.MObj Ref Ref} (hm : MR ρ m m')
    (ht : Tidy m') :
    TR ρ N ⟨x.w.withHeap (x.w.heap.set col (.map (Map.entries m))), VM.setTable x.t col m⟩
      ⟨y.w.withHeap (y.w.heap.set col' (.map (Map.entries m'))), VM.setTable y.t col' m'⟩ := by
  have e1 : (x.w.withHeap (x.w.heap.set col (.map (Map.entries m)))).heap = x.w.heap.set col (.map (Map.entries m)) := heap_set (map_ge h1)
  have e2 : (y.w.withHeap (y.w.heap.set col' (.map (Map.entries m')))).heap = y.w.heap.set col' (.map (Map.entries m')) := heap_set (map_ge h2)
  have l1 := (List.getElem?_eq_some_iff.1 h1).1
  have l2 := (List.getElem?_eq_some_iff.1 h2).1
  constructor
  · refine h.w.withHeap R hN (h.w.heap.set R rc (.map (entries_rel hm))) ?_
    exact Opq.set (Opq.refl _) _ fun k q => by rw [h2] at q; cases q
  · intro a b fs r q
    dsimp only at q ⊢
    rw [e1] at q
    unfold VM.setTable
    by_cases qa : a = col
    · subst qa
      have := R.one _ _ _ r rc
      subst this
      rw [if_pos rfl, if_pos rfl]
      exact hm
    · have qb : b ≠ col' := by
        rintro rfl
        exact qa (R.two _ _ _ r rc)
      rw [if_neg qa, if_neg qb]
      rw [List.getElem?_set_ne (Ne.symm qa)] at q
      exact h.tab a b fs r q
  · intro b fs q
    dsimp only at q ⊢
    rw [e2] at q
    unfold VM.setTable
    by_cases qb : b = col'
    · subst qb
      rw [List.getElem?_set_self l2] at q
      cases q
      rw [if_pos rfl]
      exact ⟨ht, rfl⟩
    · rw [if_neg qb]
      rw [List.getElem?_set_ne (Ne.symm qb)] at q
      exact h.held b fs q

theorem insertT_rel (R : Ren ρ N) (hN : statics.length ≤ N) (hC : CR ρ N (std B) (std B')) (hB : Tame B) (hB' : Tame B')
    {col key val col' key' val' : Ref} (h : TR ρ N x y) (rc : ρ col col') (rk : ρ key key') (rv : ρ val val') :
    OutR (TR ρ N) (fun _ _ => True) (insertT (std B) false col key val x) (insertT (std B') false col' key' val' y) := by
  have hother : (∀ es, x.w.heap[col]? ≠ some (.map es)) → (∀ es, y.w.heap[col']? ≠ some (.map es)) →
      OutR (TR ρ N) (fun _ _ => True) (up (insertObj (std B) col key val) x) (up (insertObj (std B') col' key' val') y) :=
    fun h1 h2 => up_rel h (insertObj_rel R hN hC h.w rc rk rv) (insertObj_kept hB key val x.w h1) (insertObj_kept hB' key' val' y.w h2)
  unfold insertT
  rcases h.w.obj rc with ⟨h1, h2⟩ | ⟨o, o', h1, h2, ho⟩
  · rw [h1, h2] at hother ⊢
    exact hother nofun nofun
  · cases ho with
    | @map es es' he =>
      rw [h1, h2]
      dsimp only
      have hgo : OutR (TR ρ N) (fun _ _ => True)
          (match Graph.hash x.w.heap (std B).fuel key with
            | .ok _ =>
              match Map.insert (kops (std B) x.w.heap false) (tfuel (x.t col)) (x.t col) key val with
              | .ok m => Out.ok (TWorld.mk (x.w.withHeap (x.w.heap.set col (.map (Map.entries m)))) (setTable x.t col m)) ()
              | .err => .err x
              | _ => .ub
            | _ => .ub)
          (match Graph.hash y.w.heap (std B').fuel key' with
            | .ok _ =>
              match Map.insert (kops (std B') y.w.heap false) (tfuel (y.t col')) (y.t col') key' val' with
              | .ok m => Out.ok (TWorld.mk (y.w.withHeap (y.w.heap.set col' (.map (Map.entries m)))) (setTable y.t col' m)) ()
              | .err => .err y
              | _ => .ub
            | _ => .ub) := by
        have hr := h.tab col col' es rc h1
        have hs := insert_rel (kops_rel hC.fuel h.w.heap false) hr rk rv (tfuel (x.t col))
        rw [tfuel_rel hr] at hs ⊢
        rw [hC.fuel, hash_rel h.w.heap _ _ _ rk]
        cases Graph.hash y.w.heap (std B').fuel key' with
        | ok _ =>
          dsimp only
          revert hs
          cases Map.insert (kops (std B) x.w.heap false) (tfuel (y.t col')) (x.t col) key val with
          | ok m =>
            cases hi : Map.insert (kops (std B') y.w.heap false) (tfuel (y.t col')) (y.t col') key' val' with
            | ok m' => exact fun hm => ⟨h.setTable R hN rc h1 h2 hm (insert_tidy hi (h.held col' es' h2).1), trivial⟩
            | _ => exact fun q => q.elim
          | _ =>
            cases Map.insert (kops (std B') y.w.heap false) (tfuel (y.t col')) (y.t col') key' val' <;>
              first | exact fun q => q.elim | exact fun _ => h | exact fun _ => trivial
        | _ => trivial
      rcases h.w.obj rk with ⟨k1, k2⟩ | ⟨o, o', k1, k2, ho⟩
      · rw [k1, k2]
        exact hgo
      · rw [k1, k2]
        cases ho <;> first | trivial | exact hgo
    | _ =>
      rw [h1, h2] at hother ⊢
      exact hother nofun nofun

theorem newMapT_rel (R : Ren ρ N) (num : Int) (h : TR ρ N x y) : OutR (TR ρ N) ρ (newMapT num x) (newMapT num y) := by
  unfold newMapT
  have hm := newMap_rel (ρ := ρ) (num.toNat + 1) num
  revert hm
  cases hn : (Map.newMap (num.toNat + 1) num : Exec (Map.MObj Ref Ref)) with
  | ok m =>
    intro hm
    have hnext := h.w.next R (.map []) (.map [])
    refine ⟨⟨h.w.alloc R (.map all2_nil), fun a b fs r q => ?_, fun b fs q => ?_⟩, hnext⟩
    · dsimp only at q ⊢
      unfold VM.setTable
      by_cases qa : a = (x.w.alloc (.map [])).2
      · have qb : b = (y.w.alloc (.map [])).2 := by
          rw [qa] at r
          exact R.one _ _ _ r hnext
        rw [if_pos qa, if_pos qb]
        exact hm
      · have qb : b ≠ (y.w.alloc (.map [])).2 := by
          rintro rfl
          exact qa (R.two _ _ _ r hnext)
        rw [if_neg qa, if_neg qb]
        rw [alloc_heap] at q
        refine h.tab a b fs r ?_
        rw [List.getElem?_append] at q
        split at q
        · exact q
        · rename_i hl
          have : (x.w.alloc (.map [])).2 = x.w.heap.length := rfl
          rw [this] at qa
          rw [List.getElem?_singleton, if_neg (Nat.sub_ne_zero_of_lt (Nat.lt_of_le_of_ne (Nat.le_of_not_lt hl) (Ne.symm qa)))] at q
          cases q
    · dsimp only at q ⊢
      unfold VM.setTable
      rw [alloc_heap] at q
      by_cases qb : b = (y.w.alloc (.map [])).2
      · have : (y.w.alloc (.map [])).2 = y.w.heap.length := rfl
        rw [qb, this, List.getElem?_append_right (Nat.le_refl _), Nat.sub_self] at q
        cases q
        rw [if_pos qb]
        obtain ⟨q1, q2⟩ := newMap_tidy hn
        exact ⟨q1, q2.symm⟩
      · rw [if_neg qb]
        refine h.held b fs ?_
        rw [List.getElem?_append] at q
        split at q
        · exact q
        · rename_i hl
          have : (y.w.alloc (.map [])).2 = y.w.heap.length := rfl
          rw [this] at qb
          rw [List.getElem?_singleton, if_neg (Nat.sub_ne_zero_of_lt (Nat.lt_of_le_of_ne (Nat.le_of_not_lt hl) (Ne.symm qb)))] at q
          cases q
  | _ => exact fun _ => trivial

theorem searchInT_rel (R : Ren ρ N) (hC : CR ρ N (std B) (std B')) (hB : Tame B) (hB' : Tame B') {key key' : Ref} (rk : ρ key key') :
    ∀ {l l' : List (Option Ref)}, All2 (Opt2 ρ) l l' → ∀ {x y : TWorld}, TR ρ N x y →
      OutR (TR ρ N) (Opt2 ρ) (searchInT (std B) false key l x) (searchInT (std B') false key' l' y)
  | [], [], _, x, y, h => ⟨h, trivial⟩
  | none :: l, none :: l', hl, x, y, h => searchInT_rel R hC hB hB' rk hl.2 h
  | some c :: l, some c' :: l', hl, x, y, h => by
    unfold searchInT
    rw [selFuel_rel h.w]
    refine (selectT_rel R hC hB hB' _ _ _ _ _ _ _ h hl.1 rk).bind fun a b x y h hab => ?_
    cases a with
    | none =>
      cases b with
      | none => exact searchInT_rel R hC hB hB' rk hl.2 h
      | some _ => exact hab.elim
    | some a =>
      cases b with
      | none => exact hab.elim
      | some b => exact ⟨h, hab⟩

theorem TR.str (R : Ren ρ N) (h : TR ρ N x y) (s : Str.Str) : TR ρ N (strT s x) (strT s y) :=
  h.keep (h.w.alloc R (.str s)) (Keep.alloc _ (by exact nofun)) (Keep.alloc _ (by exact nofun))

theorem isTypeT_rel {C D : Config} (hf : C.fuel = D.fuel) (h : TR ρ N x y) : ∀ (fuel : Nat),
    TyR ρ (isTypeT C false x fuel) (isTypeT D false y fuel)
  | 0 => fun _ _ _ _ _ _ _ => rfl
  | fuel + 1 => by
    intro e t v t' v' rt rv
    refine ExR.toEq ?_
    unfold isTypeT
    refine (h.w.heap.rd rt).bind fun ot ot' ht => ?_
    rcases h.w.obj rv with ⟨h1, h2⟩ | ⟨ov, ov', h1, h2, hv⟩
    · simp only [Noja.rd, h1, h2, Exec.bind_ub]; trivial
    · have e1 : Noja.rd x.w.heap v = .ok ov := rd_ok_iff.2 h1
      have e2 : Noja.rd y.w.heap v' = .ok ov' := rd_ok_iff.2 h2
      rw [e1, e2, Exec.bind_ok, Exec.bind_ok]
      refine ExR.eq ?_
      by_cases q : ∃ es fs, ot = .map es ∧ ov = .map fs
      · obtain ⟨es, fs, rfl, rfl⟩ := q
        cases ht with
        | map ht =>
          cases hv with
          | map hv =>
            exact entriesOf_rel (isTypeT_rel hf h fuel) (fun k k' e rk => lookT_rel hf h rv h1 rk e) ht e
      · have e1 : typeBodyT (isTypeT C false x fuel) (fun k e => lookT C false x v k e) x.w.heap e v ov ot =
            Graph.typeBody (isTypeT C false x fuel) (fun _ _ => true) x.w.heap e v ov ot := by
          unfold typeBodyT
          split
          · exact absurd ⟨_, _, rfl, rfl⟩ q
          · rfl
        have q' : ¬ ∃ es fs, ot' = .map es ∧ ov' = .map fs := by
          rintro ⟨es, fs, rfl, rfl⟩
          cases ht
          cases hv
          exact q ⟨_, _, rfl, rfl⟩
        have e2 : typeBodyT (isTypeT D false y fuel) (fun k e => lookT D false y v' k e) y.w.heap e v' ov' ot' =
            Graph.typeBody (isTypeT D false y fuel) (fun _ _ => true) y.w.heap e v' ov' ot' := by
          unfold typeBodyT
          split
          · exact absurd ⟨_, _, rfl, rfl⟩ q'
          · rfl
        rw [e1, e2]
        exact typeBody_rel (fun _ _ _ _ _ _ => rfl) h.w.heap (isTypeT_rel hf h fuel) e rv hv ht

theorem isTypeIT_rel {C D : Config} (hf : C.fuel = D.fuel) (h : TR ρ N x y) {t v t' v' : Ref} (rt : ρ t t') (rv : ρ v v') :
    OutR (TR ρ N) Eq (isTypeIT C false t v x) (isTypeIT D false t' v' y) := by
  unfold isTypeIT
  rw [hf, h.w.err, isTypeT_rel hf h D.fuel y.w.err t v t' v' rt rv]
  cases isTypeT D false y D.fuel y.w.err t' v' with
  | ok r => exact ⟨h.withErr rfl, rfl⟩
  | err => exact h
  | _ => trivial

theorem tables_rel (R : Ren ρ N) (hN : statics.length ≤ N) (hC : CR ρ N (std B) (std B')) (hB : Tame B) (hB' : Tame B') :
    LayR (TR ρ N) ρ (tables (std B) false) (tables (std B') false) where
  none := R.stat 0 (by decide)
  tru := R.stat 1 (by decide)
  fls := R.stat 2 (by decide)
  noneType := typeRef_rel R .none
  pending x y h := h.w.err
  int i x y h := up_rel h ((objects_rel R hN hC).int i _ _ h.w) (Kept.mk x.w (o := .int i) (by intro q; cases q)) (Kept.mk y.w (o := .int i) (by intro q; cases q))
  float i x y h := up_rel h ((objects_rel R hN hC).float i _ _ h.w) (Kept.mk x.w (o := .float i) (by intro q; cases q)) (Kept.mk y.w (o := .float i) (by intro q; cases q))
  str i x y h := up_rel h ((objects_rel R hN hC).str i _ _ h.w) (str_kept i x.w) (str_kept i y.w)
  un o a a' x y h r := up_rel h ((objects_rel R hN hC).un o a a' _ _ h.w r) (un_kept o a x.w) (un_kept o a' y.w)
  bin o a b a' b' x y h r s := up_rel h ((objects_rel R hN hC).bin o a b a' b' _ _ h.w r s) (bin_kept o a b x.w) (bin_kept o a' b' y.w)
  asBool a a' x y h r := up_rel h ((objects_rel R hN hC).asBool a a' _ _ h.w r) (asBool_kept a x.w) (asBool_kept a' y.w)
  typeOf a a' x y h r := up_rel h ((objects_rel R hN hC).typeOf a a' _ _ h.w r)
    (Kept.bind (kindOf_kept a x.w) fun _ u _ => Kept.ok u _) (Kept.bind (kindOf_kept a' y.w) fun _ u _ => Kept.ok u _)
  isType a b a' b' x y h r s := isTypeIT_rel hC.fuel h r s
  newList i x y h := up_rel h ((objects_rel R hN hC).newList i _ _ h.w) (Kept.mk x.w (o := .list []) (by intro q; cases q))
    (Kept.mk y.w (o := .list []) (by intro q; cases q))
  newMap i x y h := newMapT_rel R i h
  select a b a' b' x y h r s := by
    show OutR (TR ρ N) ρ (selectIT (std B) false a b x) (selectIT (std B') false a' b' y)
    unfold selectIT
    rw [selFuel_rel h.w]
    refine (selectT_rel R hC hB hB' _ _ _ _ _ _ _ (h.withErr rfl) r s).bind fun v v' x' y' h' hv => ?_
    refine ⟨h'.withErr h.w.err, ?_⟩
    cases v with
    | none =>
      cases v' with
      | none => exact R.stat 0 (by decide)
      | some _ => exact hv.elim
    | some _ =>
      cases v' with
      | none => exact hv.elim
      | some _ => exact hv
  insert a b c a' b' c' x y h r s t := insertT_rel R hN hC hB hB' h r s t
  newScope x y h := by exact (newMapT_rel R (-1) h :)
  setVar a n c a' c' x y h r s := by
    show OutR (TR ρ N) (fun _ _ => True) (setVarT (std B) false a n c x) (setVarT (std B') false a' n c' y)
    unfold setVarT
    refine (up_rel h (h.w.outOf (ExR.eq rfl)) (Kept.outOf _ _) (Kept.outOf _ _)).bind fun s s' x y h q => ?_
    subst q
    exact insertT_rel R hN hC hB hB' (h.str R s) r (h.w.next R _ _) (by assumption)
  getVar a c n a' c' x y h r s := by
    show OutR (TR ρ N) ρ (getVarT (std B) false a c n x) (getVarT (std B') false a' c' n y)
    unfold getVarT
    refine (up_rel h (h.w.outOf (ExR.eq rfl)) (Kept.outOf _ _) (Kept.outOf _ _)).bind fun t t' x y h q => ?_
    subst q
    refine (searchInT_rel R hC hB hB' (h.w.next R _ _) (l := [some a, c, (std B).builtins]) (l' := [some a', c', (std B').builtins])
      ⟨r, s, hC.builtins, trivial⟩ (h.str R t)).bind fun v v' x y h hv => ?_
    cases v with
    | none =>
      cases v' with
      | none => exact h
      | some _ => exact hv.elim
    | some _ =>
      cases v' with
      | none => exact hv.elim
      | some _ => exact ⟨h, hv⟩
  newFunc c a c' a' x y h r s := up_rel h ((objects_rel R hN hC).newFunc c a c' a' _ _ h.w r s) (newFunc_kept c a x.w) (newFunc_kept c' a' y.w)
  callee a a' x y h r := up_rel h ((objects_rel R hN hC).callee a a' _ _ h.w r) (callee_kept a x.w) (callee_kept a' y.w)
  native i a a' x y h r := by
    show OutR (TR ρ N) (NResR ρ) (nativeT (std B) false i a x) (nativeT (std B') false i a' y)
    have hother : OutR (TR ρ N) (NResR ρ) (up ((std B).native i a) x) (up ((std B').native i a') y) :=
      up_rel h (hC.native i a a' _ _ r h.w) (stdNative_kept hB i a x.w) (stdNative_kept hB' i a' y.w)
    by_cases q : i = 4 ∧ a.length = 2
    · obtain ⟨rfl, q⟩ := q
      match a, a', r, q with
      | [t, v], [t', v'], r, _ =>
        refine (isTypeIT_rel hC.fuel h r.1 r.2.1).bind fun b b' x y h q => ?_
        subst q
        exact ⟨h, ⟨boolRef_rel R b, trivial⟩⟩
    · have hl := All2.length r
      have e1 : nativeT (std B) false i a x = up ((std B).native i a) x := by
        unfold nativeT
        split
        · exact absurd ⟨rfl, rfl⟩ q
        · rfl
      have e2 : nativeT (std B') false i a' y = up ((std B').native i a') y := by
        unfold nativeT
        split
        · exact absurd ⟨rfl, hl⟩ q
        · rfl
      rw [e1, e2]
      exact hother

end Noja.VM.Move
