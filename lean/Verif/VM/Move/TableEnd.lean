import Verif.VM.Move.TableLayer
import Verif.VM.Move.End
import Verif.VM.TablesEnd

/-!
# C91, with the tables that maps have

The collections of `Verif.VM.Move.Collect` on a machine whose maps have the tables of o_map.c. A
collection copies the table of a map byte by byte, except for the references in it (o_map.c:193-215):
what is free stays free, and the entries keep their places, so no key has to be looked for anew.
-/

set_option linter.unusedVariables false
set_option linter.unusedSimpArgs false

namespace Noja.VM.Move

open Noja.Graph (Obj Kind Heap Text text)
open Noja.VM.Book (All2 bare bareStatus noTable worldT Based bootT clientT pluggedT watchedT)

variable {ρ : Ref → Ref → Prop} {N : Nat} {fwd : Nat → Option Nat}

/-- The tables after a collection (heap.c:344-419, o_map.c:193-215). -/
def movedTables (len : Nat) (fwd : Nat → Option Nat) (t : Ref → Map.MObj Ref Ref) (r : Ref) : Map.MObj Ref Ref :=
  match backRef len fwd r with
  | some a => renTable (fwdRef len fwd) (t a)
  | none => noTable

def movedStateT (fwd : Nat → Option Nat) (s : St TWorld) : St TWorld where
  w := ⟨(movedState fwd (bare s)).w, movedTables s.w.w.heap.length fwd s.w.t⟩
  funcs := (movedState fwd (bare s)).funcs
  exes := (movedState fwd (bare s)).exes
  stack := (movedState fwd (bare s)).stack
  frames := (movedState fwd (bare s)).frames

/-- The collector takes one state, with these builtins, to another one. -/
def CollectsT (b : Option Ref) (s : St TWorld) (b' : Option Ref) (s' : St TWorld) : Prop :=
  ∃ (S : Shape) (size n : Nat) (rs : List (Option Gc.Ref)) (g : Gc.GS),
    (∀ r, S.mapperSize r = (s.w.t r).mapperSize) ∧
    (∀ a, Gc.Reach (gheap S s.w.w) (roots b (bare s)) a → ∀ o rooms, (gheap S s.w.w)[a]? = some (o, rooms) → Gc.RoomOk o.exts rooms) ∧
    (gheap S s.w.w).length < n ∧
    Gc.collectAll (gheap S s.w.w) n (roots b (bare s)) (Gc.start size) = .ok (rs, g) ∧ g.failed = false ∧
    b' = b.map (fwdRef s.w.w.heap.length g.fwd) ∧ s' = movedStateT g.fwd s

theorem bare_rel {s t : St TWorld} (h : StR (TR ρ N) ρ s t) : StR (WR ρ N) ρ (bare s) (bare t) :=
  ⟨h.w.w, h.funcs, h.exes, h.stack, h.frames⟩

theorem bareStatus_rel {s t : Status TWorld} (h : StatusR (TR ρ N) ρ s t) : StatusR (WR ρ N) ρ (bareStatus s) (bareStatus t) := by
  cases s <;> cases t <;> first | exact h.elim | exact bare_rel h | exact ⟨h.1, bare_rel h.2⟩ | trivial

theorem after_slots {len : Nat} {l l' : List (Option Ref)} (h : All2 (Opt2 ρ) l l') (hv : ∀ r, some r ∈ l' → Live len fwd r) :
    All2 (Opt2 (after ρ len fwd)) l (l'.map (Option.map (fwdRef len fwd))) := by
  induction l' generalizing l with
  | nil =>
    cases l with
    | nil => trivial
    | cons a l => exact h.elim
  | cons b l' ih =>
    cases l with
    | nil => exact h.elim
    | cons a l =>
      exact ⟨after_opt h.1 fun r q => hv r (by rw [q]; exact List.mem_cons_self ..), ih h.2 fun r hr => hv r (List.mem_cons_of_mem _ hr)⟩

/-- What is a map after the collection was one before. -/
theorem moved_map {w : World} {r : Ref} {es : List (Ref × Ref)} (h : (movedWorld fwd w).heap[r]? = some (.map es)) :
    ∃ a es', backRef w.heap.length fwd r = some a ∧ w.heap[a]? = some (.map es') ∧
      es = es'.map fun e => (fwdRef w.heap.length fwd e.1, fwdRef w.heap.length fwd e.2) := by
  obtain ⟨d, rfl⟩ := Nat.exists_eq_add_of_le (map_ge h)
  rw [heap_dyn] at h
  have h : ((List.range w.dyn.length).map fun d =>
    match (backRef w.heap.length fwd (statics.length + d)).bind fun a => w.heap[a]? with
    | some o => renObj (fwdRef w.heap.length fwd) o
    | none => .none)[d]? = some (.map es) := h
  rw [List.getElem?_map] at h
  obtain ⟨i, hi, hm⟩ := Option.map_eq_some_iff.1 h
  clear h
  have hi : i = d := by
    obtain ⟨_, hi⟩ := List.getElem?_eq_some_iff.1 hi
    rw [List.getElem_range] at hi
    exact hi.symm
  subst hi
  cases hb : backRef w.heap.length fwd (statics.length + i) with
  | none => rw [hb] at hm; cases hm
  | some a =>
    rw [hb] at hm
    have h : (match w.heap[a]? with
      | some o => renObj (fwdRef w.heap.length fwd) o
      | none => .none) = Obj.map es := hm
    cases ho : w.heap[a]? with
    | none => rw [ho] at h; cases h
    | some o =>
      rw [ho] at h
      cases o with
      | map es' =>
        cases h
        exact ⟨a, es', rfl, ho, rfl⟩
      | _ => cases h

/-- A collection only gives other names. -/
theorem collectsT_rel {b0 b b' : Option Ref} {s0 s s' : St TWorld} (hc : CollectsT b s b' s') (R : Ren ρ N)
    (h : StR (TR ρ N) ρ s0 s) (hb : Opt2 ρ b0 b) :
    ∃ ρ' N', Ren ρ' N' ∧ statics.length ≤ N' ∧ StR (TR ρ' N') ρ' s0 s' ∧ Opt2 ρ' b0 b' := by
  obtain ⟨S, size, n, rs, g, -, hroom, hn, hcol, hf, rfl, rfl⟩ := hc
  obtain ⟨F, hr⟩ := forwards (s := bare s) hroom hn hcol hf
  have hs := state_after F hr R (bare_rel h)
  have hl : s.w.w.heap.length = statics.length + s.w.w.dyn.length := heap_length s.w.w
  refine ⟨after ρ s.w.w.heap.length g.fwd, s.w.w.heap.length, ren_moved F R (bare_rel h).w, by rw [heap_length]; exact Nat.le_add_right _ _,
    ⟨⟨hs.w, ?_, ?_⟩, hs.funcs, hs.exes, hs.stack, hs.frames⟩, builtins_after hr hb⟩
  · rintro a c es ⟨x, h1, h2, rfl⟩ hm
    have ht := h.w.tab a x es h1 hm
    show MR _ _ (movedTables s.w.w.heap.length g.fwd s.w.t (fwdRef s.w.w.heap.length g.fwd x))
    unfold movedTables
    rw [back_fwd F hl h2]
    have hy : ∃ es', s.w.w.heap[x]? = some (.map es') := by
      rcases h.w.w.obj h1 with ⟨q, _⟩ | ⟨o, o', q1, q2, q⟩
      · rw [hm] at q; cases q
      · rw [hm] at q1
        cases q1
        cases q with
        | map q => exact ⟨_, q2⟩
    obtain ⟨es', hy⟩ := hy
    obtain ⟨q1, q2⟩ := h.w.held x es' hy
    have hlive : ∀ r, some r ∈ (s.w.t x).keys ∨ some r ∈ (s.w.t x).vals → Live s.w.w.heap.length g.fwd r := by
      intro r q
      obtain ⟨e, he, q⟩ := q1.kids q
      rw [← q2] at he
      refine live_step hr h2 hy (map_ge hy) (kids_refs (o := .map es') ?_)
      rcases q with rfl | rfl
      · exact List.mem_append_left _ (List.mem_map_of_mem he)
      · exact List.mem_append_right _ (List.mem_map_of_mem he)
    exact ⟨ht.size, ht.count, ht.mapper, after_slots ht.keys fun r q => hlive r (.inl q), after_slots ht.vals fun r q => hlive r (.inr q)⟩
  · intro c es hm
    obtain ⟨a, es', h1, h2, rfl⟩ := moved_map hm
    obtain ⟨q1, q2⟩ := h.w.held a es' h2
    show Tidy (movedTables s.w.w.heap.length g.fwd s.w.t c) ∧ _ = Map.entries (movedTables s.w.w.heap.length g.fwd s.w.t c)
    unfold movedTables
    have h1 : backRef s.w.w.heap.length g.fwd c = some a := h1
    rw [h1]
    refine ⟨ren_tidy _ q1, ?_⟩
    dsimp only
    rw [ren_entries, ← q2]
    rfl

theorem collectsT_harmless : Harmless TR CollectsT := fun ρ N b0 b b' s0 s s' hc R h hb => collectsT_rel hc R h hb

/-! ## The interpreter -/

theorem based_builtins (b : Option Ref) : Based { Start.base with builtins := b } :=
  ⟨(by decide : 0 < Start.base.fuel), fun _ _ => rfl, fun _ _ => rfl, fun _ _ _ => rfl, fun _ _ _ => rfl, fun _ _ _ _ _ => rfl⟩

/-- The interpreter, with tables, with other builtins. -/
def confT (fl : Book.Floats) (b : Option Ref) : Layer TWorld := tables (conf fl b) false

theorem confT_family (fl : Book.Floats) : Family TR (confT fl) :=
  fun ρ N b b' R hN hb => tables_rel R hN (conf_moving fl ρ N b b' R hN hb) ((based_builtins b).tame fl) ((based_builtins b').tame fl)

/-- `Session`, with tables. -/
def SessionT (fl : Book.Floats) (cap n m : Nat) (code : List Instr) (x : Status TWorld) : Prop :=
  ∃ r u b b', GStart CollectsT (confT fl) cap 0 n (some 21) ⟨worldT, fun _ => none, [compile Start.prog], [], []⟩ b (.done [r] u) ∧
    GStart CollectsT (confT fl) cap u.exes.length m (some (newClosure b r u.w.w).2)
      ⟨⟨(newClosure b r u.w.w).1, u.w.t⟩, u.funcs, u.exes ++ [code], [], []⟩ b' x

theorem noMaps (r : Ref) (es : List (Ref × Ref)) : Start.world.heap[r]? ≠ some (.map es) := by
  intro hr
  have hm : ∀ o ∈ Start.world.heap, o.kind ≠ .map := by decide
  exact absurd rfl (hm _ (List.mem_of_getElem? hr))

theorem worldT_rel : TR Eq Start.world.heap.length worldT worldT where
  w := world_eq world_clean
  tab a b es _ h := absurd h (noMaps a es)
  held b es h := absurd h (noMaps b es)

theorem bootT_rel : StR (TR Eq Start.world.heap.length) Eq (⟨worldT, fun _ => none, [compile Start.prog], [], []⟩ : St TWorld)
    ⟨worldT, fun _ => none, [compile Start.prog], [], []⟩ :=
  ⟨worldT_rel, fun a b _ => rfl, rfl, trivial, trivial⟩

theorem sessionT_rel (fl : Book.Floats) {cap n m : Nat} {code : List Instr} {x : Status TWorld} (h : SessionT fl cap n m code x) :
    ∃ vs u, bootT fl cap n = .done vs u ∧ ∃ ρ N, Ren ρ N ∧ StatusR (TR ρ N) ρ (clientT fl cap u code m) x := by
  obtain ⟨r, u, b, b', h1, h2⟩ := h
  obtain ⟨ρ, N, R, hN, h3, hb⟩ := gstart_rel (confT_family fl) collectsT_harmless h1 (ren_eq _) (statics_le Start.world) bootT_rel
    (opt_eq (fun _ => rfl) _)
  have h3 : StatusR (TR ρ N) ρ (bootT fl cap n) (.done [r] u) := h3
  cases hboot : bootT fl cap n with
  | done vs u0 =>
    rw [hboot] at h3
    obtain ⟨rfl, hw, -⟩ := Book.bootT_result fl hboot
    refine ⟨_, _, rfl, ?_⟩
    obtain ⟨hr, hs⟩ := h3
    have hr : ρ 92 r := hr.1
    obtain ⟨c1, c2⟩ := newClosure_rel R hs.w.w hb hr
    have hcfg : clientT fl cap u0 code m = start (confT fl (some (newClosure (some 21) 92 u0.w.w).2)) cap u0.exes.length
        ⟨⟨(newClosure (some 21) 92 u0.w.w).1, u0.w.t⟩, u0.funcs, u0.exes ++ [code], [], []⟩ m := by
      unfold clientT confT conf Start.config pluggedT
      rw [plug_conf, ← hw]
      rfl
    rw [hcfg]
    have hst : StR (TR ρ N) ρ (⟨⟨(newClosure (some 21) 92 u0.w.w).1, u0.w.t⟩, u0.funcs, u0.exes ++ [code], [], []⟩ : St TWorld)
        ⟨⟨(newClosure b r u.w.w).1, u.w.t⟩, u.funcs, u.exes ++ [code], [], []⟩ :=
      ⟨hs.w.keep c1 (Book.newClosure_keep _ _ _) (Book.newClosure_keep _ _ _), hs.funcs,
        by show u0.exes ++ [code] = u.exes ++ [code]; rw [hs.exes], trivial, trivial⟩
    have hb2 : Opt2 ρ (some (newClosure (some 21) 92 u0.w.w).2) (some (newClosure b r u.w.w).2) := c2
    have he : u0.exes.length = u.exes.length := by rw [hs.exes]
    rw [he]
    obtain ⟨ρ', N', R', -, h', -⟩ := gstart_rel (confT_family fl) collectsT_harmless h2 R hN hst hb2
    exact ⟨ρ', N', R', h'⟩
  | _ => rw [hboot] at h3; exact h3.elim

/-- C91, with tables: in its whole life the interpreter does what it would do if it never collected any garbage, also
where the tables of maps lose keys. -/
theorem C91_tables_partial (fl : Book.Floats) {cap n m : Nat} {code : List Instr} {x : Status TWorld}
    (h : SessionT fl cap n m code x) :
    ∃ vs u, bootT fl cap n = .done vs u ∧ Alike fl.write (bareStatus (clientT fl cap u code m)) (bareStatus x) := by
  obtain ⟨vs, u, h1, ρ, N, R, h2⟩ := sessionT_rel fl h
  exact ⟨vs, u, h1, alike_of fl.write R (bareStatus_rel h2)⟩

/-- C90 and C91, with tables: with collections, too, a program that ends does what the book says, unless it meets a
limit or a table loses a key. -/
theorem C91_tables_book_partial (fl : Book.Floats) {cap n m : Nat} {x : Status TWorld} (p : Stmts) (hp : p.wf false = true)
    (h : SessionT fl cap n m (compile p) x) (hx : ∀ t, x ≠ .run t) (fuel : Nat) :
    (∃ t, x = .limit t) ∨ (∃ vs u, bootT fl cap n = .done vs u ∧ watchedT fl u p fuel = .ub) ∨
      EndsLike (Book.run fuel p) (bareStatus x) := by
  obtain ⟨vs, u, h1, h2⟩ := C91_tables_partial fl h
  have hk : ∀ t, clientT fl cap u (compile p) m ≠ .run t := by
    intro t q
    rw [q] at h2
    cases x with
    | run t' => exact hx t' rfl
    | _ => exact h2
  have hend : ∀ {k y}, bareStatus (clientT fl cap u (compile p) k) = y → (∀ t, y ≠ .run t) →
      bareStatus (clientT fl cap u (compile p) m) = y := by
    intro k y q hy
    refine (congrArg bareStatus ?_).trans q
    refine start_stable rfl rfl hk fun t e => ?_
    have e : clientT fl cap u (compile p) k = .run t := e
    rw [e] at q
    exact hy _ q.symm
  rcases Book.C90_tables_partial fl h1 p hp fuel with ⟨k, t, hl⟩ | hu | ⟨ha, -⟩
  · refine .inl ?_
    have e : clientT fl cap u (compile p) m = .limit t := start_stable rfl hl hk nofun
    rw [e] at h2
    cases x with
    | limit t' => exact ⟨t', rfl⟩
    | _ => exact h2.elim
  · exact .inr (.inl ⟨vs, u, h1, hu⟩)
  · refine .inr (.inr ?_)
    cases hr : Book.run fuel p with
    | ok σ o =>
      rw [hr] at ha
      have : ∃ rs v, (∃ k, bareStatus (clientT fl cap u (compile p) k) = .done rs v) ∧ v.w.out = σ.out := by
        cases o with
        | some vs =>
          obtain ⟨rs, v, q1, q2, -⟩ := ha
          exact ⟨rs, v, q1, q2⟩
        | none =>
          obtain ⟨r, v, q1, q2⟩ := ha
          exact ⟨[r], v, q1, q2⟩
      obtain ⟨rs, v, ⟨k, q1⟩, q2⟩ := this
      rw [hend q1 nofun] at h2
      cases hbx : bareStatus x with
      | done rs' v' =>
        rw [hbx] at h2
        exact ⟨rs', v', rfl, h2.1.symm.trans q2⟩
      | _ => rw [hbx] at h2; exact h2.elim
    | err o =>
      rw [hr] at ha
      obtain ⟨v, ⟨k, q1⟩, q2⟩ := ha
      rw [hend q1 nofun] at h2
      cases hbx : bareStatus x with
      | err v' =>
        rw [hbx] at h2
        exact ⟨v', rfl, h2.symm.trans q2⟩
      | _ => rw [hbx] at h2; exact h2.elim
    | off => trivial
    | more => trivial

/-! ## There are such runs -/

/-- The arrays that a collection copies along with a map are as large as those it works with. -/
theorem mapCapacity_calc (m : Nat) : Gc.mapCapacity m = Map.calcCapacity m := rfl

/-- In every state the collector can do its work, if there is enough memory. -/
theorem collectsT_exists (b : Option Ref) (s : St TWorld) : ∃ b' s', CollectsT b s b' s' := by
  let S : Shape := ⟨fun _ => 0, fun r => (s.w.t r).mapperSize, fun _ => [], fun _ => 0, fun r => match s.w.w.heap[r]? with
    | some (.str x) => [x.body.length + 1]
    | _ => [4 * (s.w.t r).mapperSize, 8 * Gc.mapCapacity (s.w.t r).mapperSize, 8 * Gc.mapCapacity (s.w.t r).mapperSize]⟩
  have hroom : ∀ (a : Nat) (o : Gc.Obj) (rooms : List Nat), (gheap S s.w.w)[a]? = some (o, rooms) → Gc.RoomOk o.exts rooms := by
    intro a o rooms h
    rw [gheap_get] at h
    cases hd : s.w.w.dyn[a]? with
    | none => rw [hd] at h; cases h
    | some x =>
      rw [hd] at h
      cases h
      show Gc.RoomOk (gobj S s.w.w (statics.length + a) x).exts (match s.w.w.heap[statics.length + a]? with
        | some (.str x) => [x.body.length + 1]
        | _ => _)
      rw [heap_dyn, hd]
      cases x with
      | «opaque» k =>
        cases k with
        | closure =>
          unfold gobj
          dsimp only
          cases s.w.w.clos (statics.length + a) <;> trivial
        | _ => trivial
      | str t => exact ⟨Nat.le_refl _, trivial⟩
      | list l => exact ⟨Nat.zero_le _, trivial⟩
      | map l => exact ⟨Nat.le_refl _, Nat.le_refl _, Nat.le_refl _, trivial⟩
      | _ => trivial
  have hv := valid S b (bare s)
  obtain ⟨rs, g, e, hf, -⟩ := Gc.after hv (fun a _ => hroom a) ((List.range (gheap S s.w.w).length).map (Gc.costOf (gheap S s.w.w))).sum
    ((gheap S s.w.w).length + 1) (Nat.lt_succ_self _)
  have hf := (hf fun l hd hl => sum_le _ _ l hd fun a ha => by
    obtain ⟨o, rooms, ho, -⟩ := (Gc.reach_closed hv).obj a (hl a ha)
    exact (List.getElem?_eq_some_iff.1 ho).1).1
  exact ⟨_, _, S, _, _, rs, g, fun _ => rfl, fun a _ => hroom a, Nat.lt_succ_self _, e, hf, rfl, rfl⟩

/-- Every program can be run by an interpreter that collects garbage after every instruction. -/
theorem sessionT_exists (fl : Book.Floats) {cap n : Nat} {vs : List Ref} {u : St TWorld} (h : bootT fl cap n = .done vs u)
    (code : List Instr) (m : Nat) : ∃ x, SessionT fl cap n m code x := by
  obtain ⟨b, x, h1⟩ := gstart_exists collectsT_exists (confT fl) cap 0 n (some 21)
    ⟨worldT, fun _ => none, [compile Start.prog], [], []⟩
  obtain ⟨ρ, N, -, -, h3, -⟩ := gstart_rel (confT_family fl) collectsT_harmless h1 (ren_eq _) (statics_le Start.world) bootT_rel
    (opt_eq (fun _ => rfl) _)
  have h3 : StatusR (TR ρ N) ρ (bootT fl cap n) x := h3
  rw [h] at h3
  obtain ⟨rfl, -⟩ := Book.bootT_result fl h
  cases x with
  | done l u' =>
    match l, h3 with
    | [r], h3 =>
      obtain ⟨b', x, h2⟩ := gstart_exists collectsT_exists (confT fl) cap u'.exes.length m (some (newClosure b r u'.w.w).2)
        ⟨⟨(newClosure b r u'.w.w).1, u'.w.t⟩, u'.funcs, u'.exes ++ [code], [], []⟩
      exact ⟨x, r, u', b, b', h1, h2⟩
    | [], h3 => exact h3.1.elim
    | _ :: _ :: _, h3 => exact h3.1.2.elim
  | _ => exact h3.elim

/-- There are sessions of the program with seven variables, whose table grows; with collections it ends as without. -/
example : ∃ x, SessionT Book.toy 1024 1000 1000 (compile Book.sevenVars) x ∧ ∃ rs t, x = .done rs t ∧ t.w.w.out = [49] := by
  obtain ⟨vs, u, hu⟩ := Book.bootT_ends
  obtain ⟨x, hx⟩ := sessionT_exists _ hu (compile Book.sevenVars) 1000
  refine ⟨x, hx, ?_⟩
  obtain ⟨vs', u', h1, h2⟩ := C91_tables_partial _ hx
  have hb : (Book.afterBootT fun u => Book.outOfT (clientT Book.toy 1024 u (compile Book.sevenVars) 1000)) = some (true, [49]) := by
    decide +kernel
  unfold Book.afterBootT at hb
  rw [h1] at hb
  have hb : Book.outOfT (clientT Book.toy 1024 u' (compile Book.sevenVars) 1000) = some (true, [49]) := hb
  revert hb h2
  cases clientT Book.toy 1024 u' (compile Book.sevenVars) 1000 with
  | done rs t =>
    intro h2 hb
    have hb : some (true, t.w.w.out) = some (true, [49]) := hb
    cases x with
    | done rs' t' =>
      refine ⟨rs', t', rfl, ?_⟩
      have : t.w.w.out = t'.w.w.out := h2.1
      rw [← this]
      have hb := Option.some.inj hb
      exact (Prod.mk.inj hb).2
    | _ => exact h2.elim
  | err t =>
    intro h2 hb
    have hb : some (false, t.w.w.out) = some (true, [49]) := hb
    cases (Prod.mk.inj (Option.some.inj hb)).1
  | _ => intro h2 hb; cases hb

end Noja.VM.Move
