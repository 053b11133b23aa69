import Verif.VM.TablesMain
import Verif.VM.Book.End

/-!
# The manual, with the tables that maps have

`C90_partial` supposes that maps find what is in them. Here the machine has the tables of o_map.c: they
grow, and a growth can lose keys (C33). What the book says holds for all programs whose watched meaning
is defined: that is the meaning of the program with the same tables, except that it is undefined as soon
as a growth puts a key where it is not found. For other programs it does not hold:
`C90_tables_violated` has a program with six variables one of which vanishes.
-/

set_option linter.unusedVariables false
set_option linter.unusedSimpArgs false

namespace Noja.VM.Book

open Noja.Graph (Obj Kind Heap Text text)
open Noja.Parse (Split Program)

/-- What a machine that has tables does, the tables aside. -/
def bare (s : St TWorld) : St World := ⟨s.w.w, s.funcs, s.exes, s.stack, s.frames⟩

def bareStatus : Status TWorld → Status World
  | .run s => .run (bare s)
  | .done vs s => .done vs (bare s)
  | .err s => .err (bare s)
  | .limit s => .limit (bare s)
  | .ub => .ub

/-- What the book says holds for whatever does what the meaning says. -/
theorem agrees_of [Floats] {S : Setup} {e : Emb} {σ : Store} {s : SSt World} (ok : S.Ok) (hi : Inv S e σ s) (p : Stmts) (fuel : Nat)
    (P : Status World → Prop)
    (hok : ∀ s' vs, p.mean (objects (std S.C)) fuel s = .ok s' vs → ∃ u, P (.done vs u) ∧ u.w = s'.w)
    (herr : ∀ w, p.mean (objects (std S.C)) fuel s = .err w → ∃ u, P (.err u) ∧ u.w = w) :
    Agrees S.pre P (mean S.fine S.lib fuel p σ) ∧ (mean S.fine S.lib fuel p σ = .more → p.mean (objects (std S.C)) fuel s = .more) := by
  have hs : Sim S [] e s Final (p.mean (objects (std S.C)) fuel s) (mean S.fine S.lib fuel p σ) := mean_sim_objects ok fuel p hi
  cases hr : mean S.fine S.lib fuel p σ with
  | ok σ o =>
    rw [hr] at hs
    obtain ⟨s', a, e, h1, h2, h3, h4⟩ := hs
    obtain ⟨u, h5, h6⟩ := hok _ _ h1
    refine ⟨?_, nofun⟩
    cases o with
    | some vs =>
      exact ⟨a, u, h5, by rw [h6]; exact h3.out, e, s', h6.symm, h3.len, h3.nodup, h3.cells, h4⟩
    | none =>
      obtain ⟨r, rfl⟩ := h4
      exact ⟨r, u, h5, by rw [h6]; exact h3.out⟩
  | err o =>
    rw [hr] at hs
    obtain ⟨w, h1, h2⟩ := hs
    obtain ⟨u, h5, h6⟩ := herr _ h1
    exact ⟨⟨u, h5, by rw [h6]; exact h2⟩, nofun⟩
  | off => exact ⟨trivial, nofun⟩
  | more =>
    rw [hr] at hs
    exact ⟨trivial, fun _ => hs⟩

/-- The machine with tables does what the book says, unless it hits a limit or a growth loses a key. -/
theorem machineT_sim [Floats] {S : Setup} {e : Emb} {σ : Store} {s : SSt World} (ok : S.Ok) (hi : Inv S e σ s) (hB : Tame S.C)
    {t : Ref → Map.MObj Ref Ref} (ht : TH ⟨s.w, t⟩) (cap : Nat) (p : Stmts)
    (hw : p.wf false = true) (fn : Ref → Option Func) (exes : List (List Instr)) (hrel : Rel exes fn s.funs)
    (st : List Ref) (fuel : Nat) :
    (∃ k u, start (tables (std S.C) false) cap exes.length ⟨⟨s.w, t⟩, fn, exes ++ [compile p], st, []⟩ k = .limit u) ∨
    p.mean (tables (std S.C) true) fuel ⟨⟨s.w, t⟩, s.funs⟩ = .ub ∨
    (Agrees S.pre (fun x => ∃ k, bareStatus (start (tables (std S.C) false) cap exes.length
        ⟨⟨s.w, t⟩, fn, exes ++ [compile p], st, []⟩ k) = x) (mean S.fine S.lib fuel p σ) ∧
      (mean S.fine S.lib fuel p σ = .more →
        ∃ u, start (tables (std S.C) false) cap exes.length ⟨⟨s.w, t⟩, fn, exes ++ [compile p], st, []⟩ fuel = .run u)) := by
  rcases mean_run (cap := cap) (tables_lawful (std S.C) false) p hw ⟨s.w, t⟩ s.funs fn exes hrel st fuel with hm | hm
  · exact .inl hm
  refine .inr ?_
  have h1 := Refine.mean_refine (watched (std S.C)) p fuel s.funs (rfl : (⟨s.w, t⟩ : TWorld) = ⟨s.w, t⟩)
  have h2 := Refine.mean_refine (tables_ref hB) p fuel s.funs (show Rt ⟨s.w, t⟩ s.w from ⟨rfl, ht⟩)
  cases hg : p.mean (tables (std S.C) true) fuel ⟨⟨s.w, t⟩, s.funs⟩ with
  | ub => exact .inl rfl
  | ok s' vs =>
    rw [hg] at h1 h2
    obtain ⟨v, h1, rfl⟩ := h1
    obtain ⟨w, h2, h3, -⟩ := h2
    rw [h1] at hm
    obtain ⟨k, u, h5, h6, -⟩ := hm
    have ha := agrees_of ok hi p fuel (fun x => ∃ k, bareStatus (start (tables (std S.C) false) cap exes.length
        ⟨⟨s.w, t⟩, fn, exes ++ [compile p], st, []⟩ k) = x) (fun s' vs' q => by
          have q := h2.symm.trans q
          cases q
          exact ⟨bare u, ⟨k, by rw [h5]; rfl⟩, (congrArg TWorld.w h6).trans h3⟩)
        (fun w q => by have q := h2.symm.trans q; cases q)
    exact .inr ⟨ha.1, fun q => by have q := h2.symm.trans (ha.2 q); cases q⟩
  | err w' =>
    rw [hg] at h1 h2
    obtain ⟨v, h1, rfl⟩ := h1
    obtain ⟨w, h2, h3, -⟩ := h2
    rw [h1] at hm
    obtain ⟨k, u, h5, h6⟩ := hm
    have ha := agrees_of ok hi p fuel (fun x => ∃ k, bareStatus (start (tables (std S.C) false) cap exes.length
        ⟨⟨s.w, t⟩, fn, exes ++ [compile p], st, []⟩ k) = x) (fun s' vs' q => by have q := h2.symm.trans q; cases q)
        (fun w q => by
          have q := h2.symm.trans q
          cases q
          exact ⟨bare u, ⟨k, by rw [h5]; rfl⟩, (congrArg TWorld.w h6).trans h3⟩)
    exact .inr ⟨ha.1, fun q => by have q := h2.symm.trans (ha.2 q); cases q⟩
  | off =>
    rw [hg] at h2
    have h2 : p.mean (objects (std S.C)) fuel s = .off := h2
    have ha := agrees_of ok hi p fuel (fun x => ∃ k, bareStatus (start (tables (std S.C) false) cap exes.length
        ⟨⟨s.w, t⟩, fn, exes ++ [compile p], st, []⟩ k) = x) (fun s' vs' q => by have q := h2.symm.trans q; cases q)
        (fun w q => by have q := h2.symm.trans q; cases q)
    exact .inr ⟨ha.1, fun q => by have q := h2.symm.trans (ha.2 q); cases q⟩
  | more =>
    rw [hg] at h1 h2
    have h2 : p.mean (objects (std S.C)) fuel s = .more := h2
    have h1 : p.mean (tables (std S.C) false) fuel ⟨⟨s.w, t⟩, s.funs⟩ = .more := h1
    rw [h1] at hm
    have ha := agrees_of ok hi p fuel (fun x => ∃ k, bareStatus (start (tables (std S.C) false) cap exes.length
        ⟨⟨s.w, t⟩, fn, exes ++ [compile p], st, []⟩ k) = x) (fun s' vs' q => by have q := h2.symm.trans q; cases q)
        (fun w q => by have q := h2.symm.trans q; cases q)
    exact .inr ⟨ha.1, fun _ => hm⟩

theorem machineT_at [Floats] {S : Setup} {e : Emb} {σ : Store} {w : World} {funs : Ref → Option FunDef} (ok : S.Ok)
    (hi : Inv S e σ ⟨w, funs⟩) {C : Config} {lib : List Nat} {fine : List Key → Bool} {pre : Text} (hC : S.C = C) (hl : S.lib = lib)
    (hfine : S.fine = fine) (hp : S.pre = pre)
    (hB : Tame C) {t : Ref → Map.MObj Ref Ref} (ht : TH ⟨w, t⟩) (cap : Nat) (p : Stmts)
    (hw : p.wf false = true) (fn : Ref → Option Func) (exes : List (List Instr)) (hrel : Rel exes fn funs)
    (st : List Ref) (fuel : Nat) :
    (∃ k u, start (tables (std C) false) cap exes.length ⟨⟨w, t⟩, fn, exes ++ [compile p], st, []⟩ k = .limit u) ∨
    p.mean (tables (std C) true) fuel ⟨⟨w, t⟩, funs⟩ = .ub ∨
    (Agrees pre (fun x => ∃ k, bareStatus (start (tables (std C) false) cap exes.length
        ⟨⟨w, t⟩, fn, exes ++ [compile p], st, []⟩ k) = x) (mean fine lib fuel p σ) ∧
      (mean fine lib fuel p σ = .more →
        ∃ u, start (tables (std C) false) cap exes.length ⟨⟨w, t⟩, fn, exes ++ [compile p], st, []⟩ fuel = .run u)) := by
  subst hC hl hfine hp
  exact machineT_sim ok hi hB ht cap p hw fn exes hrel st fuel

/-! ## The builtins -/

theorem printNative_kept (fl : Floats) : ∀ (rs : List Ref) (w : World), Kept w (printNative fl.write rs w)
  | [], w => Kept.ok w _
  | r :: rs, w => by
    unfold printNative
    split
    · rename_i t _ _
      have h := printNative_kept fl rs { w with out := w.out ++ t }
      revert h
      cases printNative fl.write rs { w with out := w.out ++ t } with
      | ok u a => exact fun h => (Keep.same (w := w) (w' := { w with out := w.out ++ t }) rfl).trans h
      | err u => exact fun h => (Keep.same (w := w) (w' := { w with out := w.out ++ t }) rfl).trans h
      | ub => exact fun _ => trivial
    · exact Keep.refl w
    · trivial

/-- A configuration that is `base` except for where builtins are looked up. -/
structure Based (B : Config) : Prop where
  fuel : 0 < B.fuel
  hit : ∀ k k', B.hit k k' = true
  slot : ∀ t n, B.slot t n = none
  native : ∀ id a w, B.native id a w = .ok w (.done [])
  selectX : ∀ o k w, B.selectX o k w = .ok { w with err := true } none
  insertX : ∀ o a b c w, B.insertX o a b c w = .err w

theorem Based.tame {B : Config} (h : Based B) (fl : Floats) : Tame (printing fl B) where
  fuel := h.fuel
  hit := h.hit
  slot t n f w q := by
    have q : B.slot t n = some f := q
    rw [h.slot] at q
    cases q
  native id a w := by
    show Kept w (((known fl id).getD (B.native id)) a w)
    cases hk : known fl id with
    | none => show Kept w (B.native id a w); rw [h.native]; exact Kept.ok w _
    | some f =>
      rcases known_cases hk with rfl | ⟨g, rfl⟩
      · exact printNative_kept fl a w
      · exact onArgs_kept g a w
  selectX o k w := by
    show Kept w (B.selectX o k w)
    rw [h.selectX]
    exact Keep.same rfl
  insertX o a b c w := by
    show Kept w (B.insertX o a b c w)
    rw [h.insertX]
    exact Keep.refl w

theorem based_base : Based Start.base :=
  ⟨by decide, fun _ _ => rfl, fun _ _ => rfl, fun _ _ _ => rfl, fun _ _ _ => rfl, fun _ _ _ _ _ => rfl⟩

theorem plug_based {B : Config} (h : Based B) (m : Ref) (s : SSt World) : Based (Start.plug B m s).1 :=
  ⟨h.fuel, h.hit, h.slot, h.native, h.selectX, h.insertX⟩

theorem based_config : Based Start.config := plug_based based_base _ _

/-! ## `start.noja` -/

theorem selectT_native (C : Config) (r : Num.FloatArith) (n : Nat → List Ref → World → Out World NRes) (g : Bool) (fuel : Nat) :
    selectT { C with arith := r, native := n } g fuel = selectT C g fuel := by
  induction fuel with
  | zero => rfl
  | succ fuel ih =>
    funext col key x
    simp only [selectT, ih, selectObj_native]
    rfl

theorem searchInT_native (C : Config) (r : Num.FloatArith) (n : Nat → List Ref → World → Out World NRes) (g : Bool) (key : Ref)
    (l : List (Option Ref)) : searchInT { C with arith := r, native := n } g key l = searchInT C g key l := by
  induction l with
  | nil => rfl
  | cons x l ih =>
    funext w
    cases x <;> simp only [searchInT, ih, selectT_native]

theorem isTypeT_native (C : Config) (r : Num.FloatArith) (n : Nat → List Ref → World → Out World NRes) (g : Bool) (x : TWorld) (fuel : Nat) :
    isTypeT { C with arith := r, native := n } g x fuel = isTypeT C g x fuel := by
  induction fuel with
  | zero => rfl
  | succ fuel ih =>
    funext e t v
    simp only [isTypeT, ih]
    rfl

theorem insertT_native (C : Config) (r : Num.FloatArith) (n : Nat → List Ref → World → Out World NRes) (g : Bool) :
    insertT { C with arith := r, native := n } g = insertT C g := by
  have h3 : insertObj { C with arith := r, native := n } = insertObj C := by
    funext a b c w
    simp only [insertObj]
  funext a b c w
  unfold insertT
  rw [h3]
  rfl

theorem isTypeIT_native (C : Config) (r : Num.FloatArith) (n : Nat → List Ref → World → Out World NRes) (g : Bool) :
    isTypeIT { C with arith := r, native := n } g = isTypeIT C g := by
  funext t v x
  unfold isTypeIT
  rw [isTypeT_native]

theorem muteT_bin (C : Config) (r : Num.FloatArith) (n : Nat → List Ref → World → Out World NRes) (g : Bool) (op : BinOp) (a b : Ref)
    (x : TWorld) : (mute (tables C g)).bin op a b x = .ub ∨
      (mute (tables C g)).bin op a b x = up (binObj { C with arith := r, native := n } op a b) x := by
  cases op <;> first | exact .inl rfl | exact .inr rfl

/-- Nothing but calls depends on the native functions, nothing but operators on the arithmetic. -/
theorem tables_native (C : Config) (r : Num.FloatArith) (n : Nat → List Ref → World → Out World NRes) (g : Bool) :
    tables { C with arith := r, native := n } g = Uncalled.other (mute (tables C g))
      (fun op a b => up (binObj { C with arith := r, native := n } op a b)) (nativeT { C with arith := r, native := n } g) := by
  have h1 : selectIT { C with arith := r, native := n } g = selectIT C g := by
    funext col key w
    simp only [selectIT, selectT_native]
  have h2 : getVarT { C with arith := r, native := n } g = getVarT C g := by
    funext l c m w
    simp only [getVarT, searchInT_native]
  have h4 : setVarT { C with arith := r, native := n } g = setVarT C g := by
    funext a b c w
    simp only [setVarT, insertT_native]
  have h5 := objects_native C r n
  simp only [tables, Uncalled.other, mute, h1, h2, h4, insertT_native, isTypeIT_native, h5]

theorem stdT_other (B : Config) (r : Num.FloatArith) (n : Nat → List Ref → World → Out World NRes) (g : Bool)
    (h : ∀ id a w, B.native id a w = .ub ∨ B.native id a w = n id a w) (p : Stmts) (fuel : Nat) (s : SSt TWorld)
    (hu : p.mean (mute (tables (std B) g)) fuel s ≠ .ub) :
    p.mean (tables (std { B with arith := r, native := n }) g) fuel s = p.mean (mute (tables (std B) g)) fuel s := by
  rw [std_native, tables_native]
  refine Uncalled.mean_other _ _ _ (muteT_bin _ _ _ _) (fun id a x => ?_) p fuel s hu
  show nativeT (std B) g id a x = .ub ∨ nativeT (std B) g id a x = nativeT { std B with arith := r, native := stdNative { B with arith := r, native := n } } g id a x
  have key : up (stdNative B id a) x = .ub ∨ up (stdNative B id a) x = up (stdNative { B with arith := r, native := n } id a) x := by
    unfold up
    rcases unprinted_base B r n id a x.w h with q | q
    · rw [q]; exact .inl rfl
    · rw [q]; exact .inr rfl
  have ht := isTypeIT_native (std B) r (stdNative { B with arith := r, native := n }) g
  unfold nativeT
  split
  · rename_i t v
    exact .inr (congrArg (fun (f : Ref → Ref → TWorld → Out TWorld Bool) =>
      Out.bind (f t v x) fun b x => Out.ok x (NRes.done [boolRef b])) ht.symm)
  · exact key

/-- The table of what is not a map. -/
def noTable : Map.MObj Ref Ref := ⟨0, 0, [], [], []⟩

def worldT : TWorld := ⟨Start.world, fun _ => noTable⟩

def startedOkT (B : Config) : Bool :=
  match Start.prog.mean (mute (tables (std B) true)) 1 ⟨worldT, fun _ => none⟩ with
  | .ub => false
  | _ => true

theorem ref_result {α : Type} {x y : Res TWorld α} {S : SSt World} {a : α} (hu : x ≠ .ub) (h3 : Refine.RRef Rt x (.ok S a))
    (h4 : Refine.RRef Eq x y) : ∃ t, y = .ok ⟨⟨S.w, t⟩, S.funs⟩ a ∧ TH ⟨S.w, t⟩ := by
  cases x with
  | ub => exact absurd rfl hu
  | ok s' vs =>
    obtain ⟨v, h5, h6, h7⟩ := h3
    obtain ⟨x, h8, rfl⟩ := h4
    cases h5
    cases s' with
    | mk w f =>
      cases w
      cases h6
      exact ⟨_, h8, h7⟩
  | err w =>
    obtain ⟨v, h5, -⟩ := h3
    cases h5
  | off => cases h3
  | more => cases h3

/-- `start.noja` ends, and no table loses a key meanwhile. -/
theorem started_tables (fl : Floats) :
    ∃ t, Start.prog.mean (tables (std (printing fl Start.base)) false) 1 ⟨worldT, fun _ => none⟩ =
      .ok ⟨⟨Start.startedState.w, t⟩, Start.startedState.funs⟩ [92] ∧ TH ⟨Start.startedState.w, t⟩ := by
  have h : startedOkT unprinted = true := by decide +kernel
  have hu : Start.prog.mean (mute (tables (std unprinted) true)) 1 ⟨worldT, fun _ => none⟩ ≠ .ub := by
    intro q
    unfold startedOkT at h
    rw [q] at h
    cases h
  have h2 := stdT_other unprinted fl.arith (printing fl Start.base).native true (fun id a w => by
    show (if id = 11 ∨ 25 ≤ id then Out.ub else Start.base.native id a w) = .ub ∨ _ = ((known fl id).getD (Start.base.native id)) a w
    by_cases q : id = 11 ∨ 25 ≤ id
    · exact .inl (if_pos q)
    · refine .inr ?_
      show (if id = 11 ∨ 25 ≤ id then Out.ub else Start.base.native id a w) = _
      rw [if_neg q, known_none q]
      rfl) Start.prog 1 _ hu
  have h2 : Start.prog.mean (tables (std (printing fl Start.base)) true) 1 ⟨worldT, fun _ => none⟩ =
    Start.prog.mean (mute (tables (std unprinted) true)) 1 ⟨worldT, fun _ => none⟩ := h2
  have hu : Start.prog.mean (tables (std (printing fl Start.base)) true) 1 ⟨worldT, fun _ => none⟩ ≠ .ub := by
    rw [h2]; exact hu
  have hth : TH worldT := by
    intro r es hr
    have hr : Start.world.heap[r]? = some (.map es) := hr
    have hm : ∀ o ∈ Start.world.heap, o.kind ≠ .map := by decide
    exact absurd rfl (hm _ (List.mem_of_getElem? hr))
  have h3 := Refine.mean_refine (tables_ref (based_base.tame fl)) Start.prog 1 (fun _ => none) (show Rt worldT Start.world from ⟨rfl, hth⟩)
  have h4 := Refine.mean_refine (watched (std (printing fl Start.base))) Start.prog 1 (fun _ => none) (rfl : worldT = worldT)
  rw [started_printing fl] at h3
  exact ref_result hu h3 h4

/-- `start.noja` on the machine with tables. -/
def bootT (fl : Floats) (cap k : Nat) : Status TWorld :=
  start (tables (std (printing fl Start.base)) false) cap 0 ⟨worldT, fun _ => none, [compile Start.prog], [], []⟩ k

/-- The state in which a program starts, `start.noja` having ended in the state `u`. -/
def pluggedT (x : TWorld) : TWorld := ⟨(newClosure Start.base.builtins 92 x.w).1, x.t⟩

/-- `client`, on the machine with tables. -/
def clientT (fl : Floats) (cap : Nat) (u : St TWorld) (code : List Instr) (k : Nat) : Status TWorld :=
  start (tables (std (printing fl Start.config)) false) cap u.exes.length
    ⟨pluggedT u.w, u.funcs, u.exes ++ [code], [], []⟩ k

/-- What the program does, in the state `u`, with tables that are watched: undefined if one of them loses a key. -/
def watchedT (fl : Floats) (u : St TWorld) (p : Stmts) (fuel : Nat) : Res TWorld (List Ref) :=
  p.mean (tables (std (printing fl Start.config)) true) fuel ⟨pluggedT u.w, Start.state.funs⟩

theorem world_of {x : TWorld} {w : World} {t : Ref → Map.MObj Ref Ref} (h : x = ⟨w, t⟩) (hT : TH ⟨w, t⟩) : x.w = w ∧ TH x := by
  subst h
  exact ⟨rfl, hT⟩

theorem bootT_result (fl : Floats) {cap n : Nat} {vs : List Ref} {u : St TWorld} (h : bootT fl cap n = .done vs u) :
    vs = [92] ∧ u.w.w = Start.startedState.w ∧ TH u.w ∧ Rel u.exes u.funcs Start.startedState.funs := by
  have h1 := mean_run (cap := cap) (tables_lawful (std (printing fl Start.base)) false) Start.prog Start.prog_wf worldT
    (fun _ => none) (fun _ => none) [] (fun _ => trivial) [] 1
  obtain ⟨t, h2, h3⟩ := started_tables fl
  rw [h2] at h1
  clear h2
  generalize Start.startedState = S at h1 h3 ⊢
  rcases h1 with ⟨k', t, h1⟩ | ⟨k', u', h1, hw, -, -, -, hrel⟩
  · cases start_stable h h1 nofun nofun
  · cases start_stable h h1 nofun nofun
    have h4 := world_of hw h3
    exact ⟨rfl, h4.1, h4.2, hrel⟩

theorem newClosure_keep (b : Option Ref) (m : Ref) (w : World) : Keep w (newClosure b m w).1 := by
  unfold newClosure
  exact (Keep.alloc _ (o := .opaque .closure) (by decide)).trans (Keep.same rfl)

/-- C90, with tables: once `start.noja` has run, the machine does with a program what the book says, or it reports that
one of its limits was met, or the tables lose a key. -/
theorem C90_tables_partial (fl : Floats) {cap n : Nat} {vs : List Ref} {u : St TWorld}
    (h : bootT fl cap n = .done vs u) (p : Stmts) (hw : p.wf false = true) (fuel : Nat) :
    (∃ k t, clientT fl cap u (compile p) k = .limit t) ∨ watchedT fl u p fuel = .ub ∨
    (Agrees [] (fun x => ∃ k, bareStatus (clientT fl cap u (compile p) k) = x) (run fuel p) ∧
      (run fuel p = .more → ∃ t, clientT fl cap u (compile p) fuel = .run t)) := by
  obtain ⟨-, h1, h2, h3⟩ := bootT_result fl h
  rw [← state_funs] at h3
  have hp : pluggedT u.w = ⟨Start.state.w, u.w.t⟩ := by
    unfold pluggedT
    rw [state_w, h1]
  have ht : TH ⟨Start.state.w, u.w.t⟩ := by
    rw [← hp]
    refine TH.keep h2 ?_
    exact newClosure_keep _ _ _
  rw [run_eq]
  rcases startUp_inv fl (fun _ => true) (fun _ _ => true) with hs | ⟨σ, a, e, hs, hi⟩
  · rw [hs]
    exact .inr (.inr ⟨trivial, nofun⟩)
  · rw [hs]
    rw [← state_w, ← state_funs] at hi
    have h4 := machineT_at (clientSetup_ok fl a means_all) hi rfl rfl rfl rfl (based_config.tame fl) ht cap p hw u.funcs u.exes h3 [] fuel
    rw [← hp] at h4
    exact h4

/-- C90, with tables, for texts. -/
theorem C90_tables_text_partial (flt : List UInt8 → Option (BitVec 64)) (fl : Floats) (past : UInt8) {cap n : Nat}
    {vs : List Ref} {u : St TWorld} (h : bootT fl cap n = .done vs u) (src : List UInt8) (x : Exe.Executable)
    (hx : compileText flt past src = .ok x) :
    ∃ ts root p code, Split src 0 ts ∧ Program flt ts root ∧ root.elab false = some p ∧
      x.body.length = code.length ∧ (∀ i, Exe.fetch x i = (code[i]?).map Instr.encode) ∧
      ∀ fuel, (∃ k t, clientT fl cap u code k = .limit t) ∨ watchedT fl u p fuel = .ub ∨
        (Agrees [] (fun y => ∃ k, bareStatus (clientT fl cap u code k) = y) (run fuel p) ∧
          (run fuel p = .more → ∃ t, clientT fl cap u code fuel = .run t)) := by
  obtain ⟨ts, root, p, h1, h2, h3, h4, h5⟩ := C84_only flt past src x hx
  exact ⟨ts, root, p, compile p, h1, h2, h3, h4, h5, fun fuel => C90_tables_partial fl h p (root.elab_wf false p h3) fuel⟩

/-! ## Examples -/

def isDoneT : Status TWorld → Bool
  | .done _ _ => true
  | _ => false

attribute [local instance] toy

/-- `start.noja` ends. -/
theorem bootT_ends : ∃ vs u, bootT toy 1024 1000 = .done vs u := by
  have h : isDoneT (bootT toy 1024 1000) = true := by decide +kernel
  revert h
  cases bootT toy 1024 1000 with
  | done vs u => exact fun _ => ⟨vs, u, rfl⟩
  | _ => intro h; cases h

/-- `o = 1; l = 2; q = 3; value = 4; a = 5; j = 6; print(a);` -/
def sixVars : Stmts :=
  .cons (.expr (.assign (.var [111]) (.int 1))) <| .cons (.expr (.assign (.var [108]) (.int 2))) <|
  .cons (.expr (.assign (.var [113]) (.int 3))) <| .cons (.expr (.assign (.var [118, 97, 108, 117, 101]) (.int 4))) <|
  .cons (.expr (.assign (.var [97]) (.int 5))) <| .cons (.expr (.assign (.var [106]) (.int 6))) <|
  .cons (.expr (.call (.fn (.ident [112, 114, 105, 110, 116]) (.cons (.ident [97]) .nil)))) .nil

/-- The same with a seventh variable and other names: `a = 1; b = 2; …; g = 7; print(a);` -/
def sevenVars : Stmts :=
  .cons (.expr (.assign (.var [97]) (.int 1))) <| .cons (.expr (.assign (.var [98]) (.int 2))) <|
  .cons (.expr (.assign (.var [99]) (.int 3))) <| .cons (.expr (.assign (.var [100]) (.int 4))) <|
  .cons (.expr (.assign (.var [101]) (.int 5))) <| .cons (.expr (.assign (.var [102]) (.int 6))) <|
  .cons (.expr (.assign (.var [103]) (.int 7))) <|
  .cons (.expr (.call (.fn (.ident [112, 114, 105, 110, 116]) (.cons (.ident [97]) .nil)))) .nil

def outOfT : Status TWorld → Option (Bool × Text)
  | .done _ u => some (true, u.w.w.out)
  | .err u => some (false, u.w.w.out)
  | _ => none

def afterBootT {α : Type} (f : St TWorld → Option α) : Option α :=
  match bootT toy 1024 1000 with
  | .done _ u => f u
  | _ => none

/-- `C90_tables_partial` has something to say about `sevenVars`: the table of its variables grows, and what is defined is
what the book says. -/
example : (afterBootT fun u => match watchedT toy u sevenVars 100 with
    | .ok s _ => some s.w.w.out
    | _ => none) = some [49] := by decide +kernel

/-- C90, in full, for programs that meet no limit. -/
def C90TablesStatement : Prop :=
  ∀ (fl : Floats) (n : Nat) (vs : List Ref) (u : St TWorld), bootT fl 1024 n = .done vs u →
    ∀ (p : Stmts), p.wf false = true → ∀ fuel, (∃ k t, clientT fl 1024 u (compile p) k = .limit t) ∨
      Agrees [] (fun x => ∃ k, bareStatus (clientT fl 1024 u (compile p) k) = x) (run fuel p)

def isErrT : Status TWorld → Bool
  | .err _ => true
  | _ => false

/-- What the book says: the program `sixVars` writes `5`. -/
theorem sixVars_book : (match run 10 sixVars with
    | .ok σ none => some σ.out
    | _ => none) = some [53] := by decide +kernel

/-- What happens: the interpreter does not know the variable `a` and reports an error. -/
theorem C90_tables_violated : ¬ C90TablesStatement := by
  intro h
  have hb : (match bootT toy 1024 1000 with
      | .done _ u => isErrT (clientT toy 1024 u (compile sixVars) 1000)
      | _ => false) = true := by decide +kernel
  obtain ⟨vs, u, hu⟩ := bootT_ends
  rw [hu] at hb
  have hb : isErrT (clientT toy 1024 u (compile sixVars) 1000) = true := hb
  have hs := sixVars_book
  have ha := h _ _ _ _ hu sixVars (by decide) 10
  cases hl : clientT toy 1024 u (compile sixVars) 1000 with
  | err t =>
    rcases ha with ⟨k, t', ha⟩ | ha
    · cases start_stable ha hl nofun nofun
    · generalize run 10 sixVars = r at ha hs
      cases r with
      | ok σ o =>
        cases o with
        | some _ => cases hs
        | none =>
          obtain ⟨r, v, ⟨k, hk⟩, -⟩ := ha
          cases hc : clientT toy 1024 u (compile sixVars) k with
          | done _ _ => cases start_stable hc hl nofun nofun
          | _ => rw [hc] at hk; cases hk
      | _ => cases hs
  | _ => rw [hl] at hb; cases hb

end Noja.VM.Book
