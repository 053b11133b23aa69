import Verif.VM.Book.Main
import Verif.VM.Start.Boot
import Verif.VM.Lines
import Verif.VM.Uncalled

/-!
# From the text to the output

The theorems of `Verif.VM.Book.Main` for the machine, after `start.noja` has run, and for the text of
a program.
-/

set_option linter.unusedVariables false
set_option linter.unusedSimpArgs false

namespace Noja.VM.Book

open Noja.Graph (Obj Kind Heap Text text)
open Noja.Parse (Split Program)

/-! ## Any state in which the builtins are there -/

/-- The objects `rs` are the values `vs`, lists and maps being what the store says. -/
def Shows (w : World) (rs : List Ref) (σ : Store) (vs : List Val) : Prop :=
  ∃ (e : Emb) (s : SSt World), s.w = w ∧ e.length = σ.cells.length ∧ e.Nodup ∧
    (∀ a c r, σ.cells[a]? = some c → At e r a → Holds e s r c) ∧ All2 (Rep e s) rs vs

/-- What the book says about a program holds for a run that ends like this. -/
def Agrees (pre : Text) (end' : Status World → Prop) : R (Option (List Val)) → Prop
  | .ok σ (some vs) => ∃ rs u, end' (.done rs u) ∧ u.w.out = pre ++ σ.out ∧ Shows u.w rs σ vs
  | .ok σ none => ∃ r u, end' (.done [r] u) ∧ u.w.out = pre ++ σ.out
  | .err o => ∃ u, end' (.err u) ∧ u.w.out = pre ++ o
  | .off => True
  | .more => True

/-- `mean_sim`, for the layer of `Verif.VM.Objects`. -/
theorem mean_sim_objects [Floats] {S : Setup} {e : Emb} {σ : Store} {s : SSt World} (ok : S.Ok) (fuel : Nat) (p : Stmts) (hi : Inv S e σ s) :
    Sim S [] e s Final (p.mean (objects (std S.C)) fuel s) (mean S.fine S.lib fuel p σ) := by
  have h1 : Sim S [] e s Final (p.mean (LG S) fuel s) (mean S.fine S.lib fuel p σ) := mean_sim ok fuel p hi
  have h2 := Refine.mean_refine (guarded_objects (std S.C) S.pos) p fuel s.funs (rfl : s.w = s.w)
  have h2 : Refine.RRef Eq (p.mean (LG S) fuel s) (p.mean (objects (std S.C)) fuel s) := h2
  cases hy : mean S.fine S.lib fuel p σ with
  | off => trivial
  | ok σ' b =>
    rw [hy] at h1
    obtain ⟨s', a, e', hx, h⟩ := h1
    rw [hx] at h2
    obtain ⟨v, h3, rfl⟩ := h2
    exact ⟨s', a, e', h3, h⟩
  | err o =>
    rw [hy] at h1
    obtain ⟨w, hx, h⟩ := h1
    rw [hx] at h2
    obtain ⟨v, h3, rfl⟩ := h2
    exact ⟨w, h3, h⟩
  | more =>
    rw [hy] at h1
    have hx : p.mean (LG S) fuel s = .more := h1
    rw [hx] at h2
    exact h2

/-- The machine, started on the code of a program, does what the book says, unless it hits a limit. -/
theorem machine_sim [Floats] {S : Setup} {e : Emb} {σ : Store} {s : SSt World} (ok : S.Ok) (hi : Inv S e σ s) (cap : Nat) (p : Stmts)
    (hw : p.wf false = true) (fn : Ref → Option Func) (exes : List (List Instr)) (hrel : Rel exes fn s.funs)
    (st : List Ref) (fuel : Nat) :
    (∃ k t, start (objects (std S.C)) cap exes.length ⟨s.w, fn, exes ++ [compile p], st, []⟩ k = .limit t) ∨
    (Agrees S.pre (fun x => ∃ k, start (objects (std S.C)) cap exes.length ⟨s.w, fn, exes ++ [compile p], st, []⟩ k = x)
        (mean S.fine S.lib fuel p σ) ∧
      (mean S.fine S.lib fuel p σ = .more →
        ∃ u, start (objects (std S.C)) cap exes.length ⟨s.w, fn, exes ++ [compile p], st, []⟩ fuel = .run u)) := by
  rcases mean_run (cap := cap) (objects_lawful (std S.C)) p hw s.w s.funs fn exes hrel st fuel with hm | hm
  · exact .inl hm
  · refine .inr ?_
    have hs : Sim S [] e s Final (p.mean (objects (std S.C)) fuel ⟨s.w, s.funs⟩) (mean S.fine S.lib fuel p σ) := mean_sim_objects ok fuel p hi
    cases hr : mean S.fine S.lib fuel p σ with
    | ok σ o =>
      rw [hr] at hs
      obtain ⟨s', a, e, h1, h2, h3, h4⟩ := hs
      rw [h1] at hm
      obtain ⟨k, u, h5, h6, -⟩ := hm
      refine ⟨?_, nofun⟩
      cases o with
      | some vs =>
        exact ⟨a, u, ⟨k, h5⟩, by rw [h6]; exact h3.out, e, s', h6.symm, h3.len, h3.nodup, h3.cells, h4⟩
      | none =>
        obtain ⟨r, rfl⟩ := h4
        exact ⟨r, u, ⟨k, h5⟩, by rw [h6]; exact h3.out⟩
    | err o =>
      rw [hr] at hs
      obtain ⟨w, h1, h2⟩ := hs
      rw [h1] at hm
      obtain ⟨k, u, h5, h6⟩ := hm
      exact ⟨⟨u, ⟨k, h5⟩, by rw [h6]; exact h2⟩, nofun⟩
    | off => exact ⟨trivial, nofun⟩
    | more =>
      rw [hr] at hs
      have h1 : p.mean (objects (std S.C)) fuel ⟨s.w, s.funs⟩ = .more := hs
      rw [h1] at hm
      exact ⟨trivial, fun _ => hm⟩

theorem mean_at [Floats] {S : Setup} {e : Emb} {σ : Store} {s : SSt World} (ok : S.Ok) (hi : Inv S e σ s) {C : Config} {lib : List Nat} {fine : List Key → Bool}
    (hC : S.C = C) (hl : S.lib = lib) (hfine : S.fine = fine) (fuel : Nat) (p : Stmts) :
    Sim S [] e s Final (p.mean (objects (std C)) fuel s) (mean fine lib fuel p σ) := by
  subst hC hl hfine
  exact mean_sim_objects ok fuel p hi

theorem machine_at [Floats] {S : Setup} {e : Emb} {σ : Store} {w : World} {funs : Ref → Option FunDef} (ok : S.Ok)
    (hi : Inv S e σ ⟨w, funs⟩) {C : Config} {lib : List Nat} {fine : List Key → Bool} {pre : Text} (hC : S.C = C) (hl : S.lib = lib)
    (hfine : S.fine = fine) (hp : S.pre = pre)
    (cap : Nat) (p : Stmts) (hw : p.wf false = true) (fn : Ref → Option Func) (exes : List (List Instr))
    (hrel : Rel exes fn funs) (st : List Ref) (fuel : Nat) :
    (∃ k t, start (objects (std C)) cap exes.length ⟨w, fn, exes ++ [compile p], st, []⟩ k = .limit t) ∨
    (Agrees pre (fun x => ∃ k, start (objects (std C)) cap exes.length ⟨w, fn, exes ++ [compile p], st, []⟩ k = x)
        (mean fine lib fuel p σ) ∧
      (mean fine lib fuel p σ = .more →
        ∃ u, start (objects (std C)) cap exes.length ⟨w, fn, exes ++ [compile p], st, []⟩ fuel = .run u)) := by
  subst hC hl hfine hp
  exact machine_sim ok hi cap p hw fn exes hrel st fuel

/-! ## After `start.noja` -/

def mathFn : Nat → Option MathFn
  | 25 => some .cos | 26 => some .sin | 27 => some .tan | 28 => some .acos | 29 => some .asin | 30 => some .atan
  | 32 => some .exp | 33 => some .log | 34 => some .log10 | 36 => some .sqrt
  | _ => none

/-- `print` and the functions of the mathematical library. -/
def known (fl : Floats) (id : Nat) : Option (List Ref → World → Out World NRes) :=
  if id = 11 then some (printNative fl.write)
  else if id = 31 then some (onArgs (mathArgs2 fl.atan2))
  else (mathFn id).map fun f => onArgs (mathArgs (fl.fn f))

/-- The configuration in which `print` writes, with this floating point arithmetic. -/
def printing (fl : Floats) (B : Config) : Config :=
  { B with arith := fl.arith, native := fun id => (known fl id).getD (B.native id) }

theorem mathFn_none {id : Nat} (h : id < 25) : mathFn id = none := by
  unfold mathFn
  split <;> first | rfl | omega

theorem known_none {fl : Floats} {id : Nat} (h : ¬ (id = 11 ∨ 25 ≤ id)) : known fl id = none := by
  unfold known
  rw [if_neg (by omega), if_neg (by omega), mathFn_none (by omega)]
  rfl

theorem known_cases {fl : Floats} {id : Nat} {f : List Ref → World → Out World NRes} (h : known fl id = some f) :
    f = printNative fl.write ∨ ∃ g, f = onArgs g := by
  unfold known at h
  by_cases h1 : id = 11
  · rw [if_pos h1] at h; cases h; exact .inl rfl
  · rw [if_neg h1] at h
    by_cases h2 : id = 31
    · rw [if_pos h2] at h; cases h; exact .inr ⟨_, rfl⟩
    · rw [if_neg h2] at h
      cases hm : mathFn id with
      | none => rw [hm] at h; cases h
      | some f => rw [hm] at h; cases h; exact .inr ⟨_, rfl⟩

theorem known_math (fl : Floats) (f : MathFn) : known fl (Prim.math f).id = some (onArgs (mathArgs (fl.fn f))) := by
  cases f <;> rfl

/-- `base`, but it is undefined what `print` and the mathematical functions do. -/
def unprinted : Config :=
  { Start.base with native := fun id a w => if id = 11 ∨ 25 ≤ id then .ub else Start.base.native id a w }

/-- It is undefined what `+`, `-`, `*` and `/` do. -/
def mute {W : Type} (L : Layer W) : Layer W :=
  { L with bin := fun op a b w => if (mathOf op).isSome then .ub else L.bin op a b w }

theorem mute_bin (C : Config) (r : Num.FloatArith) (n : Nat → List Ref → World → Out World NRes) (op : BinOp) (a b : Ref) (w : World) :
    (mute (objects C)).bin op a b w = .ub ∨ (mute (objects C)).bin op a b w = binObj { C with arith := r, native := n } op a b w := by
  cases op <;> first | exact .inl rfl | exact .inr rfl

def startedOk (B : Config) : Bool :=
  match Start.prog.mean (mute (objects (std B))) 1 ⟨Start.world, fun _ => none⟩ with
  | .ub => false
  | _ => true

theorem unprinted_base (x : Config) (r : Num.FloatArith) (n : Nat → List Ref → World → Out World NRes) (id : Nat) (a : List Ref)
    (w : World) (h : ∀ id a w, x.native id a w = .ub ∨ x.native id a w = n id a w) :
    stdNative x id a w = .ub ∨ stdNative x id a w = stdNative { x with arith := r, native := n } id a w := by
  unfold stdNative
  split <;> first | exact .inr rfl | exact h _ _ _

theorem selectObj_native (C : Config) (r : Num.FloatArith) (n : Nat → List Ref → World → Out World NRes) (fuel : Nat) :
    selectObj { C with arith := r, native := n } fuel = selectObj C fuel := by
  induction fuel with
  | zero => rfl
  | succ fuel ih =>
    funext col key w
    simp only [selectObj, ih]

theorem searchIn_native (C : Config) (r : Num.FloatArith) (n : Nat → List Ref → World → Out World NRes) (key : Ref) (l : List (Option Ref)) :
    searchIn { C with arith := r, native := n } key l = searchIn C key l := by
  induction l with
  | nil => rfl
  | cons x l ih =>
    funext w
    cases x <;> simp only [searchIn, ih, selectObj_native]

/-- Nothing but calls depends on the native functions, nothing but operators on the arithmetic. -/
theorem objects_native (C : Config) (r : Num.FloatArith) (n : Nat → List Ref → World → Out World NRes) :
    objects { C with arith := r, native := n } =
      Uncalled.other (mute (objects C)) (binObj { C with arith := r, native := n }) n := by
  have h1 : selectI { C with arith := r, native := n } = selectI C := by
    funext col key w
    simp only [selectI, selectObj_native]
  have h2 : getVar { C with arith := r, native := n } = getVar C := by
    funext l c m w
    simp only [getVar, searchIn_native]
  have h3 : insertObj { C with arith := r, native := n } = insertObj C := by
    funext a b c w
    simp only [insertObj]
  have h4 : setVar { C with arith := r, native := n } = setVar C := by
    funext a b c w
    simp only [setVar, h3]
  simp only [objects, Uncalled.other, mute, h1, h2, h3, h4]

theorem std_native (B : Config) (r : Num.FloatArith) (n : Nat → List Ref → World → Out World NRes) :
    std { B with arith := r, native := n } =
      { std B with arith := r, native := stdNative { B with arith := r, native := n } } := by
  have h : stdSlot { B with arith := r, native := n } = stdSlot B := by
    funext t m
    unfold stdSlot
    rfl
  simp only [std, h]

theorem std_other (B : Config) (r : Num.FloatArith) (n : Nat → List Ref → World → Out World NRes)
    (h : ∀ id a w, B.native id a w = .ub ∨ B.native id a w = n id a w) (p : Stmts) (fuel : Nat) (s : SSt World)
    (hu : p.mean (mute (objects (std B))) fuel s ≠ .ub) :
    p.mean (objects (std { B with arith := r, native := n })) fuel s = p.mean (mute (objects (std B))) fuel s := by
  rw [std_native, objects_native]
  refine Uncalled.mean_other (mute (objects (std B))) _ _ (mute_bin (std B) _ _) (fun id a w => ?_) p fuel s hu
  exact unprinted_base B r n id a w h

/-- `start.noja` does not print or calculate, so it does not matter how it is done. -/
theorem started_printing (fl : Floats) :
    Start.prog.mean (objects (std (printing fl Start.base))) 1 ⟨Start.world, fun _ => none⟩ =
      .ok Start.startedState [92] := by
  have h : startedOk unprinted = true := by decide +kernel
  have hu : Start.prog.mean (mute (objects (std unprinted))) 1 ⟨Start.world, fun _ => none⟩ ≠ .ub := by
    intro q
    unfold startedOk at h
    rw [q] at h
    cases h
  have h1 := std_other unprinted Start.base.arith Start.base.native (fun id a w => by
    show (if id = 11 ∨ 25 ≤ id then Out.ub else Start.base.native id a w) = .ub ∨ _
    by_cases q : id = 11 ∨ 25 ≤ id
    · exact .inl (if_pos q)
    · exact .inr (if_neg q)) Start.prog 1 _ hu
  have h2 := std_other unprinted fl.arith (printing fl Start.base).native (fun id a w => by
    show (if id = 11 ∨ 25 ≤ id then Out.ub else Start.base.native id a w) = .ub ∨ _ = ((known fl id).getD (Start.base.native id)) a w
    by_cases q : id = 11 ∨ 25 ≤ id
    · exact .inl (if_pos q)
    · refine .inr ?_
      show (if id = 11 ∨ 25 ≤ id then Out.ub else Start.base.native id a w) = _
      rw [if_neg q, known_none q]
      rfl) Start.prog 1 _ hu
  have h3 := Start.started_ok
  unfold Start.started at h3
  exact (h2.trans h1.symm).trans h3

/-! ### Before and while `start.noja` runs -/

def setup (fl : Floats) : Setup := ⟨printing fl Start.base, 22, [], 21, [], fun _ => true, fun _ _ => true⟩

theorem setup_ok (fl : Floats) : (setup fl).Ok where
  conf := ⟨show 2 < 64 by decide, fun _ _ => rfl, fun n t f w w' r h => by cases h⟩
  deep := by show 64 ≤ 64; exact Nat.le_refl _
  statics := by show statics.length ≤ 22; decide
  arith := rfl
  print := rfl
  math := fun f => by
    show (known fl (Prim.math f).id).getD _ = _
    rw [known_math]
    rfl
  atan2 := rfl
  selectX := fun _ _ _ _ => rfl
  insertX := fun _ _ _ _ _ _ => rfl
  fine := fun _ _ _ _ _ => rfl

theorem setup_inv (fl : Floats) : Inv (setup fl) [] ⟨[], []⟩ ⟨Start.world, fun _ => none⟩ where
  err := rfl
  base := by show 22 ≤ Start.world.heap.length; decide
  tabo := rfl
  tabt := rfl
  bins := ⟨[], .inl ⟨rfl, rfl⟩, trivial⟩
  out := rfl
  len := rfl
  nodup := List.nodup_nil
  low := nofun
  cells := fun a c r hc => by cases hc

/-! ### What `start.noja` returns is plugged -/

theorem vars_map {e : Emb} {s : SSt World} : ∀ {rs : List (Ref × Ref)} {es : List (Val × Val)} {env : List (Name × Val)},
    All2 (Rep2 e s) rs es → varsOf es = some env → ∃ renv, Match s.w.heap rs renv ∧ All2 (RepVar e s) renv env
  | [], [], env, _, h => by cases h; exact ⟨[], trivial, trivial⟩
  | [], _ :: _, _, h, _ => h.elim
  | _ :: _, [], _, h, _ => h.elim
  | r :: rs, (k, v) :: es, env, ⟨h1, h2⟩, h => by
    cases k with
    | str t =>
      unfold varsOf at h
      cases hq : varsOf es with
      | none => rw [hq] at h; cases h
      | some env' =>
        rw [hq] at h
        cases h
        obtain ⟨renv, a, b⟩ := vars_map h2 hq
        obtain ⟨x, y⟩ := show s.w.heap[r.1]? = some (.str (Str.Spec.ofText t)) ∧ Plain t from h1.1
        exact ⟨(Utf8.Spec.encodeText t, r.2) :: renv, ⟨name_text x y, rfl, a⟩, ⟨rfl, h1.2⟩, b⟩
    | _ => cases h

theorem plug_inv {S : Setup} {e : Emb} {σ σ' : Store} {s : SSt World} {a b : Nat} {m : Ref} (hi : Inv S e σ s)
    (hT : S.T < s.w.heap.length) (hb : S.C.builtins = some S.T) (hm : Rep e s m (.ref a)) (hp : publish a σ = .ok σ' b)
    {C : Config} (hC : C.builtins = some s.w.heap.length) (fine : List Key → Bool) (pos : Heap → List Ref → Bool) :
    b = a ∧ Inv ⟨C, S.N, S.pre, S.T, [a], fine, pos⟩ e σ' ⟨(newClosure S.C.builtins m s.w).1, s.funs⟩ := by
  unfold publish at hp
  cases hc : σ.cells[a]? with
  | none => rw [hc] at hp; cases hp
  | some c =>
    rw [hc] at hp
    cases c with
    | list _ => cases hp
    | scope _ => cases hp
    | buffer _ => cases hp
    | map es =>
      dsimp only at hp
      cases hv : varsOf es with
      | none => rw [hv] at hp; cases hp
      | some env =>
        rw [hv] at hp
        cases hp
        refine ⟨rfl, ?_⟩
        have hh : (newClosure S.C.builtins m s.w).1.heap = s.w.heap ++ [.opaque .closure] := alloc_heap s.w _
        have l : Le [] e s e ⟨(newClosure S.C.builtins m s.w).1, s.funs⟩ :=
          .grow hh (fun x hx => if_neg (Nat.ne_of_lt hx)) (fun _ _ => rfl) (fun _ _ => rfl) (fun _ _ => rfl) (fun _ _ => rfl)
        have hx : ∀ x ∈ e, (newClosure S.C.builtins m s.w).1.heap[x]? = s.w.heap[x]? := fun x hx => by
          rw [hh, List.getElem?_append_left (hi.low x hx).2]
        have hme : m ∈ e := List.mem_of_getElem? hm
        exact
          { err := hi.err
            base := Nat.le_trans hi.base l.len
            tabo := l.obj _ _ hi.tabo nofun nofun nofun
            tabt := hi.tabt
            bins := by
              refine ⟨[m], .inr ⟨s.w.heap.length, m, hC, rfl, ?_, ?_, ?_, ?_⟩, ⟨hm, trivial⟩⟩
              · show (newClosure S.C.builtins m s.w).1.heap[s.w.heap.length]? = _
                rw [hh, List.getElem?_append_right (Nat.le_refl _)]
                simp
              · rw [← hb]
                exact if_pos rfl
              · exact (hi.low m hme).2
              · exact hT
            out := hi.out
            len := by rw [hi.len]; simp
            nodup := hi.nodup
            low := fun x hx => ⟨(hi.low x hx).1, Nat.lt_of_lt_of_le (hi.low x hx).2 l.len⟩
            cells := by
              intro b c r hc' hr
              have hr' := hx r (List.mem_of_getElem? hr)
              by_cases q : b = a
              · subst q
                have hlt := (List.getElem?_eq_some_iff.1 hc).1
                rw [show ({ σ with cells := σ.cells.set b (.scope env) } : Store).cells = σ.cells.set b (.scope env) from rfl,
                  List.getElem?_set_self hlt] at hc'
                cases hc'
                obtain ⟨rs, h1, h2, -⟩ := hi.cells _ _ _ hc hr
                obtain ⟨renv, h3, h4⟩ := vars_map h2 hv
                have hv' : Vars s.w r renv := ⟨rs, h1, h3.keys, fun n => h3.find⟩
                exact ⟨renv, Vars.le hv' l hr', h4.imp fun _ _ h => ⟨h.1, h.2.le l⟩⟩
              · rw [show ({ σ with cells := σ.cells.set a (.scope env) } : Store).cells = σ.cells.set a (.scope env) from rfl,
                  List.getElem?_set_ne (fun h => q h.symm)] at hc'
                exact (hi.cells _ _ _ hc' hr).le l hr' }

/-- Keys for which `fine` says yes are objects for which `pos` does. -/
def Means (fine : List Key → Bool) (pos : Heap → List Ref → Bool) : Prop :=
  ∀ (h : Heap) (rs : List Ref) (ks : List Key), (∀ r ∈ rs, ∃ k ∈ ks, KeyIs h r k) → fine ks = true → pos h rs = true

def clientSetup (fl : Floats) (a : Nat) (fine : List Key → Bool) (pos : Heap → List Ref → Bool) : Setup :=
  ⟨printing fl Start.config, 22, [], 21, [a], fine, pos⟩

theorem clientSetup_ok (fl : Floats) (a : Nat) {fine : List Key → Bool} {pos : Heap → List Ref → Bool}
    (hm : Means fine pos) : (clientSetup fl a fine pos).Ok where
  conf := ⟨Start.conf.fuel, Start.conf.hit, Start.conf.quiet⟩
  deep := by show 64 ≤ 64; exact Nat.le_refl _
  statics := by show statics.length ≤ 22; decide
  arith := rfl
  print := rfl
  math := fun f => by
    show (known fl (Prim.math f).id).getD _ = _
    rw [known_math]
    rfl
  atan2 := rfl
  selectX := fun _ _ _ _ => rfl
  insertX := fun _ _ _ _ _ _ => rfl
  fine := hm

/-- What becomes of the results of `start.noja`. -/
def startFrom : R (Option (List Val)) → R Nat
  | .ok σ (some [.ref a]) => publish a σ
  | .ok _ _ => .off
  | .err o => .err o
  | .off => .off
  | .more => .more

theorem publish_cases (a : Nat) (σ : Store) : publish a σ = .off ∨ ∃ σ' b, publish a σ = .ok σ' b := by
  unfold publish
  split
  · split
    · exact .inr ⟨_, _, rfl⟩
    · exact .inl rfl
  · exact .inl rfl

theorem startFrom_inv (fl : Floats) {st : SSt World} {x : R (Option (List Val))} {m : Ref}
    (h : Sim (setup fl) [] [] ⟨Start.world, fun _ => none⟩ Final (.ok st [m]) x) {C : Config}
    (hC : C.builtins = some st.w.heap.length) (fine : List Key → Bool) (pos : Heap → List Ref → Bool) :
    startFrom x = .off ∨ ∃ σ a e, startFrom x = .ok σ a ∧
      Inv ⟨C, 22, [], 21, [a], fine, pos⟩ e σ ⟨(newClosure (some 21) m st.w).1, st.funs⟩ := by
  cases x with
  | ok σ r =>
    obtain ⟨s', rs, e, h1, h2, h3, h4⟩ := h
    cases h1
    unfold startFrom
    split
    · rename_i σ₁ a h5
      cases h5
      rcases publish_cases a σ with hp | ⟨σ', b, hp⟩
      · exact .inl hp
      · obtain ⟨rfl, h5⟩ := plug_inv (C := C) h3 (get_lt h3.tabo) rfl h4.1 hp hC fine pos
        exact .inr ⟨σ', b, e, hp, h5⟩
    · exact .inl rfl
    · rename_i h5; cases h5
    · rename_i h5; cases h5
    · rename_i h5; cases h5
  | err o =>
    obtain ⟨w, h1, -⟩ := h
    cases h1
  | off => exact .inl rfl
  | more => cases h

theorem startFrom_eq (m : B (Option (List Val))) (σ : Store) :
    (m >>= fun r => match r with | some [.ref a] => publish a | _ => leave : B Nat) σ = startFrom (m σ) := by
  show B.bind m _ σ = _
  unfold B.bind
  cases m σ with
  | ok σ r =>
    dsimp only
    unfold startFrom
    split
    · rfl
    · rename_i h
      split
      · rename_i h'; cases h'; exact absurd rfl (h _)
      · rfl
      · rename_i h'; cases h'
      · rename_i h'; cases h'
      · rename_i h'; cases h'
  | _ => rfl

theorem startUp_eq [Floats] : startUp ⟨[], []⟩ = startFrom (mean (fun _ => true) [] 1 Start.prog ⟨[], []⟩) := by
  unfold startUp
  exact startFrom_eq _ _

theorem config_builtins (C : Config) (m : Ref) (s : SSt World) :
    (Start.plug C m s).1.builtins = some s.w.heap.length := rfl

theorem printing_builtins (fl : Floats) (C : Config) : (printing fl C).builtins = C.builtins := rfl

attribute [local irreducible] Sim in
/-- What the book says about the start holds of the state after it. -/
theorem startUp_inv (fl : Floats) (fine : List Key → Bool) (pos : Heap → List Ref → Bool) : startUp ⟨[], []⟩ = .off ∨
    ∃ σ a e, startUp ⟨[], []⟩ = .ok σ a ∧ Inv (clientSetup fl a fine pos) e σ
      ⟨(newClosure Start.base.builtins 92 Start.startedState.w).1, Start.startedState.funs⟩ := by
  have h : Sim (setup fl) [] [] ⟨Start.world, fun _ => none⟩ Final
      (Start.prog.mean (objects (std (printing fl Start.base))) 1 ⟨Start.world, fun _ => none⟩)
      (mean (fun _ => true) [] 1 Start.prog ⟨[], []⟩) := mean_at (setup_ok fl) (setup_inv fl) rfl rfl rfl 1 Start.prog
  rw [started_printing fl] at h
  rw [startUp_eq]
  exact startFrom_inv fl h (C := printing fl Start.config) (by
    rw [printing_builtins]
    exact config_builtins _ _ _) fine pos

/-- What a program does after the start. -/
def after [Floats] (fine : List Key → Bool) (fuel : Nat) (p : Stmts) : R Nat → R (Option (List Val))
  | .ok σ a => mean fine [a] fuel p σ
  | .err o => .err o
  | .off => .off
  | .more => .more

theorem after_eq [Floats] (fine : List Key → Bool) (fuel : Nat) (p : Stmts) (m : B Nat) (σ : Store) :
    (m >>= fun a => mean fine [a] fuel p : B (Option (List Val))) σ = after fine fuel p (m σ) := by
  show B.bind m _ σ = _
  unfold B.bind after
  cases m σ <;> rfl

theorem runIf_eq [Floats] (fine : List Key → Bool) (fuel : Nat) (p : Stmts) : runIf fine fuel p = after fine fuel p (startUp ⟨[], []⟩) := by
  unfold runIf
  exact after_eq _ _ _ _ _

theorem run_eq [Floats] (fuel : Nat) (p : Stmts) : run fuel p = after (fun _ => true) fuel p (startUp ⟨[], []⟩) := runIf_eq _ _ _

theorem means_all : Means (fun _ => true) (fun _ _ => true) := fun _ _ _ _ _ => rfl

/-- `start.noja` on the machine. -/
def boot (fl : Floats) (cap k : Nat) : Status World :=
  start (objects (std (printing fl Start.base))) cap 0 ⟨Start.world, fun _ => none, [compile Start.prog], [], []⟩ k

/-- The code of a program on the machine, `start.noja` having ended in the state `u` and its result
having been made the innermost of the builtins. -/
def client (fl : Floats) (cap : Nat) (u : St World) (code : List Instr) (k : Nat) : Status World :=
  start (objects (std (printing fl Start.config))) cap u.exes.length
    ⟨(newClosure Start.base.builtins 92 u.w).1, u.funcs, u.exes ++ [code], [], []⟩ k

/-- C90, in full: what the book says about a program is what the interpreter does. -/
def C90Statement : Prop :=
  ∀ (fl : Floats) (n : Nat) (vs : List Ref) (u : St World), boot fl 1024 n = .done vs u →
    ∀ (p : Stmts), p.wf false = true → ∀ fuel, Agrees [] (fun x => ∃ k, client fl 1024 u (compile p) k = x) (run fuel p)

theorem boot_result (fl : Floats) {cap n : Nat} {vs : List Ref} {u : St World} (h : boot fl cap n = .done vs u) :
    vs = [92] ∧ u.w = Start.startedState.w ∧ Rel u.exes u.funcs Start.startedState.funs := by
  have h1 := mean_run (cap := cap) (objects_lawful (std (printing fl Start.base))) Start.prog Start.prog_wf Start.world
    (fun _ => none) (fun _ => none) [] (fun _ => trivial) [] 1
  rw [started_printing fl] at h1
  rcases h1 with ⟨k', t, h1⟩ | ⟨k', u', h1, hw, -, -, -, hrel⟩
  · cases start_stable h h1 nofun nofun
  · cases start_stable h h1 nofun nofun
    exact ⟨rfl, hw, hrel⟩

theorem state_out : Start.state.w.out = [] := by
  have h : (match Start.state.w.out with | [] => true | _ => false) = true := by decide +kernel
  cases q : Start.state.w.out with
  | nil => rfl
  | cons a l => rw [q] at h; cases h

theorem plug_w (C : Config) (m : Ref) (s : SSt World) : (Start.plug C m s).2.w = (newClosure C.builtins m s.w).1 := rfl

theorem plug_funs (C : Config) (m : Ref) (s : SSt World) : (Start.plug C m s).2.funs = s.funs := rfl

theorem state_w : Start.state.w = (newClosure Start.base.builtins 92 Start.startedState.w).1 := plug_w _ _ _

theorem state_funs : Start.state.funs = Start.startedState.funs := plug_funs _ _ _

/-- C90, for programs: once `start.noja` has run, the machine does with a program what the book says, or it reports that
one of its limits (of the stack, of nested calls, of arguments) was met. -/
theorem C90_program_partial (fl : Floats) {cap n : Nat} {vs : List Ref} {u : St World}
    (h : boot fl cap n = .done vs u) (p : Stmts) (hw : p.wf false = true) (fuel : Nat) :
    (∃ k t, client fl cap u (compile p) k = .limit t) ∨
    (Agrees [] (fun x => ∃ k, client fl cap u (compile p) k = x) (run fuel p) ∧
      (run fuel p = .more → ∃ t, client fl cap u (compile p) fuel = .run t)) := by
  obtain ⟨-, h1, h2⟩ := boot_result fl h
  rw [run_eq]
  rcases startUp_inv fl (fun _ => true) (fun _ _ => true) with hs | ⟨σ, a, e, hs, hi⟩
  · rw [hs]
    exact .inr ⟨trivial, nofun⟩
  · rw [hs]
    have h3 := machine_at (clientSetup_ok fl a means_all) hi rfl rfl rfl rfl cap p hw u.funcs u.exes h2 [] fuel
    rw [← h1] at h3
    exact h3

/-- C90, for texts: a text that compiles is a text of the grammar, and the machine does with what is in its executable
what the book says about the program read from the text, or it reports that one of its limits was met. -/
theorem C90_partial (flt : List UInt8 → Option (BitVec 64)) (fl : Floats) (past : UInt8) {cap n : Nat}
    {vs : List Ref} {u : St World} (h : boot fl cap n = .done vs u) (src : List UInt8) (x : Exe.Executable)
    (hx : compileText flt past src = .ok x) :
    ∃ ts root p code, Split src 0 ts ∧ Program flt ts root ∧ root.elab false = some p ∧
      x.body.length = code.length ∧ (∀ i, Exe.fetch x i = (code[i]?).map Instr.encode) ∧
      ∀ fuel, (∃ k t, client fl cap u code k = .limit t) ∨
        (Agrees [] (fun y => ∃ k, client fl cap u code k = y) (run fuel p) ∧
          (run fuel p = .more → ∃ t, client fl cap u code fuel = .run t)) := by
  obtain ⟨ts, root, p, h1, h2, h3, h4, h5⟩ := C84_only flt past src x hx
  exact ⟨ts, root, p, compile p, h1, h2, h3, h4, h5, fun fuel => C90_program_partial fl h p (root.elab_wf false p h3) fuel⟩

/-- C90: a program that does not end according to the book does not end, unless it meets a limit. -/
theorem C90_endless (fl : Floats) {cap n : Nat} {vs : List Ref} {u : St World} (h : boot fl cap n = .done vs u)
    (p : Stmts) (hw : p.wf false = true) (hm : ∀ fuel, run fuel p = .more) :
    (∃ k t, client fl cap u (compile p) k = .limit t) ∨ ∀ k, ∃ t, client fl cap u (compile p) k = .run t := by
  by_cases hl : ∃ k t, client fl cap u (compile p) k = .limit t
  · exact .inl hl
  · exact .inr fun k => ((C90_program_partial fl h p hw k).resolve_left hl).2 (hm k)

/-! ## Examples -/

/-- A floating point unit that knows that 1.5 + 2 is 3.5. -/
def toy : Floats where
  add x y := if x = 0x3FF8000000000000#64 ∧ y = 0x4000000000000000#64 then 0x400C000000000000#64 else x
  sub x _ := x
  mul x _ := x
  div x _ := x
  fn _ x := x
  atan2 x _ := x
  write x := if x = 0x3FF8000000000000#64 then text "1.5" else if x = 0x400C000000000000#64 then text "3.5" else []

attribute [local instance] toy

/-- `strtod`, on one number. -/
def literal (bs : List UInt8) : Option (BitVec 64) := if bs = text "1.5" then some 0x3FF8000000000000#64 else none

/-- What the book says that the program of a text writes. -/
def writes (src : List UInt8) (fuel : Nat) : Option Text :=
  match Parse.parse literal 0 src with
  | .ok root =>
    match root.elab false with
    | some p =>
      match run fuel p with
      | .ok σ _ => some σ.out
      | .err o => some o
      | _ => none
    | none => none
  | _ => none

/-- `fun f(n: int) { if n < 2: return n; return f(n-1)+f(n-2); } a = [f(9)]; a[1] = {"é": a}; print(a, count(a));`
writes `[34, {é: ...}]2` -/
example : writes
    [102, 117, 110, 32, 102, 40, 110, 58, 32, 105, 110, 116, 41, 32, 123, 32, 105, 102, 32, 110, 32, 60, 32, 50, 58,
      32, 114, 101, 116, 117, 114, 110, 32, 110, 59, 32, 114, 101, 116, 117, 114, 110, 32, 102, 40, 110, 45, 49, 41,
      43, 102, 40, 110, 45, 50, 41, 59, 32, 125, 32, 97, 32, 61, 32, 91, 102, 40, 57, 41, 93, 59, 32, 97, 91, 49,
      93, 32, 61, 32, 123, 34, 195, 169, 34, 58, 32, 97, 125, 59, 32, 112, 114, 105, 110, 116, 40, 97, 44, 32, 99,
      111, 117, 110, 116, 40, 97, 41, 41, 59]
    20 = some [91, 51, 52, 44, 32, 123, 195, 169, 58, 32, 46, 46, 46, 125, 93, 50] := by decide +kernel

/-- `fun f(x: ?int) { if x == none: return 7; return abs(x); } print(toString(f(-42)), f(none), keysof({"a": 1}), int | ?String, istypeof([int], [1])); f("s");`
writes `427[a]int | ?Stringtrue`; then `f` refuses its argument. -/
example : writes
    [102, 117, 110, 32, 102, 40, 120, 58, 32, 63, 105, 110, 116, 41, 32, 123, 32, 105, 102, 32, 120, 32, 61,
     61, 32, 110, 111, 110, 101, 58, 32, 114, 101, 116, 117, 114, 110, 32, 55, 59, 32, 114, 101, 116, 117,
     114, 110, 32, 97, 98, 115, 40, 120, 41, 59, 32, 125, 32, 112, 114, 105, 110, 116, 40, 116, 111, 83, 116,
     114, 105, 110, 103, 40, 102, 40, 45, 52, 50, 41, 41, 44, 32, 102, 40, 110, 111, 110, 101, 41, 44, 32,
     107, 101, 121, 115, 111, 102, 40, 123, 34, 97, 34, 58, 32, 49, 125, 41, 44, 32, 105, 110, 116, 32, 124,
     32, 63, 83, 116, 114, 105, 110, 103, 44, 32, 105, 115, 116, 121, 112, 101, 111, 102, 40, 91, 105, 110,
     116, 93, 44, 32, 91, 49, 93, 41, 41, 59, 32, 102, 40, 34, 115, 34, 41, 59]
    30 = some
    [52, 50, 55, 91, 97, 93, 105, 110, 116, 32, 124, 32, 63, 83, 116, 114, 105, 110, 103, 116, 114, 117, 101] := by decide +kernel

/-- `it = makeIterator([10, 20]); s = 0; x = it->next(); while x != none: { s = s + x; x = it->next(); } print(s);`
writes `30`. -/
example : writes
    [105, 116, 32, 61, 32, 109, 97, 107, 101, 73, 116, 101, 114, 97, 116, 111, 114, 40, 91, 49, 48, 44, 32,
     50, 48, 93, 41, 59, 32, 115, 32, 61, 32, 48, 59, 32, 120, 32, 61, 32, 105, 116, 45, 62, 110, 101, 120,
     116, 40, 41, 59, 32, 119, 104, 105, 108, 101, 32, 120, 32, 33, 61, 32, 110, 111, 110, 101, 58, 32, 123,
     32, 115, 32, 61, 32, 115, 32, 43, 32, 120, 59, 32, 120, 32, 61, 32, 105, 116, 45, 62, 110, 101, 120, 116,
     40, 41, 59, 32, 125, 32, 112, 114, 105, 110, 116, 40, 115, 41, 59]
    30 = some
    [51, 48] := by decide +kernel

def isDone : Status World → Bool
  | .done _ _ => true
  | _ => false

/-- `a, e = string.toInt("12x"); print(string.trim("hé  "), string.slice("abcd", 1, 2), string.toInt("42"), a, e);` -/
example : writes
    [97, 44, 32, 101, 32, 61, 32, 115, 116, 114, 105, 110, 103, 46, 116, 111, 73, 110, 116, 40, 34, 49,
     50, 120, 34, 41, 59, 32, 112, 114, 105, 110, 116, 40, 115, 116, 114, 105, 110, 103, 46, 116, 114,
     105, 109, 40, 34, 104, 195, 169, 32, 32, 34, 41, 44, 32, 115, 116, 114, 105, 110, 103, 46, 115, 108,
     105, 99, 101, 40, 34, 97, 98, 99, 100, 34, 44, 32, 49, 44, 32, 50, 41, 44, 32, 115, 116, 114, 105,
     110, 103, 46, 116, 111, 73, 110, 116, 40, 34, 52, 50, 34, 41, 44, 32, 97, 44, 32, 101, 41, 59]
    20 = some [104, 195, 169, 98, 99, 52, 50, 110, 111, 110, 101, 83, 116, 114, 105, 110, 103, 32, 100, 111, 101,
     115, 110, 39, 116, 32, 99, 111, 110, 116, 97, 105, 110, 32, 97, 110, 32, 105, 110, 116, 101, 103,
     101, 114] := by decide +kernel

/-- `x = 1.5; print(x, x < 2, -x < x, x == x, x + 2, type(x), [x]); x / 0;` writes `1.5truetruetrue3.5float[1.5]`, and then there is an error. -/
example : writes
    [120, 32, 61, 32, 49, 46, 53, 59, 32, 112, 114, 105, 110, 116, 40, 120, 44, 32, 120, 32, 60, 32, 50, 44, 32,
     45, 120, 32, 60, 32, 120, 44, 32, 120, 32, 61, 61, 32, 120, 44, 32, 120, 32, 43, 32, 50, 44, 32, 116, 121,
     112, 101, 40, 120, 41, 44, 32, 91, 120, 93, 41, 59, 32, 120, 32, 47, 32, 48, 59]
    20 = some [49, 46, 53, 116, 114, 117, 101, 116, 114, 117, 101, 116, 114, 117, 101, 51, 46, 53, 102, 108, 111, 97, 116,
     91, 49, 46, 53, 93] := by decide +kernel

/-- `b = buffer.new(3); b[1] = 255; b[2] = math.floor(-1.5) + 12; print(b, b[2], b[7], count(b), buffer.toString(buffer.fromString("hé")), math.ceil(1.5), math.sqrt(1.5), math.tau); b[3] = 1;`
writes `[00, FF, 0A]10none3hé21.5none`, and then there is an error. -/
example : writes
    [98, 32, 61, 32, 98, 117, 102, 102, 101, 114, 46, 110, 101, 119, 40, 51, 41, 59, 32, 98, 91, 49, 93, 32,
     61, 32, 50, 53, 53, 59, 32, 98, 91, 50, 93, 32, 61, 32, 109, 97, 116, 104, 46, 102, 108, 111, 111, 114,
     40, 45, 49, 46, 53, 41, 32, 43, 32, 49, 50, 59, 32, 112, 114, 105, 110, 116, 40, 98, 44, 32, 98, 91, 50,
     93, 44, 32, 98, 91, 55, 93, 44, 32, 99, 111, 117, 110, 116, 40, 98, 41, 44, 32, 98, 117, 102, 102, 101,
     114, 46, 116, 111, 83, 116, 114, 105, 110, 103, 40, 98, 117, 102, 102, 101, 114, 46, 102, 114, 111, 109,
     83, 116, 114, 105, 110, 103, 40, 34, 104, 195, 169, 34, 41, 41, 44, 32, 109, 97, 116, 104, 46, 99, 101,
     105, 108, 40, 49, 46, 53, 41, 44, 32, 109, 97, 116, 104, 46, 115, 113, 114, 116, 40, 49, 46, 53, 41, 44,
     32, 109, 97, 116, 104, 46, 116, 97, 117, 41, 59, 32, 98, 91, 51, 93, 32, 61, 32, 49, 59]
    20 = some [91, 48, 48, 44, 32, 70, 70, 44, 32, 48, 65, 93, 49, 48, 110, 111, 110, 101, 51, 104, 195, 169, 50, 49,
     46, 53, 110, 111, 110, 101] := by decide +kernel

/-- `fun f(l: ?[int]) { if l == none: return 0; return l[0]; } print(f([7]), f(none), istypeof({"a": int} | none, {"a": 1}), istypeof(3 | int, "3")); f(["x"]);`
writes `70truefalse`; then `f` refuses its argument. -/
example : writes
    [102, 117, 110, 32, 102, 40, 108, 58, 32, 63, 91, 105, 110, 116, 93, 41, 32, 123, 32, 105, 102, 32, 108,
     32, 61, 61, 32, 110, 111, 110, 101, 58, 32, 114, 101, 116, 117, 114, 110, 32, 48, 59, 32, 114, 101, 116,
     117, 114, 110, 32, 108, 91, 48, 93, 59, 32, 125, 32, 112, 114, 105, 110, 116, 40, 102, 40, 91, 55, 93,
     41, 44, 32, 102, 40, 110, 111, 110, 101, 41, 44, 32, 105, 115, 116, 121, 112, 101, 111, 102, 40, 123, 34,
     97, 34, 58, 32, 105, 110, 116, 125, 32, 124, 32, 110, 111, 110, 101, 44, 32, 123, 34, 97, 34, 58, 32, 49,
     125, 41, 44, 32, 105, 115, 116, 121, 112, 101, 111, 102, 40, 51, 32, 124, 32, 105, 110, 116, 44, 32, 34,
     51, 34, 41, 41, 59, 32, 102, 40, 91, 34, 120, 34, 93, 41, 59]
    20 = some [55, 48, 116, 114, 117, 101, 102, 97, 108, 115, 101] := by decide +kernel

/-- `start.noja` ends. -/
example : ∃ vs u, boot toy 1024 1000 = .done vs u := by
  have h : isDone (boot toy 1024 1000) = true := by decide +kernel
  revert h
  cases boot toy 1024 1000 with
  | done vs u => exact fun _ => ⟨vs, u, rfl⟩
  | _ => intro h; cases h

/-! ## Limits -/

/-- `1 + (1 + … (1 + 1))` -/
def ones : Nat → Expr
  | 0 => .int 1
  | n + 1 => .bin .add (.int 1) (ones n)

def isLimit : Status World → Bool
  | .limit _ => true
  | _ => false

def isReturn : R (Option (List Val)) → Bool
  | .ok _ (some _) => true
  | _ => false

/-- The sum of seventeen ones, in this way, does not fit in the part of the stack that a call has. -/
theorem C90_violated : ¬ C90Statement := by
  intro h
  have hb : (match boot toy 1024 1000 with
      | .done _ u => isLimit (client toy 1024 u (compile (.cons (.ret (.cons (ones 16) .nil)) .nil)) 100)
      | _ => false) = true := by decide +kernel
  cases hs : boot toy 1024 1000 with
  | done vs u =>
    rw [hs] at hb
    have ha := h toy _ _ _ hs (.cons (.ret (.cons (ones 16) .nil)) .nil) (by decide) 1
    have hr : isReturn (run 1 (.cons (.ret (.cons (ones 16) .nil)) .nil)) = true := by decide +kernel
    generalize run 1 (.cons (.ret (.cons (ones 16) .nil)) .nil) = r at ha hr
    cases r with
    | ok σ o =>
      cases o with
      | none => cases hr
      | some vs' =>
        obtain ⟨rs, u', ⟨k, hk⟩, -⟩ := ha
        have hb : isLimit (client toy 1024 u (compile (.cons (.ret (.cons (ones 16) .nil)) .nil)) 100) = true := hb
        cases hl : client toy 1024 u (compile (.cons (.ret (.cons (ones 16) .nil)) .nil)) 100 with
        | limit t =>
          cases start_stable hk hl nofun nofun
        | _ => rw [hl] at hb; cases hb
    | _ => cases hr
  | _ => rw [hs] at hb; cases hb

end Noja.VM.Book
