import Verif.VM.Book.Inv
import Verif.VM.Book.Broken

/-!
# Operations do what the book says
-/

set_option linter.unusedVariables false
set_option linter.unusedSimpArgs false

namespace Noja.VM.Book

open Noja.Graph (Obj Kind Heap)

variable [fl : Floats] {S : Setup} {D : List Ref} {e : Emb} {σ : Store} {s : SSt World}

abbrev LS (S : Setup) : Layer World := objects (std S.C)

/-! ## Constants and new objects -/

omit fl in
theorem rep_none (e : Emb) (s : SSt World) : Rep e s 0 .none := heap_static _ _ (by decide)
omit fl in
theorem rep_bool (e : Emb) (s : SSt World) (b : Bool) : Rep e s (boolRef b) (.bool b) := by
  cases b <;> exact heap_static _ _ (by decide)

/-- An object for a value was made. -/
theorem sim_mk (ok : S.Ok) (hi : Inv S e σ s) {f : World → Out World Ref} {o : Obj} {v : Val} (hf : f s.w = mk s.w o)
    (hr : ∀ s' : SSt World, ∀ r, s'.w.heap[r]? = some o → Rep e s' r v) :
    Sim S D e s Rep (lift (LS S) f s) (.ok σ v) :=
  Sim.lift hf (.alloc D e s o) (hi.alloc ok o) (hr _ _ (alloc_get _ _))

/-! ## Texts -/

omit fl in
theorem takeWhile_zero : ∀ (l : List UInt8), (0 : UInt8) ∉ l.takeWhile (· ≠ 0)
  | [] => by simp
  | b :: l => by
    by_cases h : b = 0
    · subst h; simp
    · rw [List.takeWhile_cons_of_pos (by simpa using h)]
      intro hm
      rcases List.mem_cons.1 hm with h0 | hm
      · exact h h0.symm
      · exact takeWhile_zero l hm

omit fl in
theorem readText_eq {bs : List UInt8} {t : List Nat} (h : readText bs = some t) :
    Plain t ∧ Utf8.Spec.encodeText t = bs := by
  unfold readText at h
  split at h
  · rename_i hp
    cases h
    exact hp
  · cases h

omit fl in
theorem Plain.valid {t : List Nat} (h : Plain t) : ∀ c ∈ t, Utf8.Spec.Valid c := fun c hc => (h c hc).2

omit fl in
theorem cstring_text {t : List Nat} (h : Plain t) (h0 : (0 : UInt8) ∉ Utf8.Spec.encodeText t) :
    cstring (Utf8.Spec.encodeText t) = .ok (Str.Spec.ofText t) := by
  unfold cstring Str.fromCString
  rw [cstrlen_nul _ h0, Exec.bind_ok]
  exact Str.C03_fromString t h.valid [0]

omit fl in
theorem cstring_broken {bs : List UInt8} (h : broken bs = true) (h0 : (0 : UInt8) ∉ bs) : cstring bs = .err := by
  unfold cstring Str.fromCString
  rw [cstrlen_nul _ h0, Exec.bind_ok]
  unfold Str.fromString
  rw [strlen_broken h]
  rfl

theorem sim_str (ok : S.Ok) (hi : Inv S e σ s) (bs : List UInt8) :
    Sim S D e s Rep (lift (LS S) ((LS S).str bs) s)
      ((match readText (bs.takeWhile (· ≠ 0)) with
        | some t => pure (.str t)
        | none => if broken (bs.takeWhile (· ≠ 0)) then stop else leave : B Val) σ) := by
  cases h : readText (bs.takeWhile (· ≠ 0)) with
  | none =>
    dsimp only
    by_cases hb : broken (bs.takeWhile (· ≠ 0)) = true
    · rw [if_pos hb]
      refine Sim.liftErr hi (w := s.w) ?_ rfl
      show (outOf s.w (cstring (bs.takeWhile (· ≠ 0)))).bind _ = _
      rw [cstring_broken hb (takeWhile_zero bs)]
      rfl
    · rw [if_neg hb]
      trivial
  | some t =>
    obtain ⟨hp, he⟩ := readText_eq h
    refine sim_mk ok hi (o := .str (Str.Spec.ofText t)) ?_ fun s' r hr => ⟨hr, hp⟩
    show (outOf s.w (cstring (bs.takeWhile (· ≠ 0)))).bind _ = _
    have h0 := takeWhile_zero bs
    rw [← he] at h0 ⊢
    rw [cstring_text hp h0]
    rfl

theorem sim_int (ok : S.Ok) (hi : Inv S e σ s) (v : Int) :
    Sim S D e s Rep (lift (LS S) ((LS S).int v) s) (retInt v σ) := by
  unfold retInt
  by_cases h : fits64 v = true
  · rw [if_pos h]
    exact sim_mk ok hi (o := .int v) rfl fun s' r hr => hr
  · rw [if_neg h]
    trivial

theorem sim_float (ok : S.Ok) (hi : Inv S e σ s) (x : BitVec 64) :
    Sim S D e s Rep (lift (LS S) ((LS S).float x) s) (.ok σ (.float x)) :=
  sim_mk ok hi (o := .float x) rfl fun s' r hr => hr

/-! ## Booleans -/

omit fl in
theorem sim_truth (hi : Inv S e σ s) {r : Ref} {v : Val} (hr : Rep e s r v) :
    Sim S D e s (fun _ _ a b => a = b) (lift (LS S) ((LS S).asBool r) s) (truth v σ) := by
  obtain ⟨o, ho, hl⟩ := hr.looks hi
  have stop : (∀ b, o ≠ .bool b) → Sim S D e s (fun _ _ (a b : Bool) => a = b) (lift (LS S) ((LS S).asBool r) s) (.err σ.out) := by
    intro hn
    refine Sim.liftErr hi (w := s.w) ?_ rfl
    show (match s.w.heap[r]? with
      | some (.bool b) => Out.ok s.w b
      | some _ => .err s.w
      | none => .ub) = _
    rw [ho]
    cases o with
    | bool b => exact absurd rfl (hn b)
    | _ => rfl
  cases v with
  | bool b =>
    have hl' : o = .bool b := hl
    subst hl'
    refine Sim.lift (w := s.w) (a := b) ?_ (.refl _ _ _) hi rfl
    show (match s.w.heap[r]? with
      | some (.bool b) => Out.ok s.w b
      | some _ => .err s.w
      | none => .ub) = _
    rw [ho]
  | str t => exact stop fun b hb => by rw [hl.1] at hb; cases hb
  | ref a =>
    refine stop fun b hb => ?_
    rcases hl with ⟨_, _, h, _⟩ | ⟨_, _, h, _⟩ | ⟨_, _, h, _⟩ | ⟨_, h, _⟩ <;> rw [hb] at h <;> cases h
  | type t =>
    refine stop fun b hb => ?_
    rcases TyLooks.cases hl with ⟨_, h⟩ | h | ⟨_, _, h⟩ | ⟨_, h⟩ <;> rw [hb] at h <;> cases h
  | _ => exact stop fun b hb => by rw [show o = _ from hl] at hb; cases hb

/-! ## Operators -/

omit fl in
theorem opEql_text {t u : List Nat} (ht : Plain t) (hu : Plain u) :
    Str.opEql (Str.Spec.ofText t) (Str.Spec.ofText u) = .ok (decide (t = u)) := by
  have h1 := Str.C03_fromString t ht.valid []
  have h2 := Str.C03_fromString u hu.valid []
  rw [List.append_nil] at h1 h2
  rw [Str.C21_eq_partial _ _ _ _ h1 h2 (noNul_text ht) (noNul_text hu)]
  congr 1
  rw [Bool.eq_iff_iff, decide_eq_true_eq, decide_eq_true_eq]
  exact ⟨encodeText_inj ht hu, fun h => by rw [h]⟩

omit fl in
theorem low_mag (x : BitVec 64) : (x &&& 0x7FFFFFFFFFFFFFFF#64).toNat = Num.mag x := by
  rw [BitVec.toNat_and]
  show x.toNat &&& (2 ^ 63 - 1) = _
  rw [Nat.and_two_pow_sub_one_eq_mod]
  rfl

omit fl in
theorem graph_isNaN (x : BitVec 64) : Graph.isNaN x = Num.isNaN x := by
  unfold Graph.isNaN Num.isNaN
  rw [Bool.eq_iff_iff, decide_eq_true_eq, decide_eq_true_eq, gt_iff_lt, BitVec.lt_def, low_mag]
  rfl

omit fl in
theorem graph_isZero (x : BitVec 64) : Graph.isZero x = Num.isZero x := by
  unfold Graph.isZero Num.isZero
  rw [Bool.eq_iff_iff, beq_iff_eq, decide_eq_true_eq, ← BitVec.toNat_inj, low_mag]
  rfl

omit fl in
theorem key_eq_iff (x y : BitVec 64) : Num.key x = Num.key y ↔ Num.scaled x = Num.scaled y := by
  have h1 := Num.key_le_iff x y
  have h2 := Num.key_le_iff y x
  omega

omit fl in
theorem key_eq (x y : BitVec 64) : Num.key x = Num.key y ↔ x = y ∨ (Num.isZero x = true ∧ Num.isZero y = true) := by
  rw [← BitVec.toNat_inj]
  unfold Num.key Num.sign Num.isZero Num.mag
  have hx := x.isLt
  have hy := y.isLt
  generalize x.toNat = a at *
  generalize y.toNat = b at *
  simp only [decide_eq_true_eq]
  by_cases ha : a ≥ 2 ^ 63 <;> by_cases hb : b ≥ 2 ^ 63
  · rw [if_pos ha, if_pos hb]; omega
  · rw [if_pos ha, if_neg hb]; omega
  · rw [if_neg ha, if_pos hb]; omega
  · rw [if_neg ha, if_neg hb]; omega

omit fl in
theorem floatEq_worth (x y : BitVec 64) : Graph.floatEq x y = floatRel (fun m n => decide (m = n)) x y := by
  unfold Graph.floatEq floatRel worth
  rw [graph_isNaN, graph_isNaN, graph_isZero, graph_isZero]
  cases h1 : Num.isNaN x <;> cases h2 : Num.isNaN y <;> simp [← key_eq_iff, key_eq]
  rw [Bool.eq_iff_iff]
  simp
omit fl in
theorem worth_zero {x : BitVec 64} : worth x = some 0 ↔ Num.isZero x = true := by
  unfold worth
  rw [Num.isZero_iff]
  by_cases h : Num.isNaN x = true
  · rw [if_pos h]
    refine ⟨nofun, fun q => ?_⟩
    rw [← Num.isZero_iff] at q
    have h1 : Num.mag x > 2047 * 2 ^ 52 := of_decide_eq_true h
    have h2 : Num.mag x = 0 := of_decide_eq_true q
    omega
  · rw [if_neg h]
    exact ⟨fun q => Option.some.inj q, fun q => by rw [q]⟩

omit fl in
theorem rel_lt (x y : BitVec 64) : Num.lt x y = floatRel (fun m n => decide (m < n)) x y := by
  unfold Num.lt floatRel worth
  cases h1 : Num.isNaN x <;> cases h2 : Num.isNaN y <;> simp [Num.key_lt_iff]

omit fl in
theorem rel_le (x y : BitVec 64) : Num.le x y = floatRel (fun m n => decide (m ≤ n)) x y := by
  unfold Num.le floatRel worth
  cases h1 : Num.isNaN x <;> cases h2 : Num.isNaN y <;> simp [Num.key_le_iff]

omit fl in
theorem floatRel_swap (r : Int → Int → Bool) (x y : BitVec 64) : floatRel r y x = floatRel (fun m n => r n m) x y := by
  unfold floatRel
  cases worth x <;> cases worth y <;> rfl

omit fl in
theorem rel_lss (x y : BitVec 64) : Num.relFloat .lss x y = floatRel (fun m n => decide (m < n)) x y := rel_lt x y
omit fl in
theorem rel_leq (x y : BitVec 64) : Num.relFloat .leq x y = floatRel (fun m n => decide (m ≤ n)) x y := rel_le x y
omit fl in
theorem rel_grt (x y : BitVec 64) : Num.relFloat .grt x y = floatRel (fun m n => decide (m > n)) x y :=
  (rel_lt y x).trans (floatRel_swap _ _ _)
omit fl in
theorem rel_geq (x y : BitVec 64) : Num.relFloat .geq x y = floatRel (fun m n => decide (m ≥ n)) x y :=
  (rel_le y x).trans (floatRel_swap _ _ _)

omit fl in
/-- Comparing objects. -/
theorem compare_vals {o p : Obj} {x y : Val} {k : Kind} (ho : Looks σ o x) (hp : Looks σ p y)
    (hx : kindOf σ x = some k) (hy : kindOf σ y = some k) :
    match equal x y σ with
    | .ok σ' b => σ' = σ ∧ Graph.opEql o p = .ok b
    | .err out => out = σ.out ∧ Graph.opEql o p = .err
    | _ => True := by
  have kx := ho.kind hx
  have ky := hp.kind hy
  unfold equal
  rw [hx, hy]
  dsimp only
  rw [if_neg (by simp)]
  cases x with
  | none =>
    have ho' : o = .none := ho
    subst ho'
    cases y with
    | none => have hp' : p = .none := hp; subst hp'; exact ⟨rfl, rfl⟩
    | ref a => rcases hp with ⟨_, _, rfl, _⟩ | ⟨_, _, rfl, _⟩ | ⟨_, _, rfl, _⟩ | ⟨_, rfl, _⟩ <;> rw [← kx] at ky <;> cases ky
    | str t => rw [hp.1, ← kx] at ky; cases ky
    | type t => rcases TyLooks.cases hp with ⟨_, rfl⟩ | rfl | ⟨_, _, rfl⟩ | ⟨_, rfl⟩ <;> rw [← kx] at ky <;> cases ky
    | _ => rw [show p = _ from hp, ← kx] at ky; cases ky
  | bool a =>
    have ho' : o = .bool a := ho
    subst ho'
    cases y with
    | bool b => have hp' : p = .bool b := hp; subst hp'; exact ⟨rfl, rfl⟩
    | ref a => rcases hp with ⟨_, _, rfl, _⟩ | ⟨_, _, rfl, _⟩ | ⟨_, _, rfl, _⟩ | ⟨_, rfl, _⟩ <;> rw [← kx] at ky <;> cases ky
    | str t => rw [hp.1, ← kx] at ky; cases ky
    | type t => rcases TyLooks.cases hp with ⟨_, rfl⟩ | rfl | ⟨_, _, rfl⟩ | ⟨_, rfl⟩ <;> rw [← kx] at ky <;> cases ky
    | _ => rw [show p = _ from hp, ← kx] at ky; cases ky
  | int a =>
    have ho' : o = .int a := ho
    subst ho'
    cases y with
    | int b => have hp' : p = .int b := hp; subst hp'; exact ⟨rfl, rfl⟩
    | ref a => rcases hp with ⟨_, _, rfl, _⟩ | ⟨_, _, rfl, _⟩ | ⟨_, _, rfl, _⟩ | ⟨_, rfl, _⟩ <;> rw [← kx] at ky <;> cases ky
    | str t => rw [hp.1, ← kx] at ky; cases ky
    | type t => rcases TyLooks.cases hp with ⟨_, rfl⟩ | rfl | ⟨_, _, rfl⟩ | ⟨_, rfl⟩ <;> rw [← kx] at ky <;> cases ky
    | _ => rw [show p = _ from hp, ← kx] at ky; cases ky
  | float a =>
    have ho' : o = .float a := ho
    subst ho'
    cases y with
    | float b => have hp' : p = .float b := hp; subst hp'; exact ⟨rfl, by rw [← floatEq_worth]; rfl⟩
    | ref a => rcases hp with ⟨_, _, rfl, _⟩ | ⟨_, _, rfl, _⟩ | ⟨_, _, rfl, _⟩ | ⟨_, rfl, _⟩ <;> rw [← kx] at ky <;> cases ky
    | str t => rw [hp.1, ← kx] at ky; cases ky
    | type t => rcases TyLooks.cases hp with ⟨_, rfl⟩ | rfl | ⟨_, _, rfl⟩ | ⟨_, rfl⟩ <;> rw [← kx] at ky <;> cases ky
    | _ => rw [show p = _ from hp, ← kx] at ky; cases ky
  | str t =>
    obtain ⟨rfl, ht⟩ := ho
    cases y with
    | str u => obtain ⟨rfl, hu⟩ := hp; exact ⟨rfl, opEql_text ht hu⟩
    | ref a => rcases hp with ⟨_, _, rfl, _⟩ | ⟨_, _, rfl, _⟩ | ⟨_, _, rfl, _⟩ | ⟨_, rfl, _⟩ <;> rw [← kx] at ky <;> cases ky
    | type t => rcases TyLooks.cases hp with ⟨_, rfl⟩ | rfl | ⟨_, _, rfl⟩ | ⟨_, rfl⟩ <;> rw [← kx] at ky <;> cases ky
    | _ => rw [show p = _ from hp, ← kx] at ky; cases ky
  | type a =>
    cases a with
    | kind a =>
      have ho' : o = .type a := ho
      subst ho'
      cases y with
      | type b =>
        cases b with
        | kind b => have hp' : p = .type b := hp; subst hp'; exact ⟨rfl, rfl⟩
        | any => have hp' : p = .any := hp; subst hp'; rw [← kx] at ky; cases ky
        | sum b c => obtain ⟨_, _, rfl⟩ := hp; rw [← kx] at ky; cases ky
        | nullable b => obtain ⟨_, rfl⟩ := hp; rw [← kx] at ky; cases ky
        | cell b => exact hp.elim
        | other => exact hp.elim
      | ref a => rcases hp with ⟨_, _, rfl, _⟩ | ⟨_, _, rfl, _⟩ | ⟨_, _, rfl, _⟩ | ⟨_, rfl, _⟩ <;> rw [← kx] at ky <;> cases ky
      | str t => rw [hp.1, ← kx] at ky; cases ky
      | _ => rw [show p = _ from hp, ← kx] at ky; cases ky
    | any =>
      have he : Graph.opEql o p = .err := by rw [show o = _ from ho]; cases p <;> rfl
      cases y <;> exact ⟨rfl, he⟩
    | sum a b =>
      have he : Graph.opEql o p = .err := by obtain ⟨_, _, rfl⟩ := ho; cases p <;> rfl
      cases y <;> exact ⟨rfl, he⟩
    | nullable a =>
      have he : Graph.opEql o p = .err := by obtain ⟨_, rfl⟩ := ho; cases p <;> rfl
      cases y <;> exact ⟨rfl, he⟩
    | cell a => exact ho.elim
    | other => exact ho.elim
  | ref a =>
    have he : Graph.opEql o p = .err := by
      rcases ho with ⟨_, _, rfl, _⟩ | ⟨_, _, rfl, _⟩ | ⟨_, _, rfl, _⟩ | ⟨_, rfl, _⟩ <;> cases p <;> rfl
    cases y <;> exact ⟨rfl, he⟩
  | fn f c =>
    have he : Graph.opEql o p = .err := by rw [show o = _ from ho]; cases p <;> rfl
    cases y <;> exact ⟨rfl, he⟩
  | prim q =>
    have he : Graph.opEql o p = .err := by rw [show o = _ from ho]; cases p <;> rfl
    cases y <;> exact ⟨rfl, he⟩
  | lib _ =>
    have he : Graph.opEql o p = .err := by rw [show o = _ from ho]; cases p <;> rfl
    cases y <;> exact ⟨rfl, he⟩

omit fl in
theorem compare_sim (hi : Inv S e σ s) {a b : Ref} {x y : Val} (ha : Rep e s a x) (hb : Rep e s b y) :
    match equal x y σ with
    | .ok σ' r => σ' = σ ∧ Graph.compare s.w.heap a b = .ok r
    | .err out => out = σ.out ∧ Graph.compare s.w.heap a b = .err
    | _ => True := by
  obtain ⟨o, ho, hlo⟩ := ha.looks hi
  obtain ⟨p, hp, hlp⟩ := hb.looks hi
  rw [Graph.compare_eq ho hp]
  cases hx : kindOf σ x with
  | none => simp only [equal, hx]
  | some k =>
    cases hy : kindOf σ y with
    | none => simp only [equal, hx, hy]
    | some k' =>
      by_cases hk : k = k'
      · subst hk
        rw [if_neg (by rw [hlo.kind hx, hlp.kind hy]; simp)]
        exact compare_vals hlo hlp hx hy
      · rw [if_pos (by rw [hlo.kind hx, hlp.kind hy]; exact hk)]
        simp only [equal, hx, hy]
        rw [if_pos hk]
        exact ⟨rfl, rfl⟩

/-- The number that a value is. -/
def numIs : Val → Option Num.Num
  | .int x => some (.int x)
  | .float x => some (.float x)
  | _ => none

omit fl in
theorem num_rep (hi : Inv S e σ s) {r : Ref} {v : Val} (hr : Rep e s r v) :
    ∃ o, s.w.heap[r]? = some o ∧ numOf o = numIs v := by
  obtain ⟨o, ho, hl⟩ := hr.looks hi
  refine ⟨o, ho, ?_⟩
  cases v with
  | int x => rw [show o = _ from hl]; rfl
  | float x => rw [show o = _ from hl]; rfl
  | _ => exact hl.num nofun nofun

/-- The instructions on numbers. -/
theorem sim_math (ok : S.Ok) (hi : Inv S e σ s) {a b : Ref} {x y : Val} (ha : Rep e s a x) (hb : Rep e s b y)
    {op : BinOp} {m : Num.MathOp} (hm : mathOf op = some m) (hsum : op ≠ .sum ∧ op ≠ .eql ∧ op ≠ .nql) :
    binObj (std S.C) op a b s.w =
      (outOf s.w (Num.mathOp fl.arith m (numIs x) (numIs y))).bind fun r w => mk w (objOf r) := by
  obtain ⟨o, ho, ho'⟩ := num_rep hi ha
  obtain ⟨p, hp, hp'⟩ := num_rep hi hb
  have h1 : binObj (std S.C) op a b s.w =
      (outOf s.w (Num.mathOp S.C.arith m (numOf o) (numOf p))).bind fun r w => mk w (objOf r) := by
    obtain ⟨q1, q2, q3⟩ := hsum
    cases op <;> simp_all [binObj] <;> rfl
  rw [h1, ho', hp', ok.arith]

theorem sim_ret64 (ok : S.Ok) (hi : Inv S e σ s) {f : World → Out World Ref} {v : Int}
    (hf : f s.w = (outOf s.w (Num.ret64 v)).bind fun r w => mk w (objOf r)) :
    Sim S D e s Rep (lift (LS S) f s) (retInt v σ) := by
  unfold retInt
  by_cases h : fits64 v = true
  · rw [if_pos h]
    refine sim_mk ok hi (o := .int v) ?_ fun s' r hr => hr
    rw [hf]
    unfold Num.ret64
    rw [if_pos (by unfold fits64 at h; exact of_decide_eq_true h)]
    rfl
  · rw [if_neg h]
    trivial

theorem sim_rel (ok : S.Ok) (hi : Inv S e σ s) {a b : Ref} {x y : Val} (ha : Rep e s a x) (hb : Rep e s b y)
    {op : BinOp} {m : Num.RelOp} (hm : relOf op = some m) :
    binObj (std S.C) op a b s.w =
      (outOf s.w (Num.relOp m (numIs x) (numIs y))).bind fun r w => .ok w (boolRef r) := by
  obtain ⟨o, ho, ho'⟩ := num_rep hi ha
  obtain ⟨p, hp, hp'⟩ := num_rep hi hb
  have h1 : binObj (std S.C) op a b s.w =
      (outOf s.w (Num.relOp m (numOf o) (numOf p))).bind fun r w => .ok w (boolRef r) := by
    cases op <;> simp_all [binObj, relOf, mathOf]
  rw [h1, ho', hp']

theorem sim_mod (ok : S.Ok) (hi : Inv S e σ s) {a b : Ref} {x y : Val} (ha : Rep e s a x) (hb : Rep e s b y) :
    binObj (std S.C) .mod a b s.w =
      (outOf s.w (Num.modOp (numIs x) (numIs y))).bind fun r w => mk w (objOf r) := by
  obtain ⟨o, ho, ho'⟩ := num_rep hi ha
  obtain ⟨p, hp, hp'⟩ := num_rep hi hb
  have h1 : binObj (std S.C) .mod a b s.w =
      (outOf s.w (Num.modOp (numOf o) (numOf p))).bind fun r w => mk w (objOf r) := by
    simp only [binObj, ho, hp, mathOf, relOf]
  rw [h1, ho', hp']

theorem sim_eql (ok : S.Ok) (hi : Inv S e σ s) {a b : Ref} {x y : Val} (ha : Rep e s a x) (hb : Rep e s b y)
    {op : BinOp} {g : Bool → Bool}
    (hop : binObj (std S.C) op a b s.w =
      (outOf s.w (Graph.compare s.w.heap a b)).bind fun r w => .ok w (boolRef (g r))) :
    Sim S D e s Rep (lift (LS S) ((LS S).bin op a b) s) (((do let b ← equal x y; pure (.bool (g b))) : B Val) σ) := by
  have h := compare_sim hi ha hb
  show Sim S D e s Rep _ (B.bind (equal x y) (fun b => pure (.bool (g b))) σ)
  unfold B.bind
  cases hq : equal x y σ with
  | ok σ' r =>
    rw [hq] at h
    obtain ⟨rfl, hc⟩ := h
    refine Sim.lift (w := s.w) (a := boolRef (g r)) ?_ (.refl _ _ _) hi (rep_bool _ _ _)
    show binObj (std S.C) op a b s.w = _
    rw [hop, hc]
    rfl
  | err out =>
    rw [hq] at h
    obtain ⟨rfl, hc⟩ := h
    refine Sim.liftErr hi (w := s.w) ?_ rfl
    show binObj (std S.C) op a b s.w = _
    rw [hop, hc]
    rfl
  | off => trivial
  | more =>
    exfalso
    unfold equal at hq
    split at hq
    · split at hq
      · cases hq
      · split at hq <;> cases hq
    · cases hq

theorem sim_bin (ok : S.Ok) (hi : Inv S e σ s) (op : BinOp) {a b : Ref} {x y : Val} (ha : Rep e s a x)
    (hb : Rep e s b y) : Sim S D e s Rep (lift (LS S) ((LS S).bin op a b) s) (binary op x y σ) := by
  have err : binObj (std S.C) op a b s.w = .err s.w →
      Sim S D e s Rep (lift (LS S) ((LS S).bin op a b) s) (.err σ.out) := fun h => Sim.liftErr hi (w := s.w) h rfl
  have bool : ∀ r, binObj (std S.C) op a b s.w = .ok s.w (boolRef r) →
      Sim S D e s Rep (lift (LS S) ((LS S).bin op a b) s) (.ok σ (.bool r)) := fun r h =>
    Sim.lift (w := s.w) (a := boolRef r) h (.refl _ _ _) hi (rep_bool _ _ _)
  have math : ∀ {m : Num.MathOp} (f : Int → Int → B Val) (g : BitVec 64 → BitVec 64 → B Val), mathOf op = some m →
      (op ≠ .sum ∧ op ≠ .eql ∧ op ≠ .nql) →
      (∀ v w, Sim S D e s Rep (lift (LS S) (fun W => (outOf W (Num.mathInt m v w)).bind fun r w => mk w (objOf r)) s)
        (f v w σ)) →
      (∀ v w, Sim S D e s Rep (lift (LS S) (fun W => (outOf W (Num.mathFloat fl.arith m v w)).bind fun r w => mk w (objOf r)) s)
        (g v w σ)) →
      Sim S D e s Rep (lift (LS S) ((LS S).bin op a b) s)
        ((match x, y with
          | .int x, .int y => f x y
          | x, y =>
            match floating x, floating y with
            | some a, some b => g a b
            | _, _ => stop : B Val) σ) := by
    intro m f g hm hs hf hg
    have h := sim_math ok hi ha hb hm hs
    have two : ∀ v w, Num.mathOp fl.arith m (numIs x) (numIs y) = Num.mathFloat fl.arith m v w →
        Sim S D e s Rep (lift (LS S) ((LS S).bin op a b) s) (g v w σ) := fun v w q => by
      have hg := hg v w
      unfold lift at hg ⊢
      have h' : (LS S).bin op a b s.w = _ := h
      rw [h', q]
      exact hg
    cases x with
    | int x =>
      cases y with
      | int y =>
        have hf := hf x y
        unfold lift at hf ⊢
        have h' : (LS S).bin op a b s.w = _ := h
        rw [h']
        exact hf
      | float y => exact two _ _ rfl
      | _ => exact err h
    | float x =>
      cases y with
      | int y => exact two _ _ rfl
      | float y => exact two _ _ rfl
      | _ => exact err h
    | _ => exact err h
  have rel : ∀ {m : Num.RelOp} (r : Int → Int → Bool), (∀ v w, Num.relFloat m v w = floatRel r v w) → relOf op = some m →
      Sim S D e s Rep (lift (LS S) ((LS S).bin op a b) s)
        ((match x, y with
          | .int x, .int y => pure (.bool (Num.relInt m x y))
          | x, y =>
            match floating x, floating y with
            | some a, some b => pure (.bool (floatRel r a b))
            | _, _ => stop : B Val) σ) := by
    intro m r hr hm
    have h := sim_rel ok hi ha hb hm
    have two : ∀ v w, Num.relOp m (numIs x) (numIs y) = .ok (Num.relFloat m v w) →
        Sim S D e s Rep (lift (LS S) ((LS S).bin op a b) s) (.ok σ (.bool (floatRel r v w))) := fun v w q => by
      rw [q, hr] at h
      exact bool _ h
    cases x with
    | int x =>
      cases y with
      | int y => exact bool _ h
      | float y => exact two _ _ rfl
      | _ => exact err h
    | float x =>
      cases y with
      | int y => exact two _ _ rfl
      | float y => exact two _ _ rfl
      | _ => exact err h
    | _ => exact err h
  have flt : ∀ (r : BitVec 64) (f : World → Out World Ref), f s.w = mk s.w (.float r) →
      Sim S D e s Rep (lift (LS S) f s) (.ok σ (.float r)) := fun r f hf => sim_mk ok hi hf fun s' r hr => hr
  cases op with
  | eql => exact sim_eql ok hi ha hb (g := id) rfl
  | nql => exact sim_eql ok hi ha hb (g := not) rfl
  | sum =>
    have he : binary .sum x y σ = .ok σ (.type (.sum x.part y.part)) := by cases x <;> cases y <;> rfl
    rw [he]
    exact Sim.lift (w := (s.w.alloc (.sum a b)).1) (a := (s.w.alloc (.sum a b)).2) rfl (.alloc D e s _) (hi.alloc ok _)
      ⟨⟨a, b, alloc_get _ _, RepTy.le (.alloc [] e s _) ha.part, RepTy.le (.alloc [] e s _) hb.part⟩, trivial⟩
  | add =>
    have := math (fun x y => retInt (x + y)) (fun x y => pure (.float (Floats.add x y))) rfl ⟨nofun, nofun, nofun⟩
      (fun v w => sim_ret64 ok hi rfl) fun v w => flt _ _ rfl
    cases x <;> cases y <;> exact this
  | sub =>
    have := math (fun x y => retInt (x - y)) (fun x y => pure (.float (Floats.sub x y))) rfl ⟨nofun, nofun, nofun⟩
      (fun v w => sim_ret64 ok hi rfl) fun v w => flt _ _ rfl
    cases x <;> cases y <;> exact this
  | mul =>
    have := math (fun x y => retInt (x * y)) (fun x y => pure (.float (Floats.mul x y))) rfl ⟨nofun, nofun, nofun⟩
      (fun v w => sim_ret64 ok hi rfl) fun v w => flt _ _ rfl
    cases x <;> cases y <;> exact this
  | div =>
    have := math (fun x y => if y = 0 then stop else retInt (x.tdiv y))
      (fun x y => if worth y = some 0 then stop else pure (.float (Floats.div x y))) rfl ⟨nofun, nofun, nofun⟩
      (fun v w => by
        by_cases h0 : w = 0
        · rw [if_pos h0]
          refine Sim.liftErr hi (w := s.w) ?_ rfl
          simp only [Num.mathInt, if_pos h0]
          rfl
        · rw [if_neg h0]
          refine sim_ret64 ok hi ?_
          simp only [Num.mathInt, if_neg h0])
      fun v w => by
        by_cases h0 : worth w = some 0
        · rw [if_pos h0]
          refine Sim.liftErr hi (w := s.w) ?_ rfl
          have q : Num.mathFloat fl.arith .div v w = .err := if_pos ⟨rfl, worth_zero.1 h0⟩
          rw [q]
          rfl
        · rw [if_neg h0]
          refine flt _ _ ?_
          have q : Num.mathFloat fl.arith .div v w = .ok (.float (Floats.div v w)) := if_neg fun q => h0 (worth_zero.2 q.2)
          rw [q]
          rfl
    cases x <;> cases y <;> exact this
  | mod =>
    have h := sim_mod ok hi ha hb
    cases x with
    | int x =>
      cases y with
      | int y =>
        show Sim S D e s Rep _ ((if y = 0 ∨ (x = -2 ^ 63 ∧ y = -1) then leave else pure (.int (x.tmod y)) : B Val) σ)
        by_cases h0 : y = 0 ∨ (x = -2 ^ 63 ∧ y = -1)
        · rw [if_pos h0]; trivial
        · rw [if_neg h0]
          refine sim_mk ok hi (o := .int (x.tmod y)) ?_ fun s' r hr => hr
          show binObj (std S.C) .mod a b s.w = _
          rw [h]
          dsimp only [Num.modOp, numIs]
          rw [if_neg (fun q => h0 (.inl q)), if_neg (fun q => h0 (.inr q))]
          rfl
      | _ => exact err h
    | _ => cases y <;> exact err h
  | lss => have := rel _ rel_lss rfl; cases x <;> cases y <;> exact this
  | leq => have := rel _ rel_leq rfl; cases x <;> cases y <;> exact this
  | grt => have := rel _ rel_grt rfl; cases x <;> cases y <;> exact this
  | geq => have := rel _ rel_geq rfl; cases x <;> cases y <;> exact this

theorem sim_un (ok : S.Ok) (hi : Inv S e σ s) (op : UnOp) {a : Ref} {x : Val} (ha : Rep e s a x) :
    Sim S D e s Rep (lift (LS S) ((LS S).un op a) s) (unary op x σ) := by
  obtain ⟨o, ho, ho'⟩ := num_rep hi ha
  cases op with
  | pos => exact Sim.lift (w := s.w) (a := a) rfl (.refl _ _ _) hi ha
  | nlb =>
    have he : unary .nlb x σ = .ok σ (.type (.nullable x.part)) := by cases x <;> rfl
    rw [he]
    exact Sim.lift (w := (s.w.alloc (.nullable a)).1) (a := (s.w.alloc (.nullable a)).2) rfl (.alloc D e s _) (hi.alloc ok _)
      ⟨⟨a, alloc_get _ _, RepTy.le (.alloc [] e s _) ha.part⟩, trivial⟩
  | neg =>
    have h : unObj .neg a s.w = (outOf s.w (Num.negOp (numOf o))).bind fun r w => mk w (objOf r) := by
      simp only [unObj, ho]
    rw [ho'] at h
    cases x with
    | int x => exact sim_ret64 ok hi h
    | float x => exact sim_mk ok hi (o := .float (x ^^^ 0x8000000000000000#64)) h fun s' r hr => hr
    | _ => exact Sim.liftErr hi (w := s.w) h rfl
  | not =>
    obtain ⟨o, ho, hl⟩ := ha.looks hi
    have err : (∀ b, o ≠ .bool b) → unObj .not a s.w = .err s.w := by
      intro hn
      simp only [unObj, ho]
    cases x with
    | bool b =>
      refine Sim.lift (w := s.w) (a := boolRef !b) ?_ (.refl _ _ _) hi (rep_bool _ _ _)
      show unObj .not a s.w = _
      rw [show o = _ from hl] at ho
      simp only [unObj, ho]
    | str t => exact Sim.liftErr hi (w := s.w) (err fun b hb => by rw [hl.1] at hb; cases hb) rfl
    | ref c =>
      refine Sim.liftErr hi (w := s.w) (err fun b hb => ?_) rfl
      rcases hl with ⟨_, _, h, _⟩ | ⟨_, _, h, _⟩ | ⟨_, _, h, _⟩ | ⟨_, h, _⟩ <;> rw [hb] at h <;> cases h
    | type t =>
      refine Sim.liftErr hi (w := s.w) (err fun b hb => ?_) rfl
      rcases TyLooks.cases hl with ⟨_, h⟩ | h | ⟨_, _, h⟩ | ⟨_, h⟩ <;> rw [hb] at h <;> cases h
    | _ => exact Sim.liftErr hi (w := s.w) (err fun b hb => by rw [show o = _ from hl] at hb; cases hb) rfl

end Noja.VM.Book
