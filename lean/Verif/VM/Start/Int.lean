import Verif.VM.Logic
import Verif.VM.Start.Prog

/-!
# C69: integers as text
-/

set_option linter.unusedVariables false
set_option linter.unusedSimpArgs false

namespace Noja.VM.Start

open Noja.Graph (Obj Kind Heap)

/-- The variables of `start.noja`. -/
def vnames : List Name := [N.dummy, N.Func, N.NFunc, N.Numeric, N.Callable, N.Collection, N.chr, N.ord, N.cat,
  N.stringFromDigit, N.getIntegerMagnitude, N.stringFromInteger, N.stringFromFloating, N.stringFromNumeric,
  N.floatFromInteger, N.stringFromList, N.stringFromMap, N.GenericIterator, N.makeGenericIterator]

def vfuncs : List (Name × FunDef) := [(N.dummy, F.dummy), (N.stringFromDigit, F.stringFromDigit),
  (N.getIntegerMagnitude, F.getIntegerMagnitude), (N.stringFromInteger, F.stringFromInteger),
  (N.stringFromFloating, F.stringFromFloating), (N.stringFromNumeric, F.stringFromNumeric),
  (N.floatFromInteger, F.floatFromInteger), (N.stringFromList, F.stringFromList), (N.stringFromMap, F.stringFromMap),
  (N.GenericIterator, F.GenericIterator), (N.makeGenericIterator, F.makeGenericIterator)]

/-- What `start.noja` returns. -/
def lnames : List Name := [N.Func, N.NFunc, N.Numeric, N.Callable, N.Collection, N.makeIterator, N.toString,
  N.integerFromDigit, N.isCallable, N.append, N.abs, N.min, N.max]

def lfuncs : List (Name × FunDef) := [(N.makeIterator, F.makeIterator), (N.toString, F.toString),
  (N.integerFromDigit, F.integerFromDigit), (N.isCallable, F.isCallable), (N.append, F.append), (N.abs, F.abs),
  (N.min, F.min), (N.max, F.max)]

/-- The places of the objects made by `start.noja`. -/
structure Place where
  V : Ref
  M : Ref
  T : Ref
  var : Name → Ref
  lib : Name → Ref

def Place.env (P : Place) : GEnv where
  V := P.V
  M := P.M
  T := P.T
  venv := vnames.map fun n => (n, P.var n)
  menv := lnames.map fun n => (n, P.lib n)
  funcs := (vfuncs.map fun p => (P.var p.1, p.2)) ++ lfuncs.map fun p => (P.lib p.1, p.2)
  nats := [(P.var N.chr, 8, some 1), (P.var N.ord, 7, some 1), (P.var N.cat, 9, none)]
  objs := [(P.var N.Numeric, .sum (typeRef .int) (typeRef .float)),
    (P.var N.Callable, .sum (typeRef .func) (typeRef .nfunc)),
    (P.var N.Collection, .sum (typeRef .list) (typeRef .map))]

variable {B : Config} {P : Place} {m : Nat} {s : SSt World} {K : List (Ref × Obj)}

theorem run_results {m : M World (List Ref)} {k : Nat} {Q : List Ref → SSt World → Prop} {s : SSt World}
    (h : wp m (fun vs s' => vs.length = k ∧ k ≤ 8 ∧ Q vs s') s) :
    wp (m >>= fun vs => results (objects (std B)) k vs) Q s := by
  refine wp_bind (wp_mono h fun vs s' h' => ?_)
  obtain ⟨a, b, q⟩ := h'
  refine wp_results (by omega) ?_
  rw [List.take_of_length_le (by omega), show k - vs.length = 0 by omega]
  simpa using q

/-- `assert` of something true. -/
theorem wp_assert (hB : Conf B) {G : GEnv} {outer : List (Ref × Env)} {D : List Ref} {c : Ctx World}
    {s0 s : SSt World} {env : Env} (h : Sit B G (m + 1) outer D c s0 s env K)
    (hr : resolve G env outer N.assert = none) {Q : Ref → SSt World → Prop}
    (hq : ∀ s', Sit B G (m + 1) outer D c s0 s' env K → Q 0 s') :
    wp ((Expr.ident N.assert).eval c) (fun g s => wp (c.call g [boolRef true].reverse 1) (fun r s => ∃ v, r = [v] ∧ Q v s) s) s := by
  refine wp_fn hB h hr rfl fun g s1 h1 hg hn => ?_
  rw [h1.call]
  refine wp_native (w := s1.w) (vs := []) h1.glob.err hg hn ?_ h1.glob.err (by decide) ?_
  · show assertAll [boolRef true] s1.w = _
    simp only [assertAll, bool_static]
  · exact ⟨0, rfl, hq _ h1⟩

/-! ### The native functions on strings -/

theorem onArgs_eq {w : World} {args : List Ref} {as : List Builtin.Arg} {f : List Builtin.Arg → Exec Builtin.Ret} {r : Builtin.Ret}
    (ha : argsOf w.heap args = .ok as) (hf : f as = .ok r) : onArgs f args w = retOf w r := by
  unfold onArgs
  rw [ha, Exec.bind_ok, hf]
  rfl

theorem argsOf_cons {h : Heap} {r : Ref} {rs : List Ref} {o : Obj} {as : List Builtin.Arg} (hr : h[r]? = some o)
    (hs : argsOf h rs = .ok as) : argsOf h (r :: rs) = .ok (argOf o :: as) := by
  unfold argsOf
  rw [rd_ok_iff.mpr hr, Exec.bind_ok, hs, Exec.bind_ok]

theorem chr_digit {d : Nat} (h : d ≤ 9) : Builtin.chr (.int (48 + d)) = .ok (.str (ascii [UInt8.ofNat (48 + d)])) := by
  have hu : toU32 (48 + (d : Int)) = 48 + d := by unfold toU32; omega
  have := (Builtin.chr_spec (48 + d)).1 (by rw [hu]; omega)
  rw [this, hu]
  have : Utf8.Spec.encode (48 + d) = [UInt8.ofNat (48 + d)] := by
    unfold Utf8.Spec.encode Utf8.Spec.encodeNat
    rw [if_pos (by omega)]
    rfl
  rw [this]
  rfl

theorem cat_ascii {a b : List UInt8} (ha : good a = true) (hb : good b = true) (hl : a.length + b.length < 2 ^ 31) :
    Builtin.cat [.str (ascii a), .str (ascii b)] = .ok (.str (ascii (a ++ b))) := by
  have := (Builtin.C61_cat_partial.1 [a.map fun x => [x], b.map fun x => [x]] (by
    intro ps hp
    simp only [List.mem_cons, List.not_mem_nil, or_false] at hp
    rcases hp with rfl | rfl
    · exact good_units ha
    · exact good_units hb) (by
      have : ([a.map fun x => [x], b.map fun x => [x]].flatten.flatten : List UInt8) = a ++ b := by
        simp only [List.flatten_cons, List.flatten_nil, List.append_nil, List.flatten_append, Utf8.flatten_singletons]
      rw [this, List.length_append]
      exact hl)).1
  simp only [List.map_cons, List.map_nil, List.flatten_cons, List.flatten_nil, List.append_nil, ← List.map_append] at this
  exact this

section

variable {G : GEnv} {outer : List (Ref × Env)} {D : List Ref} {c : Ctx World} {s0 : SSt World} {env : Env}

theorem wp_ord (h : Sit B P.env (m + 1) outer D c s0 s env K) {r : Ref} (hr : (r, .str (ascii [48])) ∈ K)
    {Q : Ref → SSt World → Prop} (hq : ∀ r s', Sit B P.env (m + 1) outer D c s0 s' env ((r, .int 48) :: K) → Q r s') :
    wp (c.call (P.var N.ord) [r].reverse 1) (fun r s => ∃ v, r = [v] ∧ Q v s) s :=
  wp_nat h (id := 7) (argc := some 1) (args := [r]) (o := .int 48) (by simp [Place.env]) nofun
    (onArgs_eq (argsOf_cons (h.obj hr) rfl) (r := .int 48) (by decide)) hq

theorem wp_chr (h : Sit B P.env (m + 1) outer D c s0 s env K) {r : Ref} {d : Nat} (hr : (r, .int (48 + d)) ∈ K) (hd : d ≤ 9)
    {Q : Ref → SSt World → Prop}
    (hq : ∀ r s', Sit B P.env (m + 1) outer D c s0 s' env ((r, .str (ascii [UInt8.ofNat (48 + d)])) :: K) → Q r s') :
    wp (c.call (P.var N.chr) [r].reverse 1) (fun r s => ∃ v, r = [v] ∧ Q v s) s :=
  wp_nat h (id := 8) (argc := some 1) (args := [r]) (o := .str _) (by simp [Place.env]) nofun
    (onArgs_eq (argsOf_cons (h.obj hr) rfl) (r := .str _) (chr_digit hd)) hq

theorem wp_cat (h : Sit B P.env (m + 1) outer D c s0 s env K) {x y : Ref} {a b : List UInt8}
    (hx : (x, .str (ascii a)) ∈ K) (hy : (y, .str (ascii b)) ∈ K) (ha : good a = true) (hb : good b = true)
    (hl : a.length + b.length < 2 ^ 31) {Q : Ref → SSt World → Prop}
    (hq : ∀ r s', Sit B P.env (m + 1) outer D c s0 s' env ((r, .str (ascii (a ++ b))) :: K) → Q r s') :
    wp (c.call (P.var N.cat) [y, x].reverse 1) (fun r s => ∃ v, r = [v] ∧ Q v s) s :=
  wp_nat h (id := 9) (argc := none) (args := [x, y]) (o := .str _) (by simp [Place.env]) nofun
    (onArgs_eq (argsOf_cons (h.obj hx) (argsOf_cons (h.obj hy) rfl)) (r := .str _) (cat_ascii ha hb hl)) hq

end

/-- `stringFromDigit`. -/
theorem digit_spec (hB : Conf B) (g : Globals B P.env s) (hk : Knows s K) {r : Ref} {d : Int} (hr : (r, .int d) ∈ K)
    (h0 : 0 ≤ d) (h9 : d ≤ 9) :
    wp (callN (objects (std B)) (m + 2) (P.var N.stringFromDigit) [r] 1) (fun vs s' => ∃ v, vs = [v] ∧ Ext [] s s' ∧
      s'.w.err = false ∧ s'.w.heap[v]? = some (.str (ascii [UInt8.ofNat (48 + d.toNat)]))) s := by
  refine wp_enterG (m := m + 1) g hk (fd := F.stringFromDigit) ?_ ?_
  · simp [Place.env, vfuncs]
  intro c s1 h
  refine run_results ?_
  unfold F.stringFromDigit
  refine wp_run ?_
  refine wp_paramT (v := r) (vs := []) ?_
  refine wp_type hB h (k := .int) rfl rfl fun s2 h => ?_
  refine wp_isKind hB h (h.obj hr) rfl ⟨rfl, ?_⟩
  refine wp_store hB h fun s3 h => ?_
  simp only [Params.bind]
  refine wp_pure ?_
  refine wp_comp (wp_seq (wp_expr (wp_call (wp_cons (wp_and (wp_bin ?_))))))
  refine wp_var hB h rfl fun s4 h => ?_
  refine wp_int h fun r0 s5 h => ?_
  refine wp_rel h (o := .geq) (a := d) (b := 0) rfl (by simp [hr]) (by simp) ?_
  have e1 : Num.relInt .geq d 0 = true := by simp [Num.relInt, h0]
  rw [e1]
  refine wp_asBool h ?_
  rw [if_pos rfl]
  refine wp_bin ?_
  refine wp_var hB h rfl fun s6 h => ?_
  refine wp_int h fun r9 s7 h => ?_
  refine wp_rel h (o := .leq) (a := d) (b := 9) rfl (by simp [hr]) (by simp) ?_
  have e2 : Num.relInt .leq d 9 = true := by simp [Num.relInt, h9]
  rw [e2]
  refine wp_asBool h (wp_nil ?_)
  rw [if_pos rfl, h.L]
  refine wp_assert hB h rfl fun s8 h => ⟨rfl, ?_⟩
  refine wp_last (wp_ret (wp_cons (wp_call (wp_cons (wp_bin (wp_call (wp_cons ?_)))))))
  refine wp_str h fun rz s9 h => wp_nil ?_
  refine wp_var hB h rfl fun s10 h => ?_
  refine wp_ord h (by simp) fun ro s11 h => ?_
  refine wp_var hB h rfl fun s12 h => ?_
  refine wp_math h (o := .add) (a := 48) (b := d) (v := 48 + d) rfl (by simp) (by simp [hr])
    (by simp only [Num.mathInt, Num.ret64]; rw [if_pos (by unfold IsI64; omega)]) fun rs s13 h => ?_
  refine wp_nil (wp_var hB h rfl fun s14 h => ?_)
  have hd : (48 : Int) + d = 48 + (d.toNat : Nat) := by omega
  refine wp_chr h (d := d.toNat) (by simp [hd]) (by omega) fun rc s15 h => ?_
  exact wp_nil ⟨_, rfl, _, rfl, rfl, by decide, rc, rfl, h.done, h.glob.err, h.obj (by simp)⟩

theorem digit_nat (hB : Conf B) (g : Globals B P.env s) (hk : Knows s K) {r : Ref} {d : Nat} (hr : (r, .int d) ∈ K)
    (h9 : d ≤ 9) :
    wp (callN (objects (std B)) (m + 2) (P.var N.stringFromDigit) [r] 1) (fun vs s' => ∃ v, vs = [v] ∧ Ext [] s s' ∧
      s'.w.err = false ∧ s'.w.heap[v]? = some (.str (ascii [UInt8.ofNat (48 + d)]))) s :=
  digit_spec (d := d) hB g hk hr (Int.natCast_nonneg _) (by omega)

/-! ### getIntegerMagnitude -/

def magnCond : Expr := .bin .geq (.ident N.n) (.bin .mul (.ident N.powr) (.int 10))

def magnBody : Stmt := .comp (stmts [
  (.expr (.assign (.var N.powr) (.bin .mul (.int 10) (.ident N.powr)))),
  (.expr (.assign (.var N.magn) (.bin .add (.int 1) (.ident N.magn))))])

def magnTest (c : Ctx World) : M World Bool := do let v ← magnCond.eval c; lift c.L (c.L.asBool v)

/-- Looks a fact up among the known ones. -/
macro "mem" : tactic => `(tactic| repeat (first | assumption | exact List.mem_cons_self | apply List.mem_cons_of_mem))

/-- After `i` iterations the power is `p`. -/
def Magn (B : Config) (P : Place) (m : Nat) (c : Ctx World) (s0 s : SSt World) (n i p : Nat) : Prop :=
  ∃ env K rn rp rm, Sit B P.env m [(P.V, P.env.venv)] [] c s0 s env K ∧
    resolve P.env env [(P.V, P.env.venv)] N.n = some rn ∧ (rn, .int n) ∈ K ∧
    resolve P.env env [(P.V, P.env.venv)] N.powr = some rp ∧ (rp, .int p) ∈ K ∧
    resolve P.env env [(P.V, P.env.venv)] N.magn = some rm ∧ (rm, .int i) ∈ K

theorem pow_lt {i : Nat} (h : i ≤ 18) : 10 ^ i < 2 ^ 63 := by
  have : 10 ^ i ≤ 10 ^ 18 := Nat.pow_le_pow_right (by decide) h
  omega

theorem int_ok {o : Num.MathOp} {a b v : Int} (e : Num.mathInt o a b = Num.ret64 v) (h0 : 0 ≤ v) (h1 : v < 2 ^ 63) :
    Num.mathInt o a b = .ok (.int v) := by
  rw [e]
  simp only [Num.ret64]
  rw [if_pos (by unfold IsI64; omega)]

theorem nat_ok {o : Num.MathOp} {a b : Int} {v : Nat} (e : Num.mathInt o a b = Num.ret64 v) (h1 : v < 2 ^ 63) :
    Num.mathInt o a b = .ok (.int v) := int_ok e (Int.natCast_nonneg _) (by omega)

theorem magn_step (hB : Conf B) {c : Ctx World} {s0 s : SSt World} {n i k p : Nat} {P' : Res World Ctl → Prop}
    (h : Magn B P m c s0 s n i p) (hi : i ≤ 18) (hp : p * 10 < 2 ^ 63) (hn : p * 10 ≤ n)
    (hq : ∀ s', Magn B P m c s0 s' n (i + 1) (p * 10) → P' (whileLoop k (magnTest c) (magnBody.eval c) s')) :
    P' (whileLoop (k + 1) (magnTest c) (magnBody.eval c) s) := by
  obtain ⟨env, K, rn, rp, rm, h, en, kn, ep, kp, em, km⟩ := h
  refine then_loop ?_
  refine wp_bind (wp_bin ?_)
  refine wp_var hB h en fun s1 h => wp_bin ?_
  refine wp_var hB h ep fun s2 h => ?_
  refine wp_int h fun rt s3 h => ?_
  refine wp_math h (o := .mul) (a := p) (b := 10) (v := (p * 10 : Nat)) rfl (by mem) (by mem)
    (int_ok (by simp [Num.mathInt]) (by omega) (by omega)) fun r1 s4 h => ?_
  refine wp_rel h (o := .geq) (a := n) (b := (p * 10 : Nat)) rfl (by mem) (by mem) ?_
  have e1 : Num.relInt .geq n (p * 10 : Nat) = true := by simp only [Num.relInt]; simp; omega
  rw [e1]
  refine wp_asBool h ⟨rfl, ?_⟩
  unfold magnBody
  refine wp_comp (wp_seq (wp_expr (wp_assign (wp_bin ?_))))
  refine wp_int h fun r2 s5 h => ?_
  refine wp_var hB h ep fun s6 h => ?_
  refine wp_math h (o := .mul) (a := 10) (b := p) (v := (p * 10 : Nat)) rfl (by mem) (by mem)
    (int_ok (by simp [Num.mathInt, Int.mul_comm]) (by omega) (by omega)) fun r3 s7 h => ?_
  refine wp_store hB h fun s8 h => ⟨rfl, wp_seq (wp_expr (wp_assign (wp_bin ?_)))⟩
  refine wp_int h fun r4 s9 h => ?_
  refine wp_var (n := N.magn) hB h em fun s10 h => ?_
  refine wp_math h (o := .add) (a := 1) (b := i) (v := (i + 1 : Nat)) rfl (by mem) (by mem)
    (int_ok (by simp [Num.mathInt, Int.add_comm]) (by omega) (by omega)) fun r5 s11 h => ?_
  refine wp_store hB h fun s12 h => ⟨rfl, wp_end ⟨rfl, ?_⟩⟩
  exact hq _ ⟨_, _, rn, r3, r5, h, en, by mem, rfl, by mem, rfl, by mem⟩

/-- Up to the power that is not greater than the number. -/
theorem magn_steps (hB : Conf B) {c : Ctx World} {s0 : SSt World} {n k : Nat} {P' : Res World Ctl → Prop} :
    ∀ (t i : Nat) (s : SSt World), Magn B P m c s0 s n i (10 ^ i) → i + t ≤ 18 → 10 ^ (i + t) ≤ n ∨ t = 0 →
      (∀ s', Magn B P m c s0 s' n (i + t) (10 ^ (i + t)) → P' (whileLoop k (magnTest c) (magnBody.eval c) s')) →
      P' (whileLoop (k + t) (magnTest c) (magnBody.eval c) s)
  | 0, i, s, h, _, _, hq => hq s h
  | t + 1, i, s, h, hi, hn, hq => by
    have hn' : 10 ^ (i + (t + 1)) ≤ n := by
      rcases hn with h | h
      · exact h
      · omega
    have h1 : 10 ^ (i + 1) ≤ 10 ^ (i + (t + 1)) := Nat.pow_le_pow_right (by decide) (by omega)
    have h2 : 10 ^ (i + 1) = 10 ^ i * 10 := Nat.pow_succ ..
    have h3 := pow_lt (i := i + 1) (by omega)
    refine magn_step (k := k + t) hB h (by omega) (by omega) (by omega) fun s' h' => ?_
    refine magn_steps hB t (i + 1) s' (h2 ▸ h') (by omega) (.inl ?_) fun s'' h'' => hq s'' ?_
    · rw [show i + 1 + t = i + (t + 1) by omega]; exact hn'
    · rw [show i + (t + 1) = i + 1 + t by omega]; exact h''

theorem magn_last (hB : Conf B) {c : Ctx World} {s0 s : SSt World} {n i k p : Nat} {P' : Res World Ctl → Prop}
    (h : Magn B P m c s0 s n i p) (hp : p * 10 < 2 ^ 63) (hn : n < p * 10)
    (hq : ∀ s', Magn B P m c s0 s' n i p → P' (.ok s' .normal)) :
    P' (whileLoop (k + 1) (magnTest c) (magnBody.eval c) s) := by
  obtain ⟨env, K, rn, rp, rm, h, en, kn, ep, kp, em, km⟩ := h
  refine loop_end ?_
  refine wp_bind (wp_bin ?_)
  refine wp_var hB h en fun s1 h => wp_bin ?_
  refine wp_var hB h ep fun s2 h => ?_
  refine wp_int h fun rt s3 h => ?_
  refine wp_math h (o := .mul) (a := p) (b := 10) (v := (p * 10 : Nat)) rfl (by mem) (by mem)
    (int_ok (by simp [Num.mathInt]) (by omega) (by omega)) fun r1 s4 h => ?_
  refine wp_rel h (o := .geq) (a := n) (b := (p * 10 : Nat)) rfl (by mem) (by mem) ?_
  have e1 : Num.relInt .geq n (p * 10 : Nat) = false := by simp only [Num.relInt]; simp; omega
  rw [e1]
  refine wp_asBool h ⟨rfl, ?_⟩
  exact hq _ ⟨_, _, rn, rp, rm, h, en, by mem, ep, by mem, em, by mem⟩

/-- The power of ten after 10^18 does not fit. -/
theorem magn_over (hB : Conf B) {c : Ctx World} {s0 s : SSt World} {n i k p : Nat} (h : Magn B P m c s0 s n i p)
    (hp : 2 ^ 63 ≤ p * 10) : whileLoop (k + 1) (magnTest c) (magnBody.eval c) s = .ub := by
  obtain ⟨env, K, rn, rp, rm, h, en, kn, ep, kp, em, km⟩ := h
  refine loop_ub (ub_bind ?_)
  unfold magnCond
  rw [Expr.eval]
  refine then_bind (P := fun x => x = .ub) (wp_var hB h en fun s1 h => ub_bind ?_)
  rw [Expr.eval]
  refine then_bind (P := fun x => x = .ub) (wp_var hB h ep fun s2 h => ?_)
  refine then_bind (P := fun x => x = .ub) (wp_int h fun rt s3 h => ?_)
  refine math_ub h (o := .mul) (a := p) (b := 10) rfl (by mem) (by mem) ?_
  simp only [Num.mathInt, Num.ret64]
  rw [if_neg (by unfold IsI64; omega)]

/-- A single parameter that must be an integer. -/
theorem wp_intParam (hB : Conf B) {G : GEnv} {outer : List (Ref × Env)} {D : List Ref} {c : Ctx World}
    {s0 s : SSt World} (h : Sit B G m outer D c s0 s [] K) (hi : resolve G [] outer N.int = none) {n : Name} {r : Ref}
    {v : Int} (hr : (r, .int v) ∈ K) {Q : Unit → SSt World → Prop}
    (hq : ∀ s', Sit B G m outer D c s0 s' [(n, r)] K → Q () s') (hn : good n = true := by rfl) :
    wp ((Params.cons n .no (.yes (.ident N.int)) .nil).bind c [r]) Q s := by
  refine wp_paramT (v := r) (vs := []) ?_
  refine wp_type hB h (k := .int) hi rfl fun s2 h => ?_
  refine wp_isKind hB h (h.obj hr) rfl ⟨rfl, ?_⟩
  refine wp_store hB h (hn := hn) fun s3 h => ?_
  simp only [Params.bind]
  exact wp_pure (hq _ h)

/-- The part before the loop. -/
theorem magn_start (hB : Conf B) {c : Ctx World} {s0 s : SSt World} {n : Nat} {r : Ref} {ss : Stmts}
    (h : Sit B P.env (m + 1) [(P.V, P.env.venv)] [] c s0 s [(N.n, r)] K) (hr : (r, .int n) ∈ K)
    {P' : Res World Ctl → Prop} (hq : ∀ s', Magn B P (m + 1) c s0 s' n 0 1 → P' (ss.eval c s')) :
    P' ((Stmts.cons (.expr (.call (.fn (.ident N.assert) (.cons (.bin .geq (.ident N.n) (.int 0)) .nil))))
      (.cons (.expr (.assign (.var N.magn) (.int 0))) (.cons (.expr (.assign (.var N.powr) (.int 1))) ss))).eval c s) := by
  refine then_seq (wp_expr (wp_call (wp_cons (wp_bin ?_))))
  refine wp_var hB h rfl fun s4 h => ?_
  refine wp_int h fun r0 s5 h => ?_
  refine wp_rel h (o := .geq) (a := n) (b := 0) rfl (by mem) (by mem) (wp_nil ?_)
  have e1 : Num.relInt .geq n 0 = true := by simp [Num.relInt]
  rw [e1]
  refine wp_assert hB h rfl fun s8 h => ⟨rfl, ?_⟩
  refine then_seq (wp_expr (wp_assign (wp_int h fun rm s9 h => wp_store hB h fun s10 h => ⟨rfl, ?_⟩)))
  refine then_seq (wp_expr (wp_assign (wp_int h fun rp s9 h => wp_store hB h fun s10 h => ⟨rfl, hq _ ?_⟩)))
  exact ⟨_, _, r, rp, rm, h, rfl, by mem, rfl, by mem, rfl, by mem⟩

/-- `getIntegerMagnitude`, second result: the greatest power of ten that is not greater than the
number, or 1. -/
theorem magn_spec (hB : Conf B) (g : Globals B P.env s) (hk : Knows s K) {r : Ref} {n j : Nat} (hr : (r, .int n) ∈ K)
    (hj : j < 18) (hlo : 10 ^ j ≤ n ∨ j = 0) (hhi : n < 10 ^ (j + 1)) :
    wp (callN (objects (std B)) (m + 20) (P.var N.getIntegerMagnitude) [r] 2) (fun vs s' => ∃ v w, vs = [v, w] ∧
      Ext [] s s' ∧ s'.w.err = false ∧ s'.w.heap[v]? = some (.int j) ∧ s'.w.heap[w]? = some (.int (10 ^ j : Nat))) s := by
  refine wp_enterG (m := m + 19) g hk (fd := F.getIntegerMagnitude) ?_ ?_
  · simp [Place.env, vfuncs]
  intro c s1 h
  refine run_results ?_
  unfold F.getIntegerMagnitude
  refine wp_run (wp_intParam hB h rfl hr fun s2 h => wp_comp ?_)
  refine magn_start (m := m + 18) (P' := Returns _) hB h hr fun s3 h3 => ?_
  refine wp_seq ?_
  show wp (whileLoop c.fuel (magnTest c) (magnBody.eval c)) _ _
  have hf : c.fuel = (m + 18 - j) + 1 + j := by rw [h.fuel]; omega
  rw [hf]
  have h2 : 10 ^ (j + 1) = 10 ^ j * 10 := Nat.pow_succ ..
  have h4 := pow_lt (i := j + 1) (by omega)
  refine magn_steps (P' := Returns _) hB j 0 s3 h3 (by omega) (by simpa using hlo) fun s4 h4 => ?_
  rw [Nat.zero_add] at h4
  refine magn_last (P' := Returns _) hB h4 (by omega) (by omega) fun s5 h5 => ⟨_, _, rfl, rfl, ?_⟩
  obtain ⟨env, K, rn, rp, rm, h, en, kn, ep, kp, em, km⟩ := h5
  refine wp_last (wp_ret (wp_cons ?_))
  refine wp_var hB h em fun s6 h => wp_cons ?_
  refine wp_var hB h ep fun s6 h => wp_nil ?_
  exact ⟨_, rfl, _, rfl, rfl, by decide, rm, rp, rfl, h.done, h.glob.err, h.obj km, h.obj kp⟩

/-- From 10^18 on, the multiplication overflows. -/
theorem magn_ub (hB : Conf B) (g : Globals B P.env s) (hk : Knows s K) {r : Ref} {n : Nat} (hr : (r, .int n) ∈ K)
    (hn : 10 ^ 18 ≤ n) : callN (objects (std B)) (m + 20) (P.var N.getIntegerMagnitude) [r] 2 s = .ub := by
  refine enterG (P := fun x => x = .ub) (m := m + 19) g hk (fd := F.getIntegerMagnitude) ?_ ?_
  · simp [Place.env, vfuncs]
  intro c s1 h
  refine ub_bind ?_
  unfold F.getIntegerMagnitude
  refine ub_run (wp_intParam hB h rfl hr fun s2 h => ?_)
  rw [Stmt.eval]
  refine magn_start (m := m + 18) (P' := fun x => x = .ub) hB h hr fun s3 h3 => ?_
  refine ub_seq ?_
  show whileLoop c.fuel (magnTest c) (magnBody.eval c) _ = _
  have hf : c.fuel = m + 1 + 18 := by rw [h.fuel]
  rw [hf]
  refine magn_steps (P' := fun x => x = .ub) hB 18 0 s3 h3 (by omega) (.inl hn) fun s4 h4 => ?_
  exact magn_over hB h4 (by decide)

/-- Negative numbers are refused. -/
theorem magn_err (hB : Conf B) (g : Globals B P.env s) (hk : Knows s K) {r : Ref} {n : Int} (hr : (r, .int n) ∈ K)
    (hn : n < 0) : Errs (callN (objects (std B)) (m + 2) (P.var N.getIntegerMagnitude) [r] 2 s) := by
  refine enterG (P := Errs) (m := m + 1) g hk (fd := F.getIntegerMagnitude) ?_ ?_
  · simp [Place.env, vfuncs]
  intro c s1 h
  refine err_bind ?_
  unfold F.getIntegerMagnitude
  refine err_run (wp_intParam hB h rfl hr fun s2 h => ?_)
  rw [Stmt.eval]
  refine err_seq ?_
  rw [Stmt.eval]
  refine err_bind ?_
  rw [Expr.eval]
  refine err_bind ?_
  rw [Call.eval]
  refine then_bind (P := Errs) (wp_cons (wp_bin ?_))
  refine wp_var hB h rfl fun s4 h => ?_
  refine wp_int h fun r0 s5 h => ?_
  refine wp_rel h (o := .geq) (a := n) (b := 0) rfl (by mem) (by mem) (wp_nil ?_)
  have e1 : Num.relInt .geq n 0 = false := by simp [Num.relInt, hn]
  rw [e1]
  refine then_bind (P := Errs) (wp_fn hB h rfl rfl fun g s6 h hg hn => ?_)
  rw [h.call]
  refine err_native (w := s6.w) h.glob.err hg hn ?_
  show assertAll [boolRef false] s6.w = _
  simp only [assertAll, bool_static]

/-- `type`. -/
theorem wp_typeof (hB : Conf B) {G : GEnv} {outer : List (Ref × Env)} {D : List Ref} {c : Ctx World}
    {s0 s : SSt World} {env : Env} (h : Sit B G (m + 1) outer D c s0 s env K)
    (hr : resolve G env outer N.type = none) {x : Ref} {o : Obj} (hx : (x, o) ∈ K) {Q : Ref → SSt World → Prop}
    (hq : ∀ s', Sit B G (m + 1) outer D c s0 s' env K → Q (typeRef o.kind) s') :
    wp ((Expr.ident N.type).eval c) (fun g s => wp (c.call g [x].reverse 1) (fun r s => ∃ v, r = [v] ∧ Q v s) s) s := by
  refine wp_fn hB h hr rfl fun g s1 h1 hg hn => ?_
  rw [h1.call]
  refine wp_native (w := s1.w) (vs := [typeRef o.kind]) h1.glob.err hg hn ?_ h1.glob.err (by simp) ?_
  · show (kindOf x s1.w).bind _ = _
    unfold kindOf
    rw [h1.obj hx]
    rfl
  · exact ⟨typeRef o.kind, rfl, hq _ h1⟩

/-- `abs` of a number that is not negative. -/
theorem abs_spec (hB : Conf B) (g : Globals B P.env s) (hk : Knows s K) {r : Ref} {n : Nat} (hr : (r, .int n) ∈ K) :
    wp (callN (objects (std B)) (m + 1) (P.lib N.abs) [r] 1) (fun vs s' => ∃ v, vs = [v] ∧ Ext [] s s' ∧
      s'.w.err = false ∧ s'.w.heap[v]? = some (.int n)) s := by
  refine wp_enterG (m := m) g hk (fd := F.abs) ?_ ?_
  · simp [Place.env, lfuncs]
  intro c s1 h
  refine run_results ?_
  unfold F.abs
  refine wp_run (wp_paramT (v := r) (vs := []) ?_)
  refine wp_var hB h rfl fun s2 h => ?_
  refine wp_isSum hB h (k := .int) (k' := .float) (h.gobj (by simp [Place.env])) (h.obj hr) (.inl rfl) ⟨rfl, ?_⟩
  refine wp_store hB h fun s3 h => ?_
  simp only [Params.bind]
  refine wp_pure (wp_comp (wp_seq (wp_ifOnly (wp_bin ?_))))
  refine wp_var hB h rfl fun s4 h => ?_
  refine wp_int h fun r0 s5 h => ?_
  refine wp_rel h (o := .lss) (a := n) (b := 0) rfl (by mem) (by mem) ?_
  have e1 : Num.relInt .lss n 0 = false := by simp [Num.relInt]
  rw [e1]
  refine wp_asBool h ?_
  rw [if_neg (by decide)]
  refine ⟨rfl, wp_last (wp_ret (wp_cons ?_))⟩
  refine wp_var hB h rfl fun s4 h => ?_
  exact wp_nil ⟨_, rfl, _, rfl, rfl, by decide, r, rfl, h.done, h.glob.err, h.obj (by mem)⟩

/-! ### stringFromInteger -/

def digCond : Expr := .bin .geq (.ident N.power) (.int 1)

def digBody : Stmt := .comp (stmts [
  (.expr (.assign (.var N.digit) (.bin .div (.ident N.temp) (.ident N.power)))),
  (.expr (.assign (.var N.temp) (.bin .mod (.ident N.temp) (.ident N.power)))),
  (.expr (.assign (.var N.text) (.call (.fn (.ident N.cat) (.cons (.call (.fn (.ident N.stringFromDigit) (.cons (.ident N.digit) .nil))) (.cons (.ident N.text) .nil)))))),
  (.expr (.assign (.var N.power) (.bin .div (.ident N.power) (.int 10))))])

def digTest (c : Ctx World) : M World Bool := do let v ← digCond.eval c; lift c.L (c.L.asBool v)

/-- The state of the loop: what remains, the power, and the text so far. -/
def Digs (B : Config) (P : Place) (m : Nat) (c : Ctx World) (s0 s : SSt World) (t p : Nat) (acc : List UInt8) : Prop :=
  ∃ env K rt rp rx, Sit B P.env m [(P.V, P.env.venv)] [] c s0 s env K ∧
    resolve P.env env [(P.V, P.env.venv)] N.temp = some rt ∧ (rt, .int t) ∈ K ∧
    resolve P.env env [(P.V, P.env.venv)] N.power = some rp ∧ (rp, .int p) ∈ K ∧
    resolve P.env env [(P.V, P.env.venv)] N.text = some rx ∧ (rx, .str (ascii acc)) ∈ K ∧
    resolve P.env env [(P.V, P.env.venv)] N.negative = some (boolRef false) ∧
    resolve P.env env [(P.V, P.env.venv)] N.cat = some (P.var N.cat) ∧
    resolve P.env env [(P.V, P.env.venv)] N.stringFromDigit = some (P.var N.stringFromDigit)

theorem good_append {a b : List UInt8} (ha : good a = true) (hb : good b = true) : good (a ++ b) = true := by
  unfold good at *
  rw [List.all_append, ha, hb]
  rfl

theorem good_digit {d : Nat} (h : d ≤ 9) : good [UInt8.ofNat (48 + d)] = true := by
  have : d = 0 ∨ d = 1 ∨ d = 2 ∨ d = 3 ∨ d = 4 ∨ d = 5 ∨ d = 6 ∨ d = 7 ∨ d = 8 ∨ d = 9 := by omega
  rcases this with rfl | rfl | rfl | rfl | rfl | rfl | rfl | rfl | rfl | rfl <;> decide

theorem dig_step (hB : Conf B) {c : Ctx World} {s0 s : SSt World} {t p k : Nat} {acc : List UInt8}
    {P' : Res World Ctl → Prop} (h : Digs B P (m + 2) c s0 s t p acc) (hp : 0 < p) (htp : t < 10 * p) (ht : t < 2 ^ 63)
    (hp' : p < 2 ^ 63) (ha : good acc = true) (hl : acc.length < 1000)
    (hq : ∀ s', Digs B P (m + 2) c s0 s' (t % p) (p / 10) (acc ++ [UInt8.ofNat (48 + t / p)]) →
      P' (whileLoop k (digTest c) (digBody.eval c) s')) :
    P' (whileLoop (k + 1) (digTest c) (digBody.eval c) s) := by
  obtain ⟨env, K, rt, rp, rx, h, et, kt, ep, kp, ex, kx, eneg, ecat, esd⟩ := h
  have hd : t / p ≤ 9 := by
    have := Nat.div_lt_of_lt_mul (show t < p * 10 by omega)
    omega
  refine then_loop ?_
  refine wp_bind (wp_bin ?_)
  refine wp_var hB h ep fun s1 h => ?_
  refine wp_int h fun r1 s3 h => ?_
  refine wp_rel h (o := .geq) (a := p) (b := 1) rfl (by mem) (by mem) ?_
  have e1 : Num.relInt .geq p 1 = true := by simp only [Num.relInt]; simp; omega
  rw [e1]
  refine wp_asBool h ⟨rfl, ?_⟩
  unfold digBody
  refine wp_comp (wp_seq (wp_expr (wp_assign (wp_bin ?_))))
  refine wp_var hB h et fun s6 h => ?_
  refine wp_var hB h ep fun s6 h => ?_
  refine wp_math h (o := .div) (a := t) (b := p) (v := (t / p : Nat)) rfl (by mem) (by mem)
    (nat_ok (by
      simp only [Num.mathInt]
      rw [if_neg (by omega)]
      rfl) (by omega)) fun rd s7 h => ?_
  refine wp_store hB h fun s8 h => ⟨rfl, wp_seq (wp_expr (wp_assign (wp_bin ?_)))⟩
  refine wp_var (n := N.temp) hB h et fun s6 h => ?_
  refine wp_var (n := N.power) hB h ep fun s6 h => ?_
  refine wp_mod h (a := t) (b := p) (v := (t % p : Nat)) (by mem) (by mem) (by
    simp only [Num.modOp]
    rw [if_neg (by omega), if_neg (by omega)]
    rfl) fun rm s9 h => ?_
  refine wp_store hB h fun s10 h => ⟨rfl, wp_seq (wp_expr (wp_assign (wp_call (wp_cons (wp_call (wp_cons ?_))))))⟩
  refine wp_var (n := N.digit) (v := rd) hB h rfl fun s11 h => wp_nil ?_
  refine wp_var (n := N.stringFromDigit) hB h esd fun s12 h => ?_
  refine wp_known h (by exact nofun) (digit_nat (r := rd) (d := t / p) hB h.glob h.know (by mem) hd) fun rg s13 h => ?_
  refine wp_cons (wp_var (n := N.text) hB h ex fun s14 h => wp_nil ?_)
  refine wp_var (n := N.cat) hB h ecat fun s15 h => ?_
  refine wp_cat h (x := rx) (y := rg) (a := acc) (b := [UInt8.ofNat (48 + t / p)]) (by mem) (by mem) ha (good_digit hd)
    (by simp; omega) fun rc s16 h => ?_
  refine wp_store hB h fun s17 h => ⟨rfl, wp_seq (wp_expr (wp_assign (wp_bin ?_)))⟩
  refine wp_var (n := N.power) hB h ep fun s18 h => ?_
  refine wp_int h fun r2 s19 h => ?_
  refine wp_math h (o := .div) (a := p) (b := 10) (v := (p / 10 : Nat)) rfl (by mem) (by mem)
    (nat_ok (by simp only [Num.mathInt]; rw [if_neg (by omega)]; rfl) (by omega)) fun r3 s20 h => ?_
  refine wp_store hB h fun s21 h => ⟨rfl, wp_end ⟨rfl, ?_⟩⟩
  exact hq _ ⟨_, _, rm, r3, rc, h, rfl, by mem, rfl, by mem, rfl, by mem, eneg, ecat, esd⟩

/-- The digits of a number below `10 ^ k`, with leading zeros. -/
def padded : Nat → Nat → List UInt8
  | 0, _ => []
  | k + 1, t => UInt8.ofNat (48 + t / 10 ^ k) :: padded k (t % 10 ^ k)

theorem padded_good : ∀ (k t : Nat), t < 10 ^ k → good (padded k t) = true
  | 0, _, _ => rfl
  | k + 1, t, h => by
    have hd : t / 10 ^ k ≤ 9 := by
      have := Nat.div_lt_of_lt_mul (show t < 10 ^ k * 10 by rw [← Nat.pow_succ]; exact h)
      omega
    exact good_append (good_digit hd) (padded_good k _ (Nat.mod_lt _ (Nat.pow_pos (by decide))))

theorem dig_loop (hB : Conf B) {c : Ctx World} {s0 : SSt World} {k : Nat} {P' : Res World Ctl → Prop} :
    ∀ (j t : Nat) (acc : List UInt8) (s : SSt World), Digs B P (m + 2) c s0 s t (10 ^ j) acc →
      j ≤ 17 → t < 10 ^ (j + 1) → good acc = true → acc.length + j < 1000 →
      (∀ s' t', Digs B P (m + 2) c s0 s' t' 0 (acc ++ padded (j + 1) t) →
        P' (whileLoop k (digTest c) (digBody.eval c) s')) →
      P' (whileLoop (k + (j + 1)) (digTest c) (digBody.eval c) s)
  | j, t, acc, s, h, hj, ht, ha, hl, hq => by
    have h1 := pow_lt (i := j) (by omega)
    have h2 := pow_lt (i := j + 1) (by omega)
    have h3 : 10 ^ (j + 1) = 10 ^ j * 10 := Nat.pow_succ ..
    have h4 : 0 < 10 ^ j := Nat.pow_pos (by decide)
    have hd : t / 10 ^ j ≤ 9 := by
      have := Nat.div_lt_of_lt_mul (show t < 10 ^ j * 10 by omega)
      omega
    refine dig_step (k := k + j) hB h h4 (by omega) (by omega) h1 ha (by omega) fun s' h' => ?_
    cases j with
    | zero =>
      exact hq s' (t % 10 ^ 0) h'
    | succ j =>
      rw [show 10 ^ (j + 1) / 10 = 10 ^ j by rw [Nat.pow_succ]; exact Nat.mul_div_cancel _ (by decide)] at h'
      refine dig_loop hB j _ _ s' h' (by omega) (Nat.mod_lt _ h4) (good_append ha (good_digit hd)) (by simp; omega)
        fun s'' t'' h'' => hq s'' t'' ?_
      rw [List.append_assoc] at h''
      exact h''

theorem dig_end (hB : Conf B) {c : Ctx World} {s0 s : SSt World} {t k : Nat} {acc : List UInt8}
    {P' : Res World Ctl → Prop} (h : Digs B P m c s0 s t 0 acc)
    (hq : ∀ s', Digs B P m c s0 s' t 0 acc → P' (.ok s' .normal)) :
    P' (whileLoop (k + 1) (digTest c) (digBody.eval c) s) := by
  obtain ⟨env, K, rt, rp, rx, h, et, kt, ep, kp, ex, kx, eneg, ecat, esd⟩ := h
  refine loop_end ?_
  refine wp_bind (wp_bin ?_)
  refine wp_var hB h ep fun s1 h => ?_
  refine wp_int h fun r1 s3 h => ?_
  refine wp_rel h (o := .geq) (a := (0 : Nat)) (b := 1) rfl (by mem) (by mem) ?_
  refine wp_asBool h ⟨rfl, ?_⟩
  exact hq _ ⟨_, _, rt, rp, rx, h, et, by mem, ep, by mem, ex, by mem, eneg, ecat, esd⟩

/-- Lean's own decimal digits. -/
def decimal (n : Nat) : List UInt8 := (Nat.toDigits 10 n).map fun c => UInt8.ofNat c.toNat

theorem padded_last : ∀ (k t : Nat), t < 10 ^ (k + 1) → padded (k + 1) t = padded k (t / 10) ++ [UInt8.ofNat (48 + t % 10)]
  | 0, t, h => by
    rw [Nat.mod_eq_of_lt (by omega)]
    simp [padded]
  | k + 1, t, h => by
    have h1 : t / 10 ^ (k + 1) = t / 10 / 10 ^ k := by rw [Nat.pow_succ, Nat.mul_comm, Nat.div_div_eq_div_mul]
    have h2 : t % 10 ^ (k + 1) / 10 = t / 10 % 10 ^ k := by
      rw [Nat.pow_succ, Nat.mod_mul_left_div_self]
    have h3 : t % 10 ^ (k + 1) % 10 = t % 10 := Nat.mod_mod_of_dvd _ (Nat.pow_dvd_pow 10 (show 1 ≤ k + 1 by omega))
    rw [padded, padded_last k _ (Nat.mod_lt _ (Nat.pow_pos (by decide))), padded, h1, h2, h3]
    rfl

theorem padded_decimal : ∀ (j n : Nat), 10 ^ j ≤ n ∨ j = 0 → n < 10 ^ (j + 1) → padded (j + 1) n = decimal n
  | 0, n, _, h => by
    rw [padded_last _ _ h]
    unfold decimal
    rw [Nat.toDigits_of_lt_base (by omega), List.map_cons, Nat.toNat_digitChar_of_lt_ten (by omega),
      Nat.mod_eq_of_lt (by omega)]
    rfl
  | j + 1, n, hl, h => by
    have h1 : 10 ^ (j + 1) = 10 ^ j * 10 := Nat.pow_succ ..
    have h2 : 10 ^ (j + 1 + 1) = 10 ^ (j + 1) * 10 := Nat.pow_succ ..
    have h4 : 0 < 10 ^ j := Nat.pow_pos (by decide)
    have hl' : 10 ^ (j + 1) ≤ n := by omega
    have e : n = 10 * (n / 10) + n % 10 := by omega
    rw [padded_last _ _ h, padded_decimal j (n / 10) (.inl (by omega)) (by omega)]
    have := Nat.toDigits_append_toDigits (b := 10) (n := n / 10) (d := n % 10) (by decide) (by omega) (by omega)
    rw [← e, Nat.toDigits_of_lt_base (n := n % 10) (by omega)] at this
    unfold decimal
    rw [← this, List.map_append, List.map_cons, Nat.toNat_digitChar_of_lt_ten (by omega)]
    rfl

theorem magnitude (n : Nat) (h : n < 10 ^ 18) : ∃ j, j < 18 ∧ (10 ^ j ≤ n ∨ j = 0) ∧ n < 10 ^ (j + 1) := by
  have : ∀ k, n < 10 ^ (k + 1) → ∃ j, j ≤ k ∧ (10 ^ j ≤ n ∨ j = 0) ∧ n < 10 ^ (j + 1) := by
    intro k
    induction k with
    | zero => exact fun h => ⟨0, Nat.le_refl _, .inr rfl, h⟩
    | succ k ih =>
      intro h
      by_cases hk : 10 ^ (k + 1) ≤ n
      · exact ⟨k + 1, Nat.le_refl _, .inl hk, h⟩
      · obtain ⟨j, a, b⟩ := ih (by omega)
        exact ⟨j, by omega, b⟩
  obtain ⟨j, a, b⟩ := this 17 h
  exact ⟨j, by omega, b⟩

/-- `stringFromInteger`. -/
theorem sfi_spec (hB : Conf B) (g : Globals B P.env s) (hk : Knows s K) {r : Ref} {n : Nat} (hr : (r, .int n) ∈ K)
    (hn : n < 10 ^ 18) :
    wp (callN (objects (std B)) (m + 21) (P.var N.stringFromInteger) [r] 1) (fun vs s' => ∃ v, vs = [v] ∧ Ext [] s s' ∧
      s'.w.err = false ∧ s'.w.heap[v]? = some (.str (ascii (decimal n)))) s := by
  obtain ⟨j, hj, hlo, hhi⟩ := magnitude n hn
  refine wp_enterG (m := m + 20) g hk (fd := F.stringFromInteger) ?_ ?_
  · simp [Place.env, vfuncs]
  intro c s1 h
  refine run_results ?_
  unfold F.stringFromInteger
  refine wp_run (wp_intParam hB h rfl hr fun s2 h => wp_comp ?_)
  refine wp_seq (wp_expr (wp_assign (wp_bin ?_)))
  refine wp_var hB h rfl fun s4 h => ?_
  refine wp_int h fun r0 s5 h => ?_
  refine wp_rel h (o := .lss) (a := n) (b := 0) rfl (by mem) (by mem) ?_
  have e1 : Num.relInt .lss n 0 = false := by simp [Num.relInt]
  rw [e1]
  refine wp_store hB h fun s6 h => ⟨rfl, wp_seq (wp_expr (wp_pair (wp_cons ?_)))⟩
  refine wp_var hB h rfl fun s7 h => wp_nil ?_
  refine wp_var hB h rfl fun s8 h => ?_
  rw [h.call]
  refine wp_mono (magn_spec (m := m) (r := r) hB h.glob h.know (by mem) hj hlo hhi) fun vs s9 h9 => ?_
  obtain ⟨v, w, rfl, e, he, hv, hw⟩ := h9
  replace h := ((h.after e (fun _ h => nomatch h) he).learn (by exact nofun) hv).learn (by exact nofun) hw
  refine ⟨v, w, rfl, wp_store hB h fun s10 h => wp_store hB h fun s11 h => ⟨rfl, ?_⟩⟩
  refine wp_seq (wp_expr (wp_assign (wp_call (wp_cons ?_))))
  refine wp_var hB h rfl fun s12 h => wp_nil ?_
  refine wp_var hB h rfl fun s13 h => ?_
  refine wp_known h (by exact nofun) (abs_spec (r := r) hB h.glob h.know (by mem)) fun ra s14 h => ?_
  refine wp_store hB h fun s15 h => ⟨rfl, ?_⟩
  refine wp_seq (wp_expr (wp_assign (wp_str h fun rx s16 h => wp_store hB h fun s17 h => ⟨rfl, ?_⟩)))
  refine wp_seq ?_
  show wp (whileLoop c.fuel (digTest c) (digBody.eval c)) _ _
  have hf : c.fuel = (m + 20 - (j + 2)) + 1 + (j + 1) := by rw [h.fuel]; omega
  rw [hf]
  refine dig_loop (m := m + 18) (P := P) (s0 := s) (P' := Returns _) hB j n [] s17 ⟨_, _, ra, w, rx, h, rfl, by mem, rfl, by mem, rfl, by mem, rfl, rfl, rfl⟩
    (by omega) hhi rfl (by simp; omega) fun s18 t' h18 => ?_
  rw [List.nil_append, padded_decimal j n hlo hhi] at h18
  refine dig_end (P' := Returns _) hB h18 fun s19 h19 => ⟨_, _, rfl, rfl, ?_⟩
  obtain ⟨env, K, rt, rp, rx, h, et, kt, ep, kp, ex, kx, eneg, ecat, esd⟩ := h19
  refine wp_seq (wp_ifOnly ?_)
  refine wp_var hB h eneg fun s20 h => wp_asBool h ?_
  rw [if_neg (by decide)]
  refine ⟨rfl, wp_last (wp_ret (wp_cons ?_))⟩
  refine wp_var hB h ex fun s4 h => ?_
  exact wp_nil ⟨_, rfl, _, rfl, rfl, by decide, rx, rfl, h.done, h.glob.err, h.obj (by mem)⟩

/-- The part of `stringFromInteger` up to the magnitude. -/
theorem sfi_start (hB : Conf B) {c : Ctx World} {s0 s : SSt World} {n : Int} {r : Ref} {ss : Stmts}
    (h : Sit B P.env m [(P.V, P.env.venv)] [] c s0 s [(N.n, r)] K) (hr : (r, .int n) ∈ K)
    {P' : Res World Ctl → Prop}
    (hq : ∀ s' K', Sit B P.env m [(P.V, P.env.venv)] [] c s0 s' [(N.negative, boolRef (decide (n < 0))), (N.n, r)] K' →
      (r, .int n) ∈ K' → P' (ss.eval c s')) :
    P' ((Stmts.cons (.expr (.assign (.var N.negative) (.bin .lss (.ident N.n) (.int 0)))) ss).eval c s) := by
  refine then_seq (wp_expr (wp_assign (wp_bin ?_)))
  refine wp_var hB h rfl fun s4 h => ?_
  refine wp_int h fun r0 s5 h => ?_
  refine wp_rel h (o := .lss) (a := n) (b := 0) rfl (by mem) (by mem) ?_
  refine wp_store hB h fun s6 h => ⟨rfl, hq _ _ h (by mem)⟩

theorem sfi_ub (hB : Conf B) (g : Globals B P.env s) (hk : Knows s K) {r : Ref} {n : Nat} (hr : (r, .int n) ∈ K)
    (hn : 10 ^ 18 ≤ n) : callN (objects (std B)) (m + 21) (P.var N.stringFromInteger) [r] 1 s = .ub := by
  refine enterG (P := fun x => x = .ub) (m := m + 20) g hk (fd := F.stringFromInteger) ?_ ?_
  · simp [Place.env, vfuncs]
  intro c s1 h
  refine ub_bind ?_
  unfold F.stringFromInteger
  refine ub_run (wp_intParam hB h rfl hr fun s2 h => ?_)
  rw [Stmt.eval]
  refine sfi_start (P' := fun x => x = .ub) hB h hr fun s3 K' h hr => ub_seq ?_
  rw [Stmt.eval]
  refine ub_bind ?_
  rw [Expr.eval]
  refine ub_bind ?_
  rw [Call.eval]
  refine then_bind (P := fun x => x = .ub) (wp_cons ?_)
  refine wp_var hB h rfl fun s7 h => wp_nil ?_
  refine then_bind (P := fun x => x = .ub) (wp_var hB h rfl fun s8 h => ?_)
  rw [h.call]
  exact magn_ub hB h.glob h.know hr hn

theorem sfi_err (hB : Conf B) (g : Globals B P.env s) (hk : Knows s K) {r : Ref} {n : Int} (hr : (r, .int n) ∈ K)
    (hn : n < 0) : Errs (callN (objects (std B)) (m + 3) (P.var N.stringFromInteger) [r] 1 s) := by
  refine enterG (P := Errs) (m := m + 2) g hk (fd := F.stringFromInteger) ?_ ?_
  · simp [Place.env, vfuncs]
  intro c s1 h
  refine err_bind ?_
  unfold F.stringFromInteger
  refine err_run (wp_intParam hB h rfl hr fun s2 h => ?_)
  rw [Stmt.eval]
  refine sfi_start (P' := Errs) hB h hr fun s3 K' h hr => err_seq ?_
  rw [Stmt.eval]
  refine err_bind ?_
  rw [Expr.eval]
  refine err_bind ?_
  rw [Call.eval]
  refine then_bind (P := Errs) (wp_cons ?_)
  refine wp_var hB h rfl fun s7 h => wp_nil ?_
  refine then_bind (P := Errs) (wp_var hB h rfl fun s8 h => ?_)
  rw [h.call]
  exact magn_err hB h.glob h.know hr hn

/-! ### toString -/

/-- The parameters of `toString`, the second one being left out. -/
theorem ts_params (hB : Conf B) {c : Ctx World} {s0 s : SSt World} {r : Ref}
    (h : Sit B P.env m [(P.V, P.env.venv)] [] c s0 s [] K) {Q : Unit → SSt World → Prop}
    (hq : ∀ s', Sit B P.env m [(P.V, P.env.venv)] [] c s0 s' [(N.value, r), (N.can_use_method, boolRef true)] K → Q () s') :
    wp ((Params.cons N.can_use_method (.yes .tru) .no (.cons N.value .no .no .nil)).bind c
      ((objects (std B)).fit 2 [r]).reverse) Q s := by
  show wp ((Params.cons N.can_use_method (.yes .tru) .no (.cons N.value .no .no .nil)).bind c [0, r]) Q s
  refine wp_paramD h (wp_tru h ?_)
  refine wp_store hB h fun s2 h => wp_param ?_
  refine wp_store hB h fun s3 h => ?_
  simp only [Params.bind]
  exact wp_pure (hq _ h)

/-- The statements of `toString` before the case of an integer. -/
theorem ts_start (hB : Conf B) {c : Ctx World} {s0 s : SSt World} {n : Int} {r : Ref} {t : Stmt} {ss : Stmts}
    (h : Sit B P.env (m + 1) [(P.V, P.env.venv)] [] c s0 s [(N.value, r), (N.can_use_method, boolRef true)] K)
    (hr : (r, .int n) ∈ K) {P' : Res World Ctl → Prop}
    (hq : ∀ s', Sit B P.env (m + 1) [(P.V, P.env.venv)] [] c s0 s'
      [(N.T, typeRef .int), (N.value, r), (N.can_use_method, boolRef true)] K → P' (ss.eval c s')) :
    P' ((Stmts.cons (.expr (.assign (.var N.T) (.call (.fn (.ident N.type) (.cons (.ident N.value) .nil)))))
      (.cons (.ifOnly (.bin .eql (.ident N.T) (.ident N.None)) t) ss)).eval c s) := by
  refine then_seq (wp_expr (wp_assign (wp_call (wp_cons ?_))))
  refine wp_var hB h rfl fun s3 h => wp_nil ?_
  refine wp_typeof hB h rfl hr fun s4 h => wp_store hB h fun s5 h => ⟨rfl, ?_⟩
  refine then_seq (wp_ifOnly (wp_bin ?_))
  refine wp_var hB h rfl fun s6 h => ?_
  refine wp_type hB h (k := .none) rfl rfl fun s7 h => ?_
  refine wp_eqlType h (wp_asBool h ?_)
  rw [if_neg (by simp [Obj.kind])]
  exact ⟨rfl, hq _ h⟩

theorem ts_wp (hB : Conf B) (g : Globals B P.env s) (hk : Knows s K) {r : Ref} {n : Nat} (hr : (r, .int n) ∈ K)
    (hn : n < 10 ^ 18) :
    wp (callN (objects (std B)) (m + 22) (P.lib N.toString) [r] 1) (fun vs s' => ∃ v, vs = [v] ∧ Ext [] s s' ∧
      s'.w.err = false ∧ s'.w.heap[v]? = some (.str (ascii (decimal n)))) s := by
  refine wp_enterG (m := m + 21) g hk (fd := F.toString) ?_ ?_
  · simp [Place.env, lfuncs]
  intro c s1 h
  refine run_results ?_
  unfold F.toString
  refine wp_run (ts_params hB h fun s2 h => wp_comp ?_)
  refine ts_start (P' := Returns _) hB h hr fun s5 h => ?_
  refine wp_last (wp_ifOnly (wp_bin ?_))
  refine wp_var hB h rfl fun s8 h => ?_
  refine wp_type hB h (k := .int) rfl rfl fun s9 h => ?_
  refine wp_eqlType h (wp_asBool h ?_)
  rw [if_pos (by simp [Obj.kind])]
  refine wp_ret (wp_cons (wp_call (wp_cons ?_)))
  refine wp_var hB h rfl fun s10 h => wp_nil ?_
  refine wp_var hB h rfl fun s11 h => ?_
  refine wp_known h (by exact nofun) (sfi_spec (m := m) (r := r) hB h.glob h.know hr hn) fun rx s14 h => ?_
  exact wp_nil ⟨_, rfl, _, rfl, rfl, by decide, rx, rfl, h.done, h.glob.err, h.obj (by mem)⟩

theorem ts_ub (hB : Conf B) (g : Globals B P.env s) (hk : Knows s K) {r : Ref} {n : Nat} (hr : (r, .int n) ∈ K)
    (hn : 10 ^ 18 ≤ n) : callN (objects (std B)) (m + 22) (P.lib N.toString) [r] 1 s = .ub := by
  refine enterG (P := fun x => x = .ub) (m := m + 21) g hk (fd := F.toString) ?_ ?_
  · simp [Place.env, lfuncs]
  intro c s1 h
  refine ub_bind ?_
  unfold F.toString
  refine ub_run (ts_params hB h fun s2 h => ?_)
  rw [Stmt.eval]
  refine ts_start (P' := fun x => x = .ub) hB h hr fun s5 h => ub_seq ?_
  rw [Stmt.eval]
  refine then_bind (P := fun x => x = .ub) (wp_bin ?_)
  refine wp_var hB h rfl fun s8 h => ?_
  refine wp_type hB h (k := .int) rfl rfl fun s9 h => ?_
  refine wp_eqlType h (then_bind (P := fun x => x = .ub) (wp_asBool h ?_))
  rw [if_pos (by simp [Obj.kind]), Stmt.eval]
  refine ub_bind ?_
  rw [Exprs.eval]
  refine ub_bind ?_
  rw [Expr.eval]
  refine ub_bind ?_
  rw [Call.eval]
  refine then_bind (P := fun x => x = .ub) (wp_cons ?_)
  refine wp_var hB h rfl fun s7 h => wp_nil ?_
  refine then_bind (P := fun x => x = .ub) (wp_var hB h rfl fun s8 h => ?_)
  rw [h.call]
  exact sfi_ub hB h.glob h.know hr hn

theorem ts_err (hB : Conf B) (g : Globals B P.env s) (hk : Knows s K) {r : Ref} {n : Int} (hr : (r, .int n) ∈ K)
    (hn : n < 0) : Errs (callN (objects (std B)) (m + 4) (P.lib N.toString) [r] 1 s) := by
  refine enterG (P := Errs) (m := m + 3) g hk (fd := F.toString) ?_ ?_
  · simp [Place.env, lfuncs]
  intro c s1 h
  refine err_bind ?_
  unfold F.toString
  refine err_run (ts_params hB h fun s2 h => ?_)
  rw [Stmt.eval]
  refine ts_start (P' := Errs) hB h hr fun s5 h => err_seq ?_
  rw [Stmt.eval]
  refine then_bind (P := Errs) (wp_bin ?_)
  refine wp_var hB h rfl fun s8 h => ?_
  refine wp_type hB h (k := .int) rfl rfl fun s9 h => ?_
  refine wp_eqlType h (then_bind (P := Errs) (wp_asBool h ?_))
  rw [if_pos (by simp [Obj.kind]), Stmt.eval]
  refine err_bind ?_
  rw [Exprs.eval]
  refine err_bind ?_
  rw [Expr.eval]
  refine err_bind ?_
  rw [Call.eval]
  refine then_bind (P := Errs) (wp_cons ?_)
  refine wp_var hB h rfl fun s7 h => wp_nil ?_
  refine then_bind (P := Errs) (wp_var hB h rfl fun s8 h => ?_)
  rw [h.call]
  exact sfi_err hB h.glob h.know hr hn

end Noja.VM.Start
