import Verif.VM.Start.Int
import Verif.VM.Start.Text
import Verif.VM.ScopeLost
import Verif.VM.Sim
import Verif.VM.Demo

/-!
# Starting up

runtime.c:804-809 `Runtime_plugDefaultBuiltins`: the table of builtins is plugged, then what
`start.noja` returns.
-/

set_option linter.unusedVariables false
set_option linter.unusedSimpArgs false

namespace Noja.VM.Start

open Noja.Graph (Obj Kind Heap)

/-! ## C69 after the start -/

/-- runtime.c:761-767 `Runtime_plugBuiltinsFromStaticMap`: the static map, object 21, is
`runtime->builtins`. -/
def base : Config where
  hit _ _ := true
  arith := ⟨fun _ x _ => x⟩
  fuel := 64
  builtins := some 21
  slot _ _ := none
  native _ _ w := .ok w (.done [])
  selectX _ _ w := .ok { w with err := true } none
  insertX _ _ _ _ w := .err w

def world : World := ⟨[.opaque .smap], false, fun _ => none, fun _ => none, fun _ => none, fun _ => 0, []⟩

/-- What running `start.noja` does. -/
def started : Res World (List Ref) := prog.mean (objects (std base)) 1 ⟨world, fun _ => none⟩

def startedState : SSt World :=
  match started with
  | .ok s _ => s
  | _ => ⟨world, fun _ => none⟩

/-- runtime.c:92-110 `plugBuiltins`, on what is there already. -/
def plug (C : Config) (m : Ref) (s : SSt World) : Config × SSt World :=
  let (w, c) := newClosure C.builtins m s.w
  ({ C with builtins := some c }, ⟨w, s.funs⟩)

def config : Config := (plug base 92 startedState).1

def state : SSt World := (plug base 92 startedState).2

def entriesAt (w : World) (r : Ref) : List (Nat × Nat) :=
  match w.heap[r]? with
  | some (.map es) => es
  | _ => []

def place : Place where
  V := 22
  M := 92
  T := 21
  var n := ((entriesAt state.w 22).find? fun e => decide (textOf state.w.heap e.1 = some n)).elim 0 (·.2)
  lib n := ((entriesAt state.w 92).find? fun e => decide (textOf state.w.heap e.1 = some n)).elim 0 (·.2)

def isOk : Res World (List Ref) → List Ref → Bool
  | .ok _ vs, ws => decide (vs = ws)
  | _, _ => false

theorem started_ok : started = .ok startedState [92] := by
  have h : isOk started [92] = true := by decide +kernel
  unfold startedState
  revert h
  cases started with
  | ok s vs => intro h; rw [of_decide_eq_true h]
  | _ => intro h; cases h

def isMap (w : World) (r : Ref) : Bool :=
  match w.heap[r]? with
  | some (.map _) => true
  | _ => false

theorem isMap_eq {w : World} {r : Ref} (h : isMap w r = true) : w.heap[r]? = some (.map (entriesAt w r)) := by
  unfold isMap at h
  unfold entriesAt
  split at h
  · rename_i es he
    simp [he]
  · cases h

theorem find_env {h : Heap} {n : Name} : ∀ {es : List (Nat × Nat)} {env : Env},
    es.map (fun e => (textOf h e.1, e.2)) = env.map (fun p => (some p.1, p.2)) →
    (es.find? fun e => decide (textOf h e.1 = some n)).map (·.2) = env.lookup n
  | [], [], _ => rfl
  | [], _ :: _, h => by cases h
  | _ :: _, [], h => by cases h
  | e :: es, p :: env, hm => by
    simp only [List.map_cons, List.cons.injEq, Prod.mk.injEq] at hm
    obtain ⟨⟨h1, h2⟩, h3⟩ := hm
    have ih := find_env (n := n) h3
    rw [List.find?_cons, h1]
    obtain ⟨a, b⟩ := p
    rw [List.lookup_cons]
    by_cases hn : a = n
    · subst hn
      simp [h2]
    · have : (n == a) = false := beq_eq_false_iff_ne.2 fun e => hn e.symm
      rw [this]
      simpa [hn] using ih

/-- A map with exactly these variables, by computation. -/
def varsOk (w : World) (l : Ref) (env : Env) : Bool :=
  isMap w l && Demo.names w.heap (entriesAt w l) &&
    decide ((entriesAt w l).map (fun e => (textOf w.heap e.1, e.2)) = env.map (fun p => (some p.1, p.2)))

theorem varsOk_sound {w : World} {l : Ref} {env : Env} (h : varsOk w l env = true) : Vars w l env := by
  simp only [varsOk, Bool.and_eq_true, decide_eq_true_eq] at h
  exact ⟨_, isMap_eq h.1.1, Demo.names_sound h.1.2, fun n => find_env h.2⟩

/-- A closure whose variables are in the map `v`. -/
def closureOk (w : World) (c v : Ref) : Bool :=
  decide (w.heap[c]? = some (.opaque .closure)) && decide (w.clos c = some (none, v)) && decide (v < c)

def funcsOk (s : SSt World) (v : Ref) (l : List (Ref × FunDef)) : Bool :=
  l.all fun p => decide (s.w.heap[p.1]? = some (.opaque .func)) && decide (s.funs p.1 = some p.2) &&
    match s.w.fclo p.1 with
    | some c => closureOk s.w c v
    | none => false

theorem funcsOk_sound {s : SSt World} {v : Ref} {env : Env} (hv : Vars s.w v env) {l : List (Ref × FunDef)}
    (h : funcsOk s v l = true) : ∀ p ∈ l, s.w.heap[p.1]? = some (.opaque .func) ∧ s.funs p.1 = some p.2 ∧
      ∃ c, s.w.fclo p.1 = some c ∧ Scopes s.w c [v] := by
  intro p hp
  have h1 := List.all_eq_true.1 h p hp
  simp only [Bool.and_eq_true, decide_eq_true_eq] at h1
  obtain ⟨⟨a, b⟩, d⟩ := h1
  refine ⟨a, b, ?_⟩
  cases e : s.w.fclo p.1 with
  | none => rw [e] at d; cases d
  | some c =>
    rw [e] at d
    simp only [closureOk, Bool.and_eq_true, decide_eq_true_eq] at d
    obtain ⟨es, x, y, z⟩ := hv
    exact ⟨c, rfl, .last d.1.1 d.1.2 d.2 (.map x y)⟩

theorem globals : Globals config place.env state := by
  have hV : Vars state.w 22 place.env.venv := varsOk_sound (by decide +kernel)
  have hM : Vars state.w 92 place.env.menv := varsOk_sound (by decide +kernel)
  have hT : state.w.heap[21]? = some (.opaque .smap) := by decide +kernel
  exact
    { err := by decide +kernel
      vars := hV
      mods := hM
      tabo := hT
      tabt := by decide +kernel
      bins := by
        obtain ⟨es, x, y, z⟩ := hM
        exact ⟨127, by decide +kernel, .more (c := 127) (p := 21) (vars := 92) (as := [92]) (bs := [21])
          (by decide +kernel) (by decide +kernel) (by decide) (by decide) (.map x y) (.smap hT)⟩
      funcs := funcsOk_sound hV (by decide +kernel)
      nats := by decide +kernel
      objs := by
        have h : (place.env.objs.all fun p => decide (p.2.kind ≠ .map) && decide (state.w.heap[p.1]? = some p.2)) = true := by
          decide +kernel
        intro p hp
        have := List.all_eq_true.1 h p hp
        simp only [Bool.and_eq_true, decide_eq_true_eq] at this
        exact this
      recs := nofun
      old := nofun }

theorem conf : Conf config where
  fuel := by decide
  hit _ _ := rfl
  quiet n t f w w' r h := by cases h

/-! ## A program that calls toString -/

/-- `return toString(n);` -/
def client (n : Int) : Stmts :=
  .cons (.ret (.cons (.call (.fn (.ident N.toString) (.cons (.int n) .nil))) .nil)) .nil

/-- What the calls above give, in any state in which the builtins of `start.noja` are there. -/
theorem client_ok {B : Config} {P : Place} {m : Nat} {s : SSt World} (hB : Conf B) (g : Globals B P.env s) {n : Nat}
    (hn : n < 10 ^ 18) :
    wp ((client n).mean (objects (std B)) (m + 22)) (fun vs s' => ∃ v, vs = [v] ∧ s'.w.err = false ∧
      s'.w.heap[v]? = some (.str (ascii (decimal n)))) s := by
  refine then_mean (P := Returns _) (K := []) g (fun _ h => nomatch h) fun c s1 h => wp_prog ?_
  refine wp_last (wp_ret (wp_cons (wp_call (wp_cons ?_))))
  refine wp_int h fun r s2 h => wp_nil ?_
  refine wp_var (v := P.lib N.toString) hB h rfl fun s3 h => ?_
  refine wp_known h (by exact nofun) (ts_wp (m := m) (r := r) hB h.glob h.know (by mem) hn) fun rx s4 h => ?_
  exact wp_nil ⟨_, rfl, _, rfl, rx, rfl, h.glob.err, h.obj (by mem)⟩

theorem client_ub {B : Config} {P : Place} {m : Nat} {s : SSt World} (hB : Conf B) (g : Globals B P.env s) {n : Nat}
    (hn : 10 ^ 18 ≤ n) : (client n).mean (objects (std B)) (m + 22) s = .ub := by
  refine then_mean (P := fun x => x = .ub) (K := []) g (fun _ h => nomatch h) fun c s1 h => ub_bind (ub_seq ?_)
  rw [Stmt.eval]
  refine ub_bind ?_
  rw [Exprs.eval]
  refine ub_bind ?_
  rw [Expr.eval]
  refine ub_bind ?_
  rw [Call.eval]
  refine then_bind (P := fun x => x = .ub) (wp_cons (wp_int h fun r s2 h => wp_nil ?_))
  refine then_bind (P := fun x => x = .ub) (wp_var (v := P.lib N.toString) hB h rfl fun s3 h => ?_)
  rw [h.call]
  exact ts_ub hB h.glob h.know (by mem) hn

theorem client_err {B : Config} {P : Place} {m : Nat} {s : SSt World} (hB : Conf B) (g : Globals B P.env s) {n : Int}
    (hn : n < 0) : Errs ((client n).mean (objects (std B)) (m + 4) s) := by
  refine then_mean (P := Errs) (K := []) g (fun _ h => nomatch h) fun c s1 h => err_bind (err_seq ?_)
  rw [Stmt.eval]
  refine err_bind ?_
  rw [Exprs.eval]
  refine err_bind ?_
  rw [Expr.eval]
  refine err_bind ?_
  rw [Call.eval]
  refine then_bind (P := Errs) (wp_cons (wp_int h fun r s2 h => wp_nil ?_))
  refine then_bind (P := Errs) (wp_var (v := P.lib N.toString) hB h rfl fun s3 h => ?_)
  rw [h.call]
  exact ts_err hB h.glob h.know (by mem) hn


/-- C69: every non-negative 64-bit integer is turned into its decimal digits (`decimal`, Lean's own). -/
def C69Statement : Prop :=
  ∀ n : Nat, n < 2 ^ 63 → ∃ fuel s' v, (client n).mean (objects (std config)) fuel state = .ok s' [v] ∧
    s'.w.heap[v]? = some (.str (ascii (decimal n)))

/-- Proved below 10^18, for the function itself in every state in which the builtins of `start.noja`
are there.  Missing: from 10^18 on. -/
theorem C69_partial {B : Config} {P : Place} {s : SSt World} {r : Ref} {n m : Nat} (hB : Conf B)
    (g : Globals B P.env s) (hr : s.w.heap[r]? = some (.int n)) (hn : n < 10 ^ 18) :
    ∃ s' v, callN (objects (std B)) (m + 22) (P.lib N.toString) [r] 1 s = .ok s' [v] ∧
      s'.w.err = false ∧ s'.w.heap[v]? = some (.str (ascii (decimal n))) ∧
      (∀ x, x < s.w.heap.length → s'.w.heap[x]? = s.w.heap[x]?) ∧ Globals B P.env s' := by
  have hk : Knows s [(r, .int n)] := by
    intro p hp
    rw [List.mem_singleton.1 hp]
    exact ⟨nofun, hr⟩
  obtain ⟨s', vs, h, v, rfl, e, he, hv⟩ := ts_wp (m := m) hB g hk (List.mem_singleton.2 rfl) hn
  exact ⟨s', v, h, he, hv, fun x hx => e.heap x hx (by simp), g.ext e (by simp) (by simp) he⟩

/-- After the start, `return toString(n);` returns the decimal digits. -/
theorem C69_program_partial (n : Nat) (hn : n < 10 ^ 18) : ∃ fuel s' v,
    (client n).mean (objects (std config)) fuel state = .ok s' [v] ∧
      s'.w.heap[v]? = some (.str (ascii (decimal n))) := by
  obtain ⟨s', vs, h, v, rfl, -, hv⟩ := client_ok (m := 0) conf globals hn
  exact ⟨_, s', v, h, hv⟩

/-- Violated: `powr * 10` overflows in `getIntegerMagnitude` for every number from 10^18 on. -/
theorem C69_overflow {B : Config} {P : Place} {s : SSt World} {r : Ref} {n m : Nat} (hB : Conf B)
    (g : Globals B P.env s) (hr : s.w.heap[r]? = some (.int n)) (hn : 10 ^ 18 ≤ n) :
    callN (objects (std B)) (m + 22) (P.lib N.toString) [r] 1 s = .ub := by
  have hk : Knows s [(r, .int n)] := by
    intro p hp
    rw [List.mem_singleton.1 hp]
    exact ⟨nofun, hr⟩
  exact ts_ub hB g hk (List.mem_singleton.2 rfl) hn

theorem C69_violated : ¬ C69Statement := by
  intro h
  obtain ⟨fuel, s', v, h, -⟩ := h (10 ^ 18) (by decide)
  have := client_ub (m := 0) conf globals (n := 10 ^ 18) (Nat.le_refl _)
  have e := mean_unique (objects (std config)) (client (10 ^ 18 : Nat)) state (m := fuel) (n := 22)
    (by rw [h]; simp) (by rw [this]; simp)
  rw [h, this] at e
  cases e

/-- Negative integers have no text: `getIntegerMagnitude` refuses them, although `stringFromInteger`
goes on to handle a sign. -/
theorem C69_negative {B : Config} {P : Place} {s : SSt World} {r : Ref} {n : Int} {m : Nat} (hB : Conf B)
    (g : Globals B P.env s) (hr : s.w.heap[r]? = some (.int n)) (hn : n < 0) :
    Errs (callN (objects (std B)) (m + 4) (P.lib N.toString) [r] 1 s) := by
  have hk : Knows s [(r, .int n)] := by
    intro p hp
    rw [List.mem_singleton.1 hp]
    exact ⟨nofun, hr⟩
  exact ts_err hB g hk (List.mem_singleton.2 rfl) hn

/-! ## On the machine -/

theorem prog_wf : prog.wf false = true := by decide +kernel

/-- The machine: `start.noja` is run, its result plugged, then the program is run.  Either a limit is
met, or the result is the text. -/
theorem C69_machine_partial (cap k n : Nat) (hn : n < 10 ^ 18) (vs : List Ref) (u : St World)
    (h : start (objects (std base)) cap 0 ⟨world, fun _ => none, [compile prog], [], []⟩ k = .done vs u) :
    vs = [92] ∧ u.w = startedState.w ∧
    ((∃ k t, start (objects (std config)) cap u.exes.length
        ⟨(newClosure base.builtins 92 u.w).1, u.funcs, u.exes ++ [compile (client n)], [], []⟩ k = .limit t) ∨
      ∃ k v u', start (objects (std config)) cap u.exes.length
        ⟨(newClosure base.builtins 92 u.w).1, u.funcs, u.exes ++ [compile (client n)], [], []⟩ k = .done [v] u' ∧
        u'.w.heap[v]? = some (.str (ascii (decimal n)))) := by
  have h1 := mean_run (cap := cap) (objects_lawful (std base)) prog prog_wf world (fun _ => none) (fun _ => none) []
    (fun _ => trivial) [] 1
  have e : prog.mean (objects (std base)) 1 ⟨world, fun _ => none⟩ = .ok startedState [92] := started_ok
  rw [e] at h1
  rcases h1 with ⟨k', t, h1⟩ | ⟨k', u', h1, hw, -, -, -, hrel⟩
  · cases start_stable h h1 nofun nofun
  · cases start_stable h h1 nofun nofun
    refine ⟨rfl, hw, ?_⟩
    have h2 := mean_run (cap := cap) (objects_lawful (std config)) (client n) rfl (newClosure base.builtins 92 u.w).1
      startedState.funs u.funcs u.exes hrel [] 22
    rw [hw] at h2 ⊢
    obtain ⟨s', vs, h3, v, rfl, -, hv⟩ := client_ok (m := 0) conf globals hn
    have e3 : (client n).mean (objects (std config)) 22 ⟨(newClosure base.builtins 92 startedState.w).1, startedState.funs⟩ =
      .ok s' [v] := h3
    rw [e3] at h2
    rcases h2 with h2 | ⟨k2, u2, h2, hw2, -⟩
    · exact .inl h2
    · exact .inr ⟨k2, v, u2, h2, by rw [hw2]; exact hv⟩

def isDone : Status World → Bool
  | .done _ _ => true
  | _ => false

/-- `start.noja` ends on the machine. -/
example : ∃ k vs u, start (objects (std base)) 1000 0 ⟨world, fun _ => none, [compile prog], [], []⟩ k = .done vs u := by
  have h : isDone (start (objects (std base)) 1000 0 ⟨world, fun _ => none, [compile prog], [], []⟩ 1000) = true := by
    decide +kernel
  refine ⟨1000, ?_⟩
  revert h
  cases start (objects (std base)) 1000 0 ⟨world, fun _ => none, [compile prog], [], []⟩ 1000 with
  | done vs u => exact fun _ => ⟨vs, u, rfl⟩
  | _ => intro h; cases h

theorem one_more {B : Config} {P : Place} {s : SSt World} (g : Globals B P.env s) (z : Int) :
    ∃ (t : SSt World) (r : Ref), Globals B P.env t ∧ t.w.heap[r]? = some (Obj.int z) :=
  ⟨⟨(s.w.alloc (Obj.int z)).1, s.funs⟩, s.w.heap.length, g.ext (.alloc s (Obj.int z)) (by simp) (by simp) g.err,
    alloc_get s.w (Obj.int z)⟩

/-- The states meant by `C69_partial`: the one after the start, with one more integer. -/
example : ∃ (s : SSt World) (r : Ref), Conf config ∧ Globals config place.env s ∧ s.w.heap[r]? = some (Obj.int 907) := by
  obtain ⟨t, r, h⟩ := one_more globals 907
  exact ⟨t, r, conf, h⟩

example : decimal 907 = [57, 48, 55] := by decide

/-! ## The real tables

The configuration supposes that maps find what is in them, which is not so in general (`C33_violated`).
The scopes and maps of `start.noja` are not among the unlucky ones. -/

/-- In the table of a map made for `cap` entries, after each of these insertions, every name inserted
so far is found. -/
def keeps (cap : Int) (ns : List Name) : Bool :=
  (List.range (ns.length + 1)).all fun k => (ns.take k).all fun n =>
    match (Map.newMap 100 cap : Exec (Map.MObj Name Nat)) with
    | .ok m =>
      match Map.run nameOps 100 m ((ns.take k).map (fun a => Map.Op.insert a 1) ++ [.select n]) with
      | .ok rs =>
        match rs.getLast? with
        | some (.found _) => true
        | _ => false
      | _ => false
    | _ => false

/-- The variables in the order of their first assignment: of `start.noja` and of the functions that
`toString` calls for an integer. -/
def scopes : List (List Name) := [vnames, [N.digit], [N.n, N.magn, N.powr],
  [N.n, N.negative, N.power, N.underscore, N.temp, N.text, N.digit], [N.n], [N.can_use_method, N.value, N.T]]

theorem scopes_kept : scopes.all (keeps (-1)) = true := by decide +kernel

theorem result_kept : keeps 13 lnames = true := by decide +kernel

end Noja.VM.Start
