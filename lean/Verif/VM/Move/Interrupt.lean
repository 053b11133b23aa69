import Verif.VM.Errors
import Verif.VM.Grow
import Verif.VM.Move.TraceCommand

/-!
# Signals (C111)

The command installs a handler for SIGINT and SIGTERM that sets a flag of the runtime (main.c:71-78, runtime.c:321-324), and the interpreter
looks at the flag before each instruction (run.c:1082-1106).  So the signal ends the program before the next instruction, with an error; what
has been written by then is a beginning of what would have been written without the signal.

The handler is installed until the end of the process, but the runtime is not there that long.
-/

set_option linter.unusedVariables false

namespace Noja.VM

/-- run.c:1087-1096: the flag is set when the interpreter looks at it. -/
def forced {W : Type} : Status W → Status W
  | .run s => .err s
  | x => x

/-- If the flag is set from the moment before the `T`-th instruction on. -/
theorem forced_exec {W : Type} (L : Layer W) (cap T : Nat) (s : St W) :
    exec L cap (fun i => decide (T ≤ i)) (T + 1) 0 s = forced (runN L cap T s) := by
  rw [exec_add, exec_quiet T 0 s fun i _ h => decide_eq_false (by omega)]
  cases runN L cap T s with
  | run u =>
    show exec L cap (fun i => decide (T ≤ i)) 1 (0 + T) u = .err u
    rw [exec_succ, Nat.zero_add, if_pos (decide_eq_true (Nat.le_refl T))]
  | _ => rfl

namespace Move

open Noja.VM.Book (bare bareStatus bootT clientT roomy runIf)

/-- What has been written. -/
def written : Status World → Option (List UInt8)
  | .run s => some s.w.out
  | .done _ s => some s.w.out
  | .err s => some s.w.out
  | .limit s => some s.w.out
  | .ub => none

theorem alike_written {fmt : BitVec 64 → Graph.Text} {x y : Status World} (h : Alike fmt x y) : written x = written y := by
  cases x <;> cases y <;> first | exact h.elim | exact congrArg some h | exact congrArg some h.1 | rfl

/-- Without collections. -/
theorem clientT_grows (fl : Book.Floats) (cap : Nat) (u : St TWorld) (code : List Instr) {T m : Nat} (h : T ≤ m) {a b : List UInt8}
    (ha : written (bareStatus (clientT fl cap u code T)) = some a) (hb : written (bareStatus (clientT fl cap u code m)) = some b) :
    a <+: b := by
  obtain ⟨d, rfl⟩ := Nat.exists_eq_add_of_le h
  unfold clientT at ha hb
  rw [start_add] at hb
  cases hx : start (tables (std (Book.printing fl Start.config)) false) cap u.exes.length
      ⟨Book.pluggedT u.w, u.funcs, u.exes ++ [code], [], []⟩ T with
  | run t =>
    rw [hx] at ha hb
    dsimp only at hb
    have hg := Grow.at_runN (cap := cap) (Grow.tables_along (Grow.printing_calm fl Book.based_config) false) d t
    cases ha
    cases hy : runN (tables (std (Book.printing fl Start.config)) false) cap d t with
    | ub => rw [hy] at hb; cases hb
    | _ => rw [hy] at hb hg; cases hb; exact hg
  | ub => rw [hx] at ha; cases ha
  | _ => rw [hx] at ha hb; cases ha; cases hb; exact List.prefix_rfl

/-- **C111, for sessions**: what has been written after some steps is a beginning of what has been written after more steps, whatever is collected
meanwhile. -/
theorem C111_sessions (fl : Book.Floats) {cap n T m : Nat} (h : T ≤ m) {code : List Instr} {x y : Status TWorld}
    (hx : SessionT fl cap n T code x) (hy : SessionT fl cap n m code y) {a b : List UInt8}
    (ha : written (bareStatus x) = some a) (hb : written (bareStatus y) = some b) : a <+: b := by
  obtain ⟨vs, u, h1, h2⟩ := C91_tables_partial fl hx
  obtain ⟨vs', u', h3, h4⟩ := C91_tables_partial fl hy
  rw [h1] at h3
  cases h3
  exact clientT_grows fl cap u code h ((alike_written h2).trans ha) ((alike_written h4).trans hb)

end Move

end Noja.VM

namespace Noja.Cli

open Noja.VM
open Noja.VM.Book (bare bareStatus bootT clientT roomy runIf)
open Noja.VM.Move (SessionT written)

/-- The machine does with this code what some session does in which the flag is set from the moment before instruction `T` on. -/
def Host.Interrupted (H : Host) (T : Nat) (code : List Instr) (M : Machine) : Prop :=
  ∃ x, SessionT H.fl H.cap H.n T code x ∧ M code = H.ends (forced (bareStatus x))

/-- What the command makes of what the machine has come to (main.c:231-258). -/
def Host.outcome (H : Host) : Status World → Exec Result
  | .done _ s => .ok ⟨s.w.out, [], [], 0⟩
  | .err s => .ok ⟨s.w.out, [.message (H.tell (some (.err s))).message, .trace (H.tell (some (.err s))).trace], [], 255⟩
  | .limit s => .ok ⟨s.w.out, [.message (H.tell (some (.limit s))).message, .trace (H.tell (some (.limit s))).trace], [], 255⟩
  | .run _ => .diverge
  | .ub => .ub

theorem result_of (H : Host) (name : List UInt8) (os : List Opt) (args : List Arg) (file : Arg) (rest : List Arg) (hw : WritesAll os args)
    (hf : file ∉ words) (hs : ∀ n, Opt.heap n ∈ os → n < 2 ^ 31) {assembly inline : Bool} {heap : Nat}
    (ha : want os file = .run assembly inline false file none heap) (hm : H.made heap false = true)
    {vs : List Ref} {u : St TWorld} (hb : bootT H.fl H.cap H.n = .done vs u) {src : List UInt8} (hg : H.Gives src inline file) {p : Stmts}
    (ht : H.Means assembly src p) {M : Machine} {x : Status World} (hM : M (compile p) = H.ends x) :
    command (H.libT M) name (args ++ file :: rest) = H.outcome x := by
  have hrun : (H.libT M).run assembly inline file heap = H.ends x := (H.run_eq M hg ht).trans hM
  have hc := C107_runs (H.libT M) name os args file rest hw hf hs ha hm (H.pluggedT hb M heap)
  cases x with
  | done rs s => exact hc.1 _ hrun
  | err s => exact hc.2 _ _ hrun
  | limit s => exact hc.2 _ _ hrun
  | run s => exact endless (H.libT M) name os args file rest hw hf hs ha hm (H.pluggedT hb M heap) hrun
  | ub =>
    unfold command
    rw [C93_partial os args file rest hw hf hs, Exec.bind_ok, ha]
    unfold perform
    dsimp only
    rw [if_neg (by rw [show (H.libT M).made heap false = true from hm]; decide), H.pluggedT hb M heap, Exec.bind_ok]
    dsimp only
    rw [hrun]
    rfl

/-- **C111**: a signal while a program runs.  The command ends; if the program has not ended by itself, there are a message and a trace, and the
status is 255; and what is on the stream is a beginning of what the command would have written without the signal, whenever it would have
ended and whatever is collected. -/
theorem C111_partial (H : Host) (name : List UInt8) (os : List Opt) (args : List Arg) (file : Arg) (rest : List Arg) (hw : WritesAll os args)
    (hf : file ∉ words) (hs : ∀ n, Opt.heap n ∈ os → n < 2 ^ 31) {assembly inline : Bool} {heap : Nat}
    (ha : want os file = .run assembly inline false file none heap) (hm : H.made heap false = true)
    {vs : List Ref} {u : St TWorld} (hb : bootT H.fl H.cap H.n = .done vs u) {src : List UInt8} (hg : H.Gives src inline file) {p : Stmts}
    (ht : H.Means assembly src p) {T : Nat} {M : Machine} (hM : H.Interrupted T (compile p) M) :
    command (H.libT M) name (args ++ file :: rest) ≠ .diverge ∧
    ∀ r, command (H.libT M) name (args ++ file :: rest) = .ok r →
      (r.status = 0 ∧ r.said = [] ∨ r.status = 255 ∧ ∃ e : Report, r.said = [.message e.message, .trace e.trace]) ∧ r.files = [] ∧
      ∀ m M', T ≤ m → H.Collects m (compile p) M' → ∀ r', command (H.libT M') name (args ++ file :: rest) = .ok r' →
        r.out <+: r'.out ∧ (r.status = 0 → r'.status = 0 ∧ r'.out = r.out) := by
  obtain ⟨x, hx, hM⟩ := hM
  have hc := result_of H name os args file rest hw hf hs ha hm hb hg ht hM
  refine ⟨?_, fun r hr => ?_⟩
  · rw [hc]
    cases bareStatus x <;> exact nofun
  rw [hc] at hr
  have later : ∀ m M', T ≤ m → H.Collects m (compile p) M' → ∀ r', command (H.libT M') name (args ++ file :: rest) = .ok r' →
      ∀ a, written (bareStatus x) = some a → a <+: r'.out := by
    rintro m M' hle ⟨y, hy, hM'⟩ r' hr' a ha'
    rw [result_of H name os args file rest hw hf hs ha hm hb hg ht hM'] at hr'
    refine Move.C111_sessions H.fl hle hx hy ha' ?_
    cases hby : bareStatus y with
    | run s => rw [hby] at hr'; cases hr'
    | ub => rw [hby] at hr'; cases hr'
    | _ => rw [hby] at hr'; cases hr'; rfl
  cases hbx : bareStatus x with
  | ub => rw [hbx] at hr; cases hr
  | run s =>
    rw [hbx] at hr
    cases hr
    exact ⟨.inr ⟨rfl, H.tell (some (.err s)), rfl⟩, rfl, fun m M' hle hC r' hr' => ⟨later m M' hle hC r' hr' _ (by rw [hbx]; rfl), nofun⟩⟩
  | err s =>
    rw [hbx] at hr
    cases hr
    exact ⟨.inr ⟨rfl, H.tell (some (.err s)), rfl⟩, rfl, fun m M' hle hC r' hr' => ⟨later m M' hle hC r' hr' _ (by rw [hbx]; rfl), nofun⟩⟩
  | limit s =>
    rw [hbx] at hr
    cases hr
    exact ⟨.inr ⟨rfl, H.tell (some (.limit s)), rfl⟩, rfl, fun m M' hle hC r' hr' => ⟨later m M' hle hC r' hr' _ (by rw [hbx]; rfl), nofun⟩⟩
  | done rs s =>
    rw [hbx] at hr
    cases hr
    refine ⟨.inl ⟨rfl, rfl⟩, rfl, fun m M' hle ⟨y, hy, hM'⟩ r' hr' =>
      ⟨later m M' hle ⟨y, hy, hM'⟩ r' hr' _ (by rw [hbx]; rfl), fun _ => ?_⟩⟩
    rw [result_of H name os args file rest hw hf hs ha hm hb hg ht hM'] at hr'
    obtain ⟨vs', u', h1, h2⟩ := Move.C91_tables_partial H.fl hx
    rw [hb] at h1
    cases h1
    rw [hbx] at h2
    cases hk : bareStatus (clientT H.fl H.cap u (compile p) T) with
    | done l t =>
      rw [hk] at h2
      have h3 := Move.session_done H.fl hb hk nofun hle hy
      cases hby : bareStatus y with
      | done l' t' =>
        rw [hby] at hr' h3
        cases hr'
        exact ⟨rfl, h3.1.symm.trans h2.1⟩
      | _ => rw [hby] at h3; exact h3.elim
    | _ => rw [hk] at h2; exact h2.elim

/-- C111, with the manual: if the manual says what the program writes, and its maps and scopes are roomy, then what is on the stream after a
signal is a beginning of that; the status is 0 only if all of it is there and the manual says that the program ends.  From some moment on
the signal comes too late. -/
theorem C111_manual (H : Host) (name : List UInt8) (os : List Opt) (args : List Arg) (file : Arg) (rest : List Arg) (hw : WritesAll os args)
    (hf : file ∉ words) (hs : ∀ n, Opt.heap n ∈ os → n < 2 ^ 31) {assembly inline : Bool} {heap : Nat}
    (ha : want os file = .run assembly inline false file none heap) (hm : H.made heap false = true)
    {vs : List Ref} {u : St TWorld} (hb : bootT H.fl H.cap H.n = .done vs u) {src : List UInt8} (hg : H.Gives src inline file) {p : Stmts}
    (hp : p.wf false = true) (ht : H.Means assembly src p)
    (hlim : ∀ k t, clientT H.fl H.cap u (compile p) k ≠ .limit t) (fuel : Nat) :
    letI := H.fl
    (∀ σ o, runIf roomy fuel p = .ok σ o → (∀ T M, H.Interrupted T (compile p) M →
        command (H.libT M) name (args ++ file :: rest) = .ok ⟨σ.out, [], [], 0⟩ ∨
        ∃ out, ∃ e : Report, out <+: σ.out ∧
          command (H.libT M) name (args ++ file :: rest) = .ok ⟨out, [.message e.message, .trace e.trace], [], 255⟩) ∧
      ∃ k, ∀ T M, k ≤ T → H.Interrupted T (compile p) M → command (H.libT M) name (args ++ file :: rest) = .ok ⟨σ.out, [], [], 0⟩) ∧
    (∀ o, runIf roomy fuel p = .err o → ∀ T M, H.Interrupted T (compile p) M →
        ∃ out, ∃ e : Report, out <+: o ∧
          command (H.libT M) name (args ++ file :: rest) = .ok ⟨out, [.message e.message, .trace e.trace], [], 255⟩) ∧
    ((∀ f, runIf roomy f p = .more) → ∀ T M, H.Interrupted T (compile p) M → ∃ out, ∃ e : Report,
        command (H.libT M) name (args ++ file :: rest) = .ok ⟨out, [.message e.message, .trace e.trace], [], 255⟩) := by
  letI := H.fl
  obtain ⟨m1, m2, m3⟩ := Move.C91_roomy_partial H.fl hb p hp hlim fuel
  have key : ∀ {T x}, SessionT H.fl H.cap H.n T (compile p) x → ∀ {k : Nat} {b : List UInt8},
      (∀ m, k ≤ m → ∀ y, SessionT H.fl H.cap H.n m (compile p) y → written (bareStatus y) = some b) →
      ∀ {a}, written (bareStatus x) = some a → a <+: b := by
    intro T x hx k b hk a hax
    obtain ⟨y, hy⟩ := Move.sessionT_exists H.fl hb (compile p) (max T k)
    exact Move.C111_sessions H.fl (Nat.le_max_left T k) hx hy hax (hk _ (Nat.le_max_right T k) y hy)
  have ends : ∀ {T x}, SessionT H.fl H.cap H.n T (compile p) x → ∀ {k : Nat} {y : Status World},
      bareStatus (clientT H.fl H.cap u (compile p) k) = y → (∀ t, y ≠ .run t) →
      (∃ t, bareStatus x = .run t) ∨ Move.Alike H.fl.write y (bareStatus x) := by
    intro T x hx k y hy hr
    obtain ⟨vs', u', h1, h2⟩ := Move.C91_tables_partial H.fl hx
    rw [hb] at h1
    cases h1
    cases hT : clientT H.fl H.cap u (compile p) T with
    | run t =>
      rw [hT] at h2
      cases hbx : bareStatus x with
      | run t' => exact .inl ⟨t', rfl⟩
      | _ => rw [hbx] at h2; exact h2.elim
    | _ =>
      refine .inr ?_
      rw [hT] at h2
      cases hk : clientT H.fl H.cap u (compile p) k with
      | run t => rw [hk] at hy; exact absurd hy.symm (hr _)
      | _ =>
        have := start_stable (show start _ _ _ _ T = _ from hT) (show start _ _ _ _ k = _ from hk) nofun nofun
        rw [hk, ← this] at hy
        rw [← hy]
        exact h2
  refine ⟨fun σ o hr => ⟨fun T M ⟨x, hx, hM⟩ => ?_, ?_⟩, fun o hr T M ⟨x, hx, hM⟩ => ?_, fun hn T M ⟨x, hx, hM⟩ => ?_⟩
  · obtain ⟨-, k, hk⟩ := m1 σ o hr
    rw [result_of H name os args file rest hw hf hs ha hm hb hg ht hM]
    obtain ⟨y, hy⟩ := Move.sessionT_exists H.fl hb (compile p) k
    obtain ⟨rs, t, rfl, ho⟩ := hk k (Nat.le_refl k) y hy
    obtain ⟨vs', u', h1, h2⟩ := Move.C91_tables_partial H.fl hy
    rw [hb] at h1
    cases h1
    have hw' : ∀ m, k ≤ m → ∀ y, SessionT H.fl H.cap H.n m (compile p) y → written (bareStatus y) = some σ.out := by
      intro m hle y hy
      obtain ⟨rs, t, rfl, ho⟩ := hk m hle y hy
      rw [← ho]
      rfl
    cases hq : bareStatus (clientT H.fl H.cap u (compile p) k) with
    | done l s =>
      rcases ends hx hq nofun with ⟨t', hbx⟩ | hal
      · refine .inr ?_
        rw [hbx]
        exact ⟨t'.w.out, _, key hx hw' (by rw [hbx]; rfl), rfl⟩
      · cases hbx : bareStatus x with
        | done l' s' =>
          rw [hbx] at hal
          rw [hq] at h2
          refine .inl ?_
          show Exec.ok (⟨s'.w.out, [], [], 0⟩ : Result) = _
          rw [← hal.1, h2.1, ← ho]
          rfl
        | _ => rw [hbx] at hal; exact hal.elim
    | _ => rw [hq] at h2; exact h2.elim
  · obtain ⟨-, k, hk⟩ := m1 σ o hr
    refine ⟨k, fun T M hle ⟨x, hx, hM⟩ => ?_⟩
    rw [result_of H name os args file rest hw hf hs ha hm hb hg ht hM]
    obtain ⟨rs, t, rfl, ho⟩ := hk T hle x hx
    rw [← ho]
    rfl
  · obtain ⟨-, k, hk⟩ := m2 o hr
    rw [result_of H name os args file rest hw hf hs ha hm hb hg ht hM]
    obtain ⟨y, hy⟩ := Move.sessionT_exists H.fl hb (compile p) k
    obtain ⟨t, rfl, ho⟩ := hk k (Nat.le_refl k) y hy
    obtain ⟨vs', u', h1, h2⟩ := Move.C91_tables_partial H.fl hy
    rw [hb] at h1
    cases h1
    have hw' : ∀ m, k ≤ m → ∀ y, SessionT H.fl H.cap H.n m (compile p) y → written (bareStatus y) = some o := by
      intro m hle y hy
      obtain ⟨t, rfl, ho⟩ := hk m hle y hy
      rw [← ho]
      rfl
    cases hq : bareStatus (clientT H.fl H.cap u (compile p) k) with
    | err s =>
      rcases ends hx hq nofun with ⟨t', hbx⟩ | hal
      · rw [hbx]
        exact ⟨t'.w.out, _, key hx hw' (by rw [hbx]; rfl), rfl⟩
      · cases hbx : bareStatus x with
        | err s' => exact ⟨s'.w.out, _, key hx hw' (by rw [hbx]; rfl), rfl⟩
        | _ => rw [hbx] at hal; exact hal.elim
    | _ => rw [hq] at h2; exact h2.elim
  · obtain ⟨t, rfl⟩ := m3 hn T x hx
    exact ⟨_, _, result_of H name os args file rest hw hf hs ha hm hb hg ht hM⟩

/-! ## An example -/

/-- `noja -i 'print(7);'` with a signal at any moment: either `7` is written and the status is 0, or a beginning of `7` (so either nothing or all
of it) and the status is 255; and there are such machines for each moment. -/
example : (∀ T, ∃ M, toyHost.Interrupted T (compile TestRun.seven) M) ∧ ∀ T M, toyHost.Interrupted T (compile TestRun.seven) M →
    command (toyHost.libT M) [110] [W.iS, sevenText] = .ok ⟨[55], [], [], 0⟩ ∨ ∃ out, ∃ e : Report, (out = [] ∨ out = [55]) ∧
      command (toyHost.libT M) [110] [W.iS, sevenText] = .ok ⟨out, [.message e.message, .trace e.trace], [], 255⟩ := by
  obtain ⟨vs, u, σ, o, hs, hlim, hrun, hr⟩ := TestRun.seven_ready
  have hw : WritesAll [.inline] [W.iS] := by
    have := WritesAll.cons (.inlineS) .nil
    exact this
  have hm := ((C111_manual toyHost [110] [.inline] [W.iS] sevenText [] hw (by decide) (by simp) rfl rfl hs
    (.inline (by decide) (by decide)) (p := TestRun.seven) (by decide) seven_means hlim 10).1 σ o hrun).1
  refine ⟨fun T => ?_, fun T M h => ?_⟩
  · obtain ⟨x, hx⟩ := Move.sessionT_exists Book.toy hs (compile TestRun.seven) T
    exact ⟨fun _ => toyHost.ends (forced (bareStatus x)), x, hx, rfl⟩
  · rcases hm T M h with h | ⟨out, e, ho, h⟩
    · exact .inl (by rw [← hr]; exact h)
    · refine .inr ⟨out, e, ?_, h⟩
      rw [hr] at ho
      obtain ⟨b, hb⟩ := ho
      cases out with
      | nil => exact .inl rfl
      | cons a l =>
        injection hb with h1 h2
        rw [h1, (List.append_eq_nil_iff.1 h2).1]
        exact .inr rfl

/-- The first theorem, at the very first moment: nothing has been done, so nothing has been written. -/
example : ∃ M, toyHost.Interrupted 0 (compile TestRun.seven) M ∧ command (toyHost.libT M) [110] [W.iS, sevenText] ≠ .diverge := by
  obtain ⟨vs, u, σ, o, hs, hlim, hrun, hr⟩ := TestRun.seven_ready
  have hw : WritesAll [.inline] [W.iS] := by
    have := WritesAll.cons (.inlineS) .nil
    exact this
  obtain ⟨x, hx⟩ := Move.sessionT_exists Book.toy hs (compile TestRun.seven) 0
  have hM : toyHost.Interrupted 0 (compile TestRun.seven) fun _ => toyHost.ends (forced (bareStatus x)) := ⟨x, hx, rfl⟩
  exact ⟨_, hM, (C111_partial toyHost [110] [.inline] [W.iS] sevenText [] hw (by decide) (by simp) rfl rfl hs
    (.inline (by decide) (by decide)) (p := TestRun.seven) seven_means hM).1⟩

end Noja.Cli
