import Verif.VM.Move.TableEnd
import Verif.VM.Book.RoomyEnd
import Verif.VM.Book.Command

/-!
# From the command to what is written, with tables and collections (C91, C107)

The machine is here the one that is closest to the program: its maps have the tables of o_map.c, and before each instruction, and whenever
it likes, the collector moves what is alive to another heap.  A program whose maps and scopes are roomy does on it what the manual of the
language says, from its text and the arguments of the command to the stream and the status.
-/

set_option linter.unusedVariables false

namespace Noja.VM.Move

open Noja.VM.Book (bare bareStatus bootT clientT roomy runIf)

/-- What a session of `m` steps ends with, if the machine without collections has ended by then. -/
theorem session_done (fl : Book.Floats) {cap n : Nat} {vs : List Ref} {u : St TWorld} (hb : bootT fl cap n = .done vs u) {code : List Instr}
    {k : Nat} {y : Status World} (hk : bareStatus (clientT fl cap u code k) = y) (hy : ∀ t, y ≠ .run t) {m : Nat} (hm : k ≤ m)
    {x : Status TWorld} (h : SessionT fl cap n m code x) : Alike fl.write y (bareStatus x) := by
  obtain ⟨vs', u', h1, h2⟩ := C91_tables_partial fl h
  rw [hb] at h1
  cases h1
  have e : clientT fl cap u code m = clientT fl cap u code k := by
    obtain ⟨d, rfl⟩ := Nat.exists_eq_add_of_le hm
    cases hc : clientT fl cap u code k with
    | run t => rw [hc] at hk; exact absurd hk.symm (hy _)
    | _ =>
      unfold clientT at hc ⊢
      rw [start_add, hc]
  rw [e, hk] at h2
  exact h2

/-- C90 and C91, with tables: a program whose maps and scopes are all roomy does what the manual of the language says, whatever the collector
does and whenever it does it: there is a number of steps after which every session has ended, and has written what the program writes. -/
theorem C91_roomy_partial (fl : Book.Floats) {cap n : Nat} {vs : List Ref} {u : St TWorld} (hb : bootT fl cap n = .done vs u) (p : Stmts)
    (hp : p.wf false = true) (hlim : ∀ k t, clientT fl cap u (compile p) k ≠ .limit t) (fuel : Nat) :
    (∀ σ o, runIf roomy fuel p = .ok σ o → Book.run fuel p = .ok σ o ∧ ∃ k, ∀ m, k ≤ m → ∀ x, SessionT fl cap n m (compile p) x →
      ∃ rs t, x = .done rs t ∧ t.w.w.out = σ.out) ∧
    (∀ o, runIf roomy fuel p = .err o → Book.run fuel p = .err o ∧ ∃ k, ∀ m, k ≤ m → ∀ x, SessionT fl cap n m (compile p) x →
      ∃ t, x = .err t ∧ t.w.w.out = o) ∧
    ((∀ f, runIf roomy f p = .more) → ∀ m x, SessionT fl cap n m (compile p) x → ∃ t, x = .run t) := by
  have hag := fun f => (Book.C90_roomy_partial fl hb p hp f).resolve_left fun ⟨k, t, q⟩ => hlim k t q
  have same : runIf roomy fuel p ≠ .off → Book.run fuel p = runIf roomy fuel p := fun hr => ((Book.runIf_run roomy fuel p).resolve_left hr).symm
  refine ⟨fun σ o hr => ?_, fun o hr => ?_, fun hm m x h => ?_⟩
  · refine ⟨by rw [same (by rw [hr]; nofun), hr], ?_⟩
    have ha := (hag fuel).1
    rw [hr] at ha
    obtain ⟨k, rs, v, hk, ho⟩ : ∃ k rs v, bareStatus (clientT fl cap u (compile p) k) = .done rs v ∧ v.w.out = σ.out := by
      cases o with
      | none =>
        obtain ⟨r, v, ⟨k, hk⟩, ho⟩ := ha
        exact ⟨k, _, v, hk, by rw [ho]; rfl⟩
      | some vs =>
        obtain ⟨rs, v, ⟨k, hk⟩, ho, -⟩ := ha
        exact ⟨k, rs, v, hk, by rw [ho]; rfl⟩
    refine ⟨k, fun m hle x h => ?_⟩
    have hl := session_done fl hb hk nofun hle h
    cases x with
    | done rs' t => exact ⟨rs', t, rfl, hl.1.symm.trans ho⟩
    | _ => exact hl.elim
  · refine ⟨by rw [same (by rw [hr]; nofun), hr], ?_⟩
    have ha := (hag fuel).1
    rw [hr] at ha
    obtain ⟨v, ⟨k, hk⟩, ho⟩ := ha
    refine ⟨k, fun m hle x h => ?_⟩
    have hl := session_done fl hb hk nofun hle h
    cases x with
    | err t => exact ⟨t, rfl, hl.symm.trans (by rw [ho]; rfl)⟩
    | _ => exact hl.elim
  · obtain ⟨t, ht⟩ := (hag m).2 (hm m)
    obtain ⟨vs', u', h1, h2⟩ := C91_tables_partial fl h
    rw [hb] at h1
    cases h1
    rw [ht] at h2
    cases x with
    | run t' => exact ⟨t', rfl⟩
    | _ => exact h2.elim

end Noja.VM.Move

namespace Noja.TestRun

open Noja.TestFile Noja.VM
open Noja.VM.Book (bare bareStatus bootT clientT roomy runIf)
open Noja.VM.Move (SessionT)

/-- **C106, with tables and collections**: a runtime test with the code of a program whose maps and scopes are roomy passes exactly if the
manual says that the program writes what is expected; it is aborted if the manual says that the program stops with an error.  (The
program does not meet a limit of the interpreter and writes less than 1024 bytes, none of them zero.) -/
theorem C106_collected (nul : Bool) (comp : Text → Exec Exe.Executable) (made : Bool × Bool) (fl : Book.Floats)
    (fltA : Bool → List UInt8 → List UInt8 → BitVec 64) (past : UInt8) {cap n : Nat} {vs : List Ref} {u : St TWorld}
    (hb : bootT fl cap n = .done vs u) {s rest code expected : Text} {fs : List (Text × Text)} (hr : Reads s fs rest)
    (hd : (fs.map Prod.fst).Nodup) (hw : ∀ c ∈ rest, Blank c) (hn : fs.length < 8) (h1 : (typeName, runtimeName) ∈ fs)
    (h2 : (bytecodeName, code) ∈ fs) (h3 : (outputName, expected) ∈ fs) {e : Exe.Executable} (ha : assembled fltA past code = .ok e)
    (p : Stmts) (hp : p.wf false = true) (hf : ∀ i, Exe.fetch e i = ((compile p)[i]?).map Instr.encode)
    (hlim : ∀ k t, clientT fl cap u (compile p) k ≠ .limit t) (fuel : Nat) :
    (∀ σ o, runIf roomy fuel p = .ok σ o → Book.run fuel p = .ok σ o ∧ (σ.out.length < 1024 → 0 ∉ σ.out →
      ∃ k, ∀ m, k ≤ m → ∀ M : List Instr → Status TWorld, SessionT fl cap n m (compile p) (M (compile p)) →
        ∃ w t, runTestString (testTypes nul comp (assembled fltA past) made (interpretBy (fun c => bareStatus (M c)) (assembled fltA past))) s =
          .ok ⟨if σ.out = expected then .passed else .failed, w, t⟩ ∧ Freed t)) ∧
    (∀ o, runIf roomy fuel p = .err o → Book.run fuel p = .err o ∧
      ∃ k, ∀ m, k ≤ m → ∀ M : List Instr → Status TWorld, SessionT fl cap n m (compile p) (M (compile p)) →
        ∃ w t, runTestString (testTypes nul comp (assembled fltA past) made (interpretBy (fun c => bareStatus (M c)) (assembled fltA past))) s =
          .ok ⟨.aborted, w, t⟩ ∧ Freed t) := by
  obtain ⟨m1, m2, -⟩ := Move.C91_roomy_partial fl hb p hp hlim fuel
  refine ⟨fun σ o hrun => ?_, fun o hrun => ?_⟩
  · obtain ⟨he, k, hk⟩ := m1 σ o hrun
    refine ⟨he, fun hl hz => ⟨k, fun m hle M hM => ?_⟩⟩
    obtain ⟨rs, t, hx, ho⟩ := hk m hle _ hM
    refine runtime_verdict nul comp _ made _ hr hd hw hn h1 h2 h3 ((C106_runtime_partial nul expected).2 σ.out ?_ hl hz)
    rw [interpretBy_eq _ ha hf, hx, ← ho]
    rfl
  · obtain ⟨he, k, hk⟩ := m2 o hrun
    refine ⟨he, k, fun m hle M hM => ?_⟩
    obtain ⟨t, hx, ho⟩ := hk m hle _ hM
    refine runtime_verdict nul comp _ made _ hr hd hw hn h1 h2 h3 ((C106_runtime_partial nul expected).1 ?_)
    rw [interpretBy_eq _ ha hf, hx]
    rfl

/-! ## An example -/

theorem seven_ready : ∃ vs u σ o, bootT Book.toy 1024 1000 = .done vs u ∧ (∀ k t, clientT Book.toy 1024 u (compile seven) k ≠ .limit t) ∧
    @runIf Book.toy roomy 10 seven = .ok σ o ∧ σ.out = [55] := by
  have hb : (Book.afterBootT fun u => Book.outOfT (clientT Book.toy 1024 u (compile seven) 100)) = some (true, [55]) := by decide +kernel
  obtain ⟨vs, u, hs⟩ := Book.bootT_ends
  unfold Book.afterBootT at hb
  rw [hs] at hb
  have hb : Book.outOfT (clientT Book.toy 1024 u (compile seven) 100) = some (true, [55]) := hb
  have hlim : ∀ k t, clientT Book.toy 1024 u (compile seven) k ≠ .limit t := fun k t q => by
    cases hd : clientT Book.toy 1024 u (compile seven) 100 with
    | done rs v => cases start_stable hd q nofun nofun
    | err v => cases start_stable hd q nofun nofun
    | _ => rw [hd] at hb; cases hb
  have hr : wrote (@runIf Book.toy roomy 10 seven) = some [55] := by decide +kernel
  cases hrun : @runIf Book.toy roomy 10 seven with
  | ok σ o =>
    rw [hrun] at hr
    exact ⟨vs, u, σ, o, hs, hlim, rfl, Option.some.inj hr⟩
  | _ => rw [hrun] at hr; cases hr

/-- The test of `print(7);` passes, also if there are collections; and there are sessions with collections. -/
example : ∃ k, ∀ m, k ≤ m → (∃ x, SessionT Book.toy 1024 1000 m (compile seven) x) ∧
    ∀ M : List Instr → Status TWorld, SessionT Book.toy 1024 1000 m (compile seven) (M (compile seven)) →
      ∃ w t, runTestString (testTypes true (fun _ => .err) (assembled (fun _ _ _ => 0) 0) (true, true)
        (interpretBy (fun c => bareStatus (M c)) (assembled (fun _ _ _ => 0) 0))) sevenTest = .ok ⟨.passed, w, t⟩ ∧ Freed t := by
  obtain ⟨vs, u, σ, o, hs, hlim, hrun, hr⟩ := seven_ready
  obtain ⟨e, a1, a2⟩ := Asm.C58_partial (fun _ _ _ => 0) 0 noNum sevenProg sevenProg_program sevenProg_writable
  have ha : assembled (fun _ _ _ => 0) 0 (Asm.print noNum 0 sevenProg) = .ok e := by
    unfold assembled
    rw [a1]
    rfl
  obtain ⟨k, hk⟩ := ((C106_collected (expected := [55]) true (fun _ => .err) (true, true) Book.toy (fun _ _ _ => 0) 0 hs sevenTest_reads
    (by decide) nofun (by decide) (by decide) (by simp) (by simp) ha seven (by decide) (fun i => by rw [a2, sevenProg_eq, List.getElem?_map])
    hlim 10).1 σ o hrun).2 (by rw [hr]; decide) (by rw [hr]; decide)
  rw [if_pos hr] at hk
  exact ⟨k, fun m hm => ⟨Move.sessionT_exists Book.toy hs (compile seven) m, hk m hm⟩⟩

end Noja.TestRun

namespace Noja.Cli

open Noja.VM
open Noja.VM.Book (bare bareStatus bootT clientT roomy runIf)
open Noja.VM.Move (SessionT)

/-- The machine does with this code, in `m` steps, what some session does. -/
def Host.Collects (H : Host) (m : Nat) (code : List Instr) (M : Machine) : Prop :=
  ∃ x, SessionT H.fl H.cap H.n m code x ∧ M code = H.ends (bareStatus x)

/-- The library with such a machine. -/
noncomputable def Host.libT (H : Host) (M : Machine) : Lib := H.library (bootT H.fl H.cap H.n) (fun x => some (bareStatus x)) M

theorem Host.pluggedT (H : Host) {vs : List Ref} {u : St TWorld} (hb : bootT H.fl H.cap H.n = .done vs u) (M : Machine) (heap : Nat) :
    (H.libT M).plug heap = .ok none := by
  unfold Host.libT Host.library
  dsimp only
  rw [hb]

/-- C107, if `start.noja` fails or there is no room for it: the message and the trace are those of `start.noja`, whatever the program is, and
nothing of the program is run. -/
theorem C107_unready (H : Host) (name : List UInt8) (os : List Opt) (args : List Arg) (file : Arg) (rest : List Arg) (hw : WritesAll os args)
    (hf : file ∉ words) (hs : ∀ n, Opt.heap n ∈ os → n < 2 ^ 31) {assembly inline profile : Bool} {output : Option Arg} {heap : Nat}
    (ha : want os file = .run assembly inline profile file output heap) (hm : H.made heap profile = true) {s : St TWorld}
    (hb : bootT H.fl H.cap H.n = .err s ∨ bootT H.fl H.cap H.n = .limit s) (M : Machine) :
    command (H.libT M) name (args ++ file :: rest) = .ok ⟨[], [.message (H.tell (some (bareStatus (bootT H.fl H.cap H.n)))).message,
      .trace (H.tell (some (bareStatus (bootT H.fl H.cap H.n)))).trace], [], 255⟩ := by
  have hp : (H.libT M).plug heap = .ok (some (H.tell (some (bareStatus (bootT H.fl H.cap H.n))))) := by
    unfold Host.libT Host.library
    dsimp only
    rcases hb with hb | hb <;> rw [hb]
  unfold command
  rw [C93_partial os args file rest hw hf hs, Exec.bind_ok, ha]
  unfold perform
  dsimp only
  rw [if_neg (by rw [show (H.libT M).made heap profile = true from hm]; decide), hp, Exec.bind_ok]
  rfl

/-- **C107, for programs, with tables and collections**: `noja [-i] [-a] [-H size] text-or-file`.  If the text is a program of the grammar (or
the code of a program that the assembler reads), and its maps and scopes are roomy, then the command writes what the manual says that
the program writes; it ends with 0 if the program ends, and with 255, a message and a stack trace if the manual says that the program
stops with an error; it does not end if the program does not.  (The program meets no limit of the interpreter.) -/
theorem C107_collected (H : Host) (name : List UInt8) (os : List Opt) (args : List Arg) (file : Arg) (rest : List Arg) (hw : WritesAll os args)
    (hf : file ∉ words) (hs : ∀ n, Opt.heap n ∈ os → n < 2 ^ 31) {assembly inline : Bool} {heap : Nat}
    (ha : want os file = .run assembly inline false file none heap) (hm : H.made heap false = true)
    {vs : List Ref} {u : St TWorld} (hb : bootT H.fl H.cap H.n = .done vs u) {src : List UInt8} (hg : H.Gives src inline file) {p : Stmts}
    (hp : p.wf false = true) (ht : H.Means assembly src p)
    (hlim : ∀ k t, clientT H.fl H.cap u (compile p) k ≠ .limit t) (fuel : Nat) :
    letI := H.fl
    (∀ σ o, runIf roomy fuel p = .ok σ o → Book.run fuel p = .ok σ o ∧
      ∃ k, ∀ m, k ≤ m → ∀ M, H.Collects m (compile p) M → command (H.libT M) name (args ++ file :: rest) = .ok ⟨σ.out, [], [], 0⟩) ∧
    (∀ o, runIf roomy fuel p = .err o → Book.run fuel p = .err o ∧
      ∃ k, ∀ m, k ≤ m → ∀ M, H.Collects m (compile p) M →
        ∃ e : Report, command (H.libT M) name (args ++ file :: rest) = .ok ⟨o, [.message e.message, .trace e.trace], [], 255⟩) ∧
    ((∀ f, runIf roomy f p = .more) → ∀ m M, H.Collects m (compile p) M → command (H.libT M) name (args ++ file :: rest) = .diverge) := by
  letI := H.fl
  have hrun : ∀ M, (H.libT M).run assembly inline file heap = M (compile p) := fun M => H.run_eq M hg ht
  obtain ⟨m1, m2, m3⟩ := Move.C91_roomy_partial H.fl hb p hp hlim fuel
  have hc := fun M => C107_runs (H.libT M) name os args file rest hw hf hs ha hm (H.pluggedT hb M heap)
  refine ⟨fun σ o hr => ?_, fun o hr => ?_, fun hn m M ⟨x, hx, hM⟩ => ?_⟩
  · obtain ⟨h1, k, hk⟩ := m1 σ o hr
    refine ⟨h1, k, fun m hle M ⟨x, hx, hM⟩ => (hc M).1 _ ?_⟩
    obtain ⟨rs, t, rfl, ho⟩ := hk m hle x hx
    rw [hrun, hM, ← ho]
    rfl
  · obtain ⟨h1, k, hk⟩ := m2 o hr
    refine ⟨h1, k, fun m hle M ⟨x, hx, hM⟩ => ?_⟩
    obtain ⟨t, rfl, ho⟩ := hk m hle x hx
    refine ⟨H.tell (some (.err (bare t))), (hc M).2 _ _ ?_⟩
    rw [hrun, hM, ← ho]
    rfl
  · obtain ⟨t, rfl⟩ := m3 hn m x hx
    exact endless (H.libT M) name os args file rest hw hf hs ha hm (H.pluggedT hb M heap) (by rw [hrun, hM]; rfl)

/-! ## An example -/

/-- `noja -i 'print(7);'` writes `7` and ends with 0, also if there are collections; and there are machines with collections. -/
example : ∃ k, (∀ m, k ≤ m → ∃ M, toyHost.Collects m (compile TestRun.seven) M) ∧
    ∀ m, k ≤ m → ∀ M, toyHost.Collects m (compile TestRun.seven) M →
      command (toyHost.libT M) [110] [W.iS, sevenText] = .ok ⟨[55], [], [], 0⟩ := by
  obtain ⟨vs, u, σ, o, hs, hlim, hrun, hr⟩ := TestRun.seven_ready
  have hw : WritesAll [.inline] [W.iS] := by
    have := WritesAll.cons (.inlineS) .nil
    exact this
  obtain ⟨-, k, hk⟩ := (C107_collected toyHost [110] [.inline] [W.iS] sevenText [] hw (by decide) (by simp) rfl rfl hs
    (.inline (by decide) (by decide)) (p := TestRun.seven) (by decide) seven_means hlim 10).1 σ o hrun
  refine ⟨k, fun m hm => ?_, fun m hm M h => ?_⟩
  · obtain ⟨x, hx⟩ := Move.sessionT_exists Book.toy hs (compile TestRun.seven) m
    exact ⟨fun _ => toyHost.ends (bareStatus x), x, hx, rfl⟩
  · rw [← hr]
    exact hk m hm M h

/-- Without room on the stack `start.noja` does not end well. -/
example (M : Machine) : command ({ toyHost with cap := 0 }.libT M) [110] [W.iS, sevenText] = .ok ⟨[], [.message [101], .trace [116]], [], 255⟩ := by
  have hw : WritesAll [.inline] [W.iS] := by
    have := WritesAll.cons (.inlineS) .nil
    exact this
  have h : (match bootT Book.toy 0 1000 with
    | .err _ | .limit _ => true
    | _ => false) = true := by decide +kernel
  have hb : ∃ s, bootT Book.toy 0 1000 = .err s ∨ bootT Book.toy 0 1000 = .limit s := by
    revert h
    cases bootT Book.toy 0 1000 with
    | err s => exact fun _ => ⟨s, .inl rfl⟩
    | limit s => exact fun _ => ⟨s, .inr rfl⟩
    | _ => exact nofun
  obtain ⟨s, hb⟩ := hb
  exact C107_unready { toyHost with cap := 0 } [110] [.inline] [W.iS] sevenText [] hw (by decide) (by simp) rfl rfl hb M

end Noja.Cli
