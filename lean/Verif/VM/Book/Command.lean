import Verif.Util.Command
import Verif.Util.Source
import Verif.VM.Book.TestRuntime
import Verif.Parse.Total
import Verif.VM.DiagramText
import Verif.VM.Start.Text

/-!
# From the command to what is written (C107)

The library of `Verif.Util.Command` is here the one that the other parts describe: the text comes from a source (C98), is compiled (C84)
or assembled (C58), and runs on the machine (C90).  `C107_text`: what the command writes, and its status, is what the manual of the
language says about the program.
-/

set_option linter.unusedVariables false

namespace Noja.Cli

open Noja.VM

/-- `(unnamed)` -/
def unnamed : List UInt8 := [40, 117, 110, 110, 97, 109, 101, 100, 41]

/-- What the machines below have in common: how numbers are read and written, the state in which `start.noja` has ended after `n` steps, the
capacity of the stack, the files, what is in memory that was not written, what is reported. -/
structure Host where
  fl : Book.Floats
  fltC : List UInt8 → Option (BitVec 64)
  fltA : Bool → List UInt8 → List UInt8 → BitVec 64
  cap : Nat
  n : Nat
  files : Arg → Option (List UInt8)
  junk : UInt8
  past : UInt8
  made : Nat → Bool → Bool
  opens : Arg → Bool
  tell : Option (Status World) → Report
  profile : (assembly inline : Bool) → Arg → Nat → List UInt8
  fmt : BitVec 64 → List UInt8
  complaint : List UInt8

/-- run.c:1170-1216: the text of a source; the error of a file that is not there is reported. -/
def Host.load (H : Host) (inline : Bool) (a : Arg) : Exec (List UInt8) :=
  if inline then do
    let s ← Source.fromString (some unnamed) (a ++ [0]) (-1) true H.junk
    Source.getBody s
  else
    match H.files a with
    | none => .err
    | some c => do
      let s ← Source.fromFile a c c true H.junk
      Source.getBody s

/-- diagram.c:37-59: the text of the source of a diagram; one that is not a file has no name. -/
def Host.loadDiagram (H : Host) (inline : Bool) (a : Arg) : Exec (List UInt8) :=
  if inline then do
    let s ← Source.fromString none (a ++ [0]) (-1) true H.junk
    Source.getBody s
  else
    match H.files a with
    | none => .err
    | some c => do
      let s ← Source.fromFile a c c true H.junk
      Source.getBody s

/-- diagram.c:8-59 `diagramStringAST` and `diagramFileAST`; main.c:188 writes as much of the text as `strlen` says. -/
def Host.draw (H : Host) (inline : Bool) (a : Arg) : Exec (List UInt8 ⊕ List UInt8) :=
  match H.loadDiagram inline a >>= Diagram.drawText H.fmt H.fltC H.past with
  | .ok t => .ok (.inl (Path.cstring t))
  | .err => .ok (.inr H.complaint)
  | .ub => .ub
  | .diverge => .diverge

/-- run.c:1126-1168 `runSource`, `runBytecodeSource`: the executable. -/
def Host.prepare (H : Host) (assembly : Bool) (t : List UInt8) : Exec Exe.Executable :=
  if assembly then TestRun.assembled H.fltA H.past t else compileText H.fltC H.past t

/-- What comes of at most `k` steps. -/
def Host.ends (H : Host) : Status World → Exec (List UInt8 × Option Report)
  | .done rs s => .ok (s.w.out, none)
  | .err s => .ok (s.w.out, some (H.tell (some (.err s))))
  | .limit s => .ok (s.w.out, some (H.tell (some (.limit s))))
  | .run _ => .diverge
  | .ub => .ub

/-- A machine: what comes of code. -/
abbrev Machine := List Instr → Exec (List UInt8 × Option Report)

/-- The machine, with the code of an executable. -/
noncomputable def execute (M : Machine) (e : Exe.Executable) : Exec (List UInt8 × Option Report) :=
  match TestRun.codeOf e with
  | none => .ub
  | some code => M code

/-- A text is compiled or assembled, and run; an error is reported. -/
noncomputable def Host.go (H : Host) (M : Machine) (assembly : Bool) (t : List UInt8) : Exec (List UInt8 × Option Report) :=
  match H.prepare assembly t with
  | .ok e => execute M e
  | .err => .ok ([], some (H.tell none))
  | .ub => .ub
  | .diverge => .diverge

/-- run.c:1170-1240. -/
noncomputable def Host.run (H : Host) (M : Machine) (assembly inline : Bool) (a : Arg) : Exec (List UInt8 × Option Report) :=
  match H.load inline a with
  | .ok t => H.go M assembly t
  | .err => .ok ([], some (H.tell none))
  | .ub => .ub
  | .diverge => .diverge

/-- The library, with a machine that is ready after `start`. -/
noncomputable def Host.library {W : Type} (H : Host) (start : Status W) (told : Status W → Option (Status World)) (M : Machine) : Lib where
  made := H.made
  plug _ :=
    match start with
    | .done .. => .ok none
    | .err s => .ok (some (H.tell (told (.err s))))
    | .limit s => .ok (some (H.tell (told (.limit s))))
    | .run _ => .diverge
    | .ub => .ub
  run assembly inline a _ := H.run M assembly inline a
  profile := H.profile
  diagram := H.draw
  opens := H.opens

/-- The machine without tables and collections, at most `k` steps. -/
noncomputable def Host.lib (H : Host) (k : Nat) (u : St World) : Lib :=
  H.library (Book.boot H.fl H.cap H.n) some fun code => H.ends (Book.client H.fl H.cap u code k)

/-- The argument is the text, or the path of a file with the text. -/
inductive Host.Gives (H : Host) (src : List UInt8) : (inline : Bool) → Arg → Prop
  | inline : 0 ∉ src → src.length < 2 ^ 31 → H.Gives src true src
  | file {a : Arg} : 0 ∉ a → H.files a = some src → src.length < 2 ^ 31 → H.Gives src false a

theorem Host.Gives.load {H : Host} {src : List UInt8} {inline : Bool} {a : Arg} (h : H.Gives src inline a) : H.load inline a = .ok src := by
  cases h with
  | inline h0 hl =>
    obtain ⟨s, h1, h2⟩ := Source.C98_partial.2.1 (some unnamed) src [] H.junk (by decide) (by decide) h0 hl
    unfold Host.load
    rw [if_pos rfl, h1, Exec.bind_ok, h2.2]
  | file h0 hf hl =>
    obtain ⟨s, h1, h2⟩ := Source.C98_partial.1 a src H.junk h0 hl
    unfold Host.load
    rw [if_neg nofun, hf]
    dsimp only
    rw [h1, Exec.bind_ok, h2.2]

theorem Host.Gives.loadDiagram {H : Host} {src : List UInt8} {inline : Bool} {a : Arg} (h : H.Gives src inline a) :
    H.loadDiagram inline a = .ok src := by
  cases h with
  | inline h0 hl =>
    obtain ⟨s, h1, h2⟩ := Source.C98_partial.2.1 none src [] H.junk (by decide) (by decide) h0 hl
    unfold Host.loadDiagram
    rw [if_pos rfl, h1, Exec.bind_ok, h2.2]
  | file h0 hf hl =>
    obtain ⟨s, h1, h2⟩ := Source.C98_partial.1 a src H.junk h0 hl
    unfold Host.loadDiagram
    rw [if_neg nofun, hf]
    dsimp only
    rw [h1, Exec.bind_ok, h2.2]

/-- What the machine does with code is what the manual says about the program. -/
theorem Host.meant (H : Host) {vs : List Ref} {u : St World} (hb : Book.boot H.fl H.cap H.n = .done vs u) (p : Stmts) (hp : p.wf false = true)
    (hlim : ∀ k t, Book.client H.fl H.cap u (compile p) k ≠ .limit t) (fuel : Nat) :
    letI := H.fl
    (∀ σ o, Book.run fuel p = .ok σ o → ∃ k, ∀ k', k ≤ k' → H.ends (Book.client H.fl H.cap u (compile p) k') = .ok (σ.out, none)) ∧
    (∀ o, Book.run fuel p = .err o →
      ∃ k v, Book.client H.fl H.cap u (compile p) k = .err v ∧
        ∀ k', k ≤ k' → H.ends (Book.client H.fl H.cap u (compile p) k') = .ok (o, some (H.tell (some (.err v))))) ∧
    ((∀ n, Book.run n p = .more) → ∀ k, H.ends (Book.client H.fl H.cap u (compile p) k) = .diverge) := by
  letI := H.fl
  have hag := ((Book.C90_program_partial H.fl hb p hp fuel).resolve_left fun ⟨k, t, q⟩ => hlim k t q).1
  have later : ∀ {k x}, Book.client H.fl H.cap u (compile p) k = x → (∀ t, x ≠ .run t) → ∀ k', k ≤ k' →
      Book.client H.fl H.cap u (compile p) k' = x := fun {k x} hk hx k' hle => by
    obtain ⟨d, rfl⟩ := Nat.exists_eq_add_of_le hle
    unfold Book.client at hk ⊢
    rw [start_add, hk]
    cases x with
    | run t => exact absurd rfl (hx t)
    | _ => rfl
  refine ⟨fun σ o hrun => ?_, fun o hrun => ?_, fun hm k => ?_⟩
  · rw [hrun] at hag
    obtain ⟨k, rs, v, hk, ho⟩ : ∃ k rs v, Book.client H.fl H.cap u (compile p) k = .done rs v ∧ v.w.out = σ.out := by
      cases o with
      | none =>
        obtain ⟨r, v, ⟨k, hk⟩, ho⟩ := hag
        exact ⟨k, _, v, hk, by rw [ho]; rfl⟩
      | some vs =>
        obtain ⟨rs, v, ⟨k, hk⟩, ho, -⟩ := hag
        exact ⟨k, rs, v, hk, by rw [ho]; rfl⟩
    refine ⟨k, fun k' hle => ?_⟩
    rw [later hk nofun k' hle]
    show Exec.ok (v.w.out, none) = _
    rw [ho]
  · rw [hrun] at hag
    obtain ⟨v, ⟨k, hk⟩, ho⟩ := hag
    refine ⟨k, v, hk, fun k' hle => ?_⟩
    rw [later hk nofun k' hle]
    show Exec.ok (v.w.out, some (H.tell (some (.err v)))) = _
    rw [ho]
    rfl
  · rcases Book.C90_endless H.fl hb p hp hm with ⟨k', t, q⟩ | h
    · exact absurd q (hlim k' t)
    · obtain ⟨t, h⟩ := h k
      rw [h]
      rfl

theorem Host.plugged (H : Host) {vs : List Ref} {u : St World} (hb : Book.boot H.fl H.cap H.n = .done vs u) (k : Nat) (heap : Nat) :
    (H.lib k u).plug heap = .ok none := by
  unfold Host.lib Host.library
  dsimp only
  rw [hb]

/-- The text is a program of the grammar, or the code of a program that the assembler reads. -/
def Host.Means (H : Host) (assembly : Bool) (src : List UInt8) (p : Stmts) : Prop :=
  if assembly then ∃ e, TestRun.assembled H.fltA H.past src = .ok e ∧ ∀ i, Exe.fetch e i = ((compile p)[i]?).map Instr.encode
  else ∃ ts root, Parse.Split src 0 ts ∧ Parse.Program H.fltC ts root ∧ root.elab false = some p

/-- What comes of the text is what comes of the code of the program. -/
theorem Host.run_eq (H : Host) (M : Machine) {src : List UInt8} {assembly inline : Bool} {a : Arg} (hg : H.Gives src inline a) {p : Stmts}
    (ht : H.Means assembly src p) : H.run M assembly inline a = M (compile p) := by
  obtain ⟨e, he, hfe⟩ : ∃ e, H.prepare assembly src = .ok e ∧ ∀ i, Exe.fetch e i = ((compile p)[i]?).map Instr.encode := by
    unfold Host.Means at ht
    cases assembly with
    | true =>
      rw [if_pos rfl] at ht
      exact ht
    | false =>
      rw [if_neg nofun] at ht
      obtain ⟨ts, root, h1, h2, h3⟩ := ht
      obtain ⟨e, h4, -, h5⟩ := C84_compiled H.fltC H.past src ts root p h1 h2 h3
      exact ⟨e, h4, h5⟩
  unfold Host.run
  rw [hg.load]
  dsimp only
  unfold Host.go
  rw [he]
  dsimp only
  unfold execute
  rw [TestRun.codeOf_eq hfe]

/-- If the program does not end, the command does not. -/
theorem endless (L : Lib) (name : List UInt8) (os : List Opt) (args : List Arg) (file : Arg) (rest : List Arg) (hw : WritesAll os args)
    (hf : file ∉ words) (hs : ∀ n, Opt.heap n ∈ os → n < 2 ^ 31) {assembly inline : Bool} {heap : Nat}
    (ha : want os file = .run assembly inline false file none heap) (hm : L.made heap false = true) (hp : L.plug heap = .ok none)
    (hd : L.run assembly inline file heap = .diverge) : command L name (args ++ file :: rest) = .diverge := by
  unfold command
  rw [C93_partial os args file rest hw hf hs, Exec.bind_ok, ha]
  unfold perform
  dsimp only
  rw [if_neg (by rw [hm]; decide), hp, Exec.bind_ok]
  dsimp only
  rw [hd]
  rfl

/-- **C107, for programs**: `noja [-i] [-a] [-H size] text-or-file`.  If the text is a program of the grammar (or the code of a program that the
assembler reads), then the command writes what the manual says that the program writes; it ends with 0 if the program ends, and with
255, a message and a stack trace if the manual says that the program stops with an error; it does not end if the program does not.  (The
program meets no limit of the interpreter.) -/
theorem C107_text (H : Host) (name : List UInt8) (os : List Opt) (args : List Arg) (file : Arg) (rest : List Arg) (hw : WritesAll os args)
    (hf : file ∉ words) (hs : ∀ n, Opt.heap n ∈ os → n < 2 ^ 31) {assembly inline : Bool} {heap : Nat}
    (ha : want os file = .run assembly inline false file none heap) (hm : H.made heap false = true)
    {vs : List Ref} {u : St World} (hb : Book.boot H.fl H.cap H.n = .done vs u) {src : List UInt8} (hg : H.Gives src inline file) {p : Stmts}
    (hp : p.wf false = true) (ht : H.Means assembly src p)
    (hlim : ∀ k t, Book.client H.fl H.cap u (compile p) k ≠ .limit t) (fuel : Nat) :
    letI := H.fl
    (∀ σ o, Book.run fuel p = .ok σ o → ∃ k, ∀ k', k ≤ k' → command (H.lib k' u) name (args ++ file :: rest) = .ok ⟨σ.out, [], [], 0⟩) ∧
    (∀ o, Book.run fuel p = .err o →
      ∃ k, ∃ e : Report, ∀ k', k ≤ k' → command (H.lib k' u) name (args ++ file :: rest) = .ok ⟨o, [.message e.message, .trace e.trace], [], 255⟩) ∧
    ((∀ n, Book.run n p = .more) → ∀ k, command (H.lib k u) name (args ++ file :: rest) = .diverge) := by
  letI := H.fl
  have hrun : ∀ k, (H.lib k u).run assembly inline file heap = H.ends (Book.client H.fl H.cap u (compile p) k) := fun k =>
    H.run_eq _ hg ht
  obtain ⟨m1, m2, m3⟩ := H.meant hb p hp hlim fuel
  have hc := fun k => C107_runs (H.lib k u) name os args file rest hw hf hs ha hm (H.plugged hb k heap)
  refine ⟨fun σ o hr => ?_, fun o hr => ?_, fun hn k => ?_⟩
  · obtain ⟨k, hk⟩ := m1 σ o hr
    exact ⟨k, fun k' hle => (hc k').1 _ (by rw [hrun]; exact hk k' hle)⟩
  · obtain ⟨k, v, -, hk⟩ := m2 o hr
    exact ⟨k, _, fun k' hle => (hc k').2 _ _ (by rw [hrun]; exact hk k' hle)⟩
  · exact endless (H.lib k u) name os args file rest hw hf hs ha hm (H.plugged hb k heap) ((hrun k).trans (m3 hn k))

/-- A text that is no text of the grammar (and ends in no open braces, C79): nothing is on the stream, there is a message, and the status is
255. -/
theorem C107_refused (H : Host) (name : List UInt8) (os : List Opt) (args : List Arg) (file : Arg) (rest : List Arg) (hw : WritesAll os args)
    (hf : file ∉ words) (hs : ∀ n, Opt.heap n ∈ os → n < 2 ^ 31) {inline : Bool} {heap : Nat}
    (ha : want os file = .run false inline false file none heap) (hm : H.made heap false = true)
    {vs : List Ref} {u : St World} (hb : Book.boot H.fl H.cap H.n = .done vs u) {src : List UInt8} (hg : H.Gives src inline file)
    (hpast : H.past ≠ 92) (hx : ∀ ts, Parse.tokenize H.past src = .ok ts → Parse.excess ts ≤ 0)
    (hno : ∀ ts root, Parse.Split src 0 ts → ¬ Parse.Program H.fltC ts root) (k : Nat) :
    ∃ e : Report, command (H.lib k u) name (args ++ file :: rest) = .ok ⟨[], [.message e.message, .trace e.trace], [], 255⟩ := by
  have hpr : H.prepare false src = .err := by
    show compileText H.fltC H.past src = .err
    unfold compileText
    cases hp : Parse.parse H.fltC H.past src with
    | ok root =>
      obtain ⟨ts, h1, h2⟩ := (Parse.C80_parse H.fltC H.past src root).mp hp
      exact absurd h2 (hno ts root h1)
    | err => rfl
    | ub => exact absurd hp (Parse.C79_partial H.fltC hpast src hx)
    | diverge => exact absurd hp (Parse.C79_ends H.fltC H.past src)
  refine ⟨H.tell none, (C107_runs (H.lib k u) name os args file rest hw hf hs ha hm (H.plugged hb k heap)).2 _ _ ?_⟩
  show H.run _ false inline file = _
  unfold Host.run
  rw [hg.load]
  dsimp only
  unfold Host.go
  rw [hpr]

/-- A file that is not there: the same. -/
theorem C107_missing (H : Host) (name : List UInt8) (os : List Opt) (args : List Arg) (file : Arg) (rest : List Arg) (hw : WritesAll os args)
    (hf : file ∉ words) (hs : ∀ n, Opt.heap n ∈ os → n < 2 ^ 31) {assembly : Bool} {heap : Nat}
    (ha : want os file = .run assembly false false file none heap) (hm : H.made heap false = true)
    {vs : List Ref} {u : St World} (hb : Book.boot H.fl H.cap H.n = .done vs u) (hno : H.files file = none) (k : Nat) :
    ∃ e : Report, command (H.lib k u) name (args ++ file :: rest) = .ok ⟨[], [.message e.message, .trace e.trace], [], 255⟩ := by
  refine ⟨H.tell none, (C107_runs (H.lib k u) name os args file rest hw hf hs ha hm (H.plugged hb k heap)).2 _ _ ?_⟩
  show H.run _ assembly false file = _
  unfold Host.run Host.load
  rw [if_neg nofun, hno]

/-! ## The trace of a program that fails -/

theorem exec_never {W : Type} (L : Layer W) (cap : Nat) : ∀ (n t : Nat) (s : St W), exec L cap (fun _ => false) n t s = runN L cap n s
  | 0, _, _ => rfl
  | n + 1, t, s => by
    unfold exec runN
    rw [if_neg nofun]
    cases step L cap s with
    | run s' => exact exec_never L cap n (t + 1) s'
    | _ => rfl

/-- A program can always be started. -/
theorem boot_run (C : Config) (cap e : Nat) (s : St World) (h : s.frames = []) : ∃ t, boot (objects C) cap e s = .run t := by
  unfold boot enter St.prim
  have : (objects C).newScope s.w = .ok (s.w.alloc (.map [])).1 (s.w.alloc (.map [])).2 := rfl
  rw [this]
  dsimp only
  rw [h, if_neg (by decide)]
  exact ⟨_, rfl⟩

/-- The machine with a program: it is started, and makes steps. -/
theorem client_steps (fl : Book.Floats) (cap : Nat) (u : St World) (code : List Instr) : ∃ s₀ s₁, s₀.frames = [] ∧
    boot (objects (std (Book.printing fl Start.config))) cap u.exes.length s₀ = .run s₁ ∧
    ∀ k, Book.client fl cap u code k = exec (objects (std (Book.printing fl Start.config))) cap (fun _ => false) k 0 s₁ := by
  obtain ⟨t, ht⟩ := boot_run (std (Book.printing fl Start.config)) cap u.exes.length
    ⟨(newClosure Start.base.builtins 92 u.w).1, u.funcs, u.exes ++ [code], [], []⟩ rfl
  refine ⟨_, t, rfl, ht, fun k => ?_⟩
  rw [exec_never]
  unfold Book.client start
  rw [ht]

/-- What is told when a program fails: the trace is the one of `Runtime_PrintStackTrace` (runtime.c:214-228), where the text of the program is
known, and the texts of whatever it imports. -/
structure Host.Traces (H : Host) (u : St World) (p : Stmts) (src name : List UInt8) (names : Nat → Option (List UInt8))
    (texts : St World → List (List UInt8 × Exe.Executable)) : Prop where
  loaded : ∀ k s, Book.client H.fl H.cap u (compile p) k = .err s → Loaded H.fltC (texts s) s.exes
  text : ∀ s, ∃ e, (texts s)[u.exes.length]? = some (src, e)
  name : names u.exes.length = some name
  tell : ∀ s a b, Trace.printTrace names (texts s) s.frames = .ok (a, b) → (H.tell (some (.err s))).trace = a ++ b

/-- **C107 and C109**: the trace that the command writes about a program that fails has one line for each call that is being performed, counted
from 0, at most 16; the last one is about the text of the program itself, with its name, and, if there is one, a line of that text. -/
theorem C107_trace (H : Host) (name : List UInt8) (os : List Opt) (args : List Arg) (file : Arg) (rest : List Arg) (hw : WritesAll os args)
    (hf : file ∉ words) (hs : ∀ n, Opt.heap n ∈ os → n < 2 ^ 31) {inline : Bool} {heap : Nat}
    (ha : want os file = .run false inline false file none heap) (hm : H.made heap false = true)
    {vs : List Ref} {u : St World} (hb : Book.boot H.fl H.cap H.n = .done vs u) {src : List UInt8} (hg : H.Gives src inline file) {p : Stmts}
    (hp : p.wf false = true) (ht : H.Means false src p)
    (hlim : ∀ k t, Book.client H.fl H.cap u (compile p) k ≠ .limit t) {called : List UInt8} {names : Nat → Option (List UInt8)}
    {texts : St World → List (List UInt8 × Exe.Executable)} (hT : H.Traces u p src called names texts) (fuel : Nat) (o : List UInt8)
    (hr : letI := H.fl; Book.run fuel p = .err o) :
    ∃ k message t inner line, (∀ k', k ≤ k' → command (H.lib k' u) name (args ++ file :: rest) =
        .ok ⟨o, [.message message, .trace (Trace.header ++ t)], [], 255⟩) ∧
      Trace.Reads 0 (inner ++ [⟨called, line⟩]) t ∧ inner.length < 16 ∧ ∀ l, line = some l → 1 ≤ l ∧ l ≤ 1 + src.count 10 := by
  letI := H.fl
  have hrun : ∀ k, (H.lib k u).run false inline file heap = H.ends (Book.client H.fl H.cap u (compile p) k) := fun k =>
    H.run_eq _ hg ht
  obtain ⟨k, v, hv, hk⟩ := (H.meant hb p hp hlim fuel).2.1 o hr
  have hc := fun k => C107_runs (H.lib k u) name os args file rest hw hf hs ha hm (H.plugged hb k heap)
  obtain ⟨s₀, s₁, h0, h1, h2⟩ := client_steps H.fl H.cap u (compile p)
  have hl := hT.loaded k v hv
  rw [h2] at hv
  obtain ⟨t, front, f, h3, h4, h5, h6⟩ := Trace.C109_bottom h0 h1 names (.inr (.inl hv)) hl
  have hd := Trace.C109_partial h0 h1 (n := k) (t₀ := 0) (stop := fun _ => false) (flt := H.fltC) names (es := texts v)
  rw [hv] at hd
  have hd := (hd hl).2.1
  rw [h3, List.length_append] at hd
  obtain ⟨e, he⟩ := hT.text v
  have hname : Trace.called names (texts v) (.normal f) = called := by
    unfold Trace.called
    dsimp only
    rw [h4, if_pos (List.getElem?_eq_some_iff.1 he).1, hT.name]
  rw [hname] at h6
  refine ⟨k, (H.tell (some (.err v))).message, t, _, _, fun k' hle => ?_, h6, ?_, fun l hq => ?_⟩
  · have := (hc k').2 _ _ (by rw [hrun]; exact hk k' hle)
    rw [hT.tell v _ _ h5, List.append_nil] at this
    exact this
  · rw [List.length_map]
    exact hd
  · unfold Trace.lineOf at hq
    rw [he] at hq
    dsimp only at hq
    by_cases hi : f.idx < e.body.length
    · rw [if_pos hi] at hq
      cases hq
      exact ⟨Nat.le_add_right .., Nat.add_le_add_left ((List.take_sublist ..).count_le 10) 1⟩
    · rw [if_neg hi] at hq
      cases hq

/-! ## Diagrams -/

theorem cstring_all {t : List UInt8} (h : 0 ∉ t) : Path.cstring t = t := by
  unfold Path.cstring
  have := List.takeWhile_append_of_pos (p := fun c : UInt8 => decide (c ≠ 0)) (l₁ := t) (l₂ := []) fun x hx => by
    simp
    rintro rfl
    exact h hx
  simpa using this

/-- **C107, for diagrams**: `noja --diagram-ast [-i] [-o output] text-or-file`.  If the text is a program of the grammar (one of those of C110),
then what the command writes, to the stream or the file, pictures the tree of the program, and the status is 0; if the file cannot be
opened, nothing is written, a message says so, and the status is 255. -/
theorem C107_diagram (H : Host) (name : List UInt8) (os : List Opt) (args : List Arg) (file : Arg) (rest : List Arg) (hw : WritesAll os args)
    (hf : file ∉ words) (hs : ∀ n, Opt.heap n ∈ os → n < 2 ^ 31) {inline : Bool} {output : Option Arg}
    (ha : want os file = .diagram inline file output) {src : List UInt8} (hg : H.Gives src inline file) (hfmt : Diagram.Plain H.fmt)
    {ts : List Parse.Token} {root : RStmts} (h1 : Parse.Split src 0 ts) (h2 : Parse.Program H.fltC ts root) (hr : Diagram.FineSs root)
    (k : Nat) (u : St World) :
    ∃ t, Diagram.Pictures H.fmt root t ∧
      (output = none → command (H.lib k u) name (args ++ file :: rest) = .ok ⟨t, [], [], 0⟩) ∧
      (∀ o, output = some o → H.opens o = true → command (H.lib k u) name (args ++ file :: rest) = .ok ⟨[], [], [(o, t)], 0⟩) ∧
      ∀ o, output = some o → H.opens o = false → command (H.lib k u) name (args ++ file :: rest) = .ok ⟨[], [.notOpened o], [], 255⟩ := by
  have hp := (Parse.C80_parse H.fltC H.past src root).mpr ⟨ts, h1, h2⟩
  obtain ⟨t, ht, hpic⟩ := Diagram.C110_partial H.fmt H.fltC H.past src root hfmt hp hr
  have hd : (H.lib k u).diagram inline file = .ok (.inl t) := by
    show H.draw inline file = _
    unfold Host.draw
    rw [hg.loadDiagram, Exec.bind_ok, ht]
    dsimp only
    rw [show Path.cstring t = t from cstring_all hpic.1]
  have hc : command (H.lib k u) name (args ++ file :: rest) = .ok (writeDiagram (H.lib k u) t output) := by
    unfold command
    rw [C93_partial os args file rest hw hf hs, Exec.bind_ok, ha]
    unfold perform
    dsimp only
    rw [hd, Exec.bind_ok]
  refine ⟨t, hpic, fun e => ?_, fun o e ho => ?_, fun o e ho => ?_⟩
  · rw [hc, e]; rfl
  · rw [hc, e]
    unfold writeDiagram
    dsimp only
    rw [if_pos (show (H.lib k u).opens o = true from ho)]
  · rw [hc, e]
    unfold writeDiagram
    dsimp only
    rw [if_neg (show ¬ (H.lib k u).opens o = true by show ¬ H.opens o = true; rw [ho]; decide)]
    rfl

/-- A text that is no text of the grammar: there is a message, the status is 255, and no file is touched. -/
theorem C107_diagram_refused (H : Host) (name : List UInt8) (os : List Opt) (args : List Arg) (file : Arg) (rest : List Arg) (hw : WritesAll os args)
    (hf : file ∉ words) (hs : ∀ n, Opt.heap n ∈ os → n < 2 ^ 31) {inline : Bool} {output : Option Arg}
    (ha : want os file = .diagram inline file output) {src : List UInt8} (hg : H.Gives src inline file)
    (hpast : H.past ≠ 92) (hx : ∀ ts, Parse.tokenize H.past src = .ok ts → Parse.excess ts ≤ 0)
    (hno : ∀ ts root, Parse.Split src 0 ts → ¬ Parse.Program H.fltC ts root) (k : Nat) (u : St World) :
    command (H.lib k u) name (args ++ file :: rest) = .ok ⟨[], [.message H.complaint], [], 255⟩ := by
  have hp : Parse.parse H.fltC H.past src = .err := by
    cases hp : Parse.parse H.fltC H.past src with
    | ok root =>
      obtain ⟨ts, h1, h2⟩ := (Parse.C80_parse H.fltC H.past src root).mp hp
      exact absurd h2 (hno ts root h1)
    | err => rfl
    | ub => exact absurd hp (Parse.C79_partial H.fltC hpast src hx)
    | diverge => exact absurd hp (Parse.C79_ends H.fltC H.past src)
  have hd : (H.lib k u).diagram inline file = .ok (.inr H.complaint) := by
    show H.draw inline file = _
    unfold Host.draw
    rw [hg.loadDiagram, Exec.bind_ok]
    unfold Diagram.drawText
    rw [hp]
    rfl
  unfold command
  rw [C93_partial os args file rest hw hf hs, Exec.bind_ok, ha]
  unfold perform
  dsimp only
  rw [hd, Exec.bind_ok]
  rfl

/-! ## An example -/

/-- `print(7);` -/
def sevenText : List UInt8 := [112, 114, 105, 110, 116, 40, 55, 41, 59]

def isSeven : Stmts → Bool
  | .cons (.expr (.call (.fn (.ident x) (.cons (.int i) .nil)))) .nil => decide (x = [112, 114, 105, 110, 116]) && decide (i = 7)
  | _ => false

theorem isSeven_eq {p : Stmts} (h : isSeven p = true) : p = TestRun.seven := by
  unfold isSeven at h
  split at h
  · simp only [Bool.and_eq_true, decide_eq_true_eq] at h
    rw [h.1, h.2]
    rfl
  · cases h

def toyHost : Host where
  fl := Book.toy
  fltC _ := none
  fltA _ _ _ := 0
  cap := 1024
  n := 1000
  files _ := none
  junk := 7
  past := 0
  made _ _ := true
  opens _ := false
  tell _ := ⟨[101], [116]⟩
  profile _ _ _ _ := []
  fmt _ := []
  complaint := [109]

theorem seven_means : toyHost.Means false sevenText TestRun.seven := by
  unfold Host.Means
  rw [if_neg nofun]
  have h : (match Parse.parse (fun _ => none) 0 sevenText with
    | .ok root => (match root.elab false with | some p => isSeven p | none => false)
    | _ => false) = true := by decide +kernel
  cases hr : Parse.parse (fun _ => none) 0 sevenText with
  | ok root =>
    rw [hr] at h
    dsimp only at h
    obtain ⟨ts, h1, h2⟩ := (Parse.C80_parse _ 0 sevenText root).mp hr
    cases he : root.elab false with
    | none => rw [he] at h; cases h
    | some p => rw [he] at h; exact ⟨ts, root, h1, h2, by rw [he, isSeven_eq h]⟩
  | _ => rw [hr] at h; cases h

/-- `noja -i 'print(7);'` writes `7` and ends with 0; `noja -i '(7'` has a message; `noja f` too, if there is no file `f`. -/
example : ∃ u k, command (toyHost.lib k u) [110] [W.iS, sevenText] = .ok ⟨[55], [], [], 0⟩ ∧
    (∃ e : Report, command (toyHost.lib k u) [110] [W.iS, [40, 55]] = .ok ⟨[], [.message e.message, .trace e.trace], [], 255⟩) ∧
    ∃ e : Report, command (toyHost.lib k u) [110] [[102]] = .ok ⟨[], [.message e.message, .trace e.trace], [], 255⟩ := by
  have hb : (match Book.boot Book.toy 1024 1000 with
      | .done _ u => Book.isDone (Book.client Book.toy 1024 u (compile TestRun.seven) 100)
      | _ => false) = true := by decide +kernel
  cases hs : Book.boot Book.toy 1024 1000 with
  | done vs u =>
    rw [hs] at hb
    dsimp only at hb
    have hlim : ∀ k t, Book.client Book.toy 1024 u (compile TestRun.seven) k ≠ .limit t := fun k t q => by
      cases hd : Book.client Book.toy 1024 u (compile TestRun.seven) 100 with
      | done rs v => cases start_stable hd q nofun nofun
      | _ => rw [hd] at hb; cases hb
    have hr : TestRun.wrote (@Book.run Book.toy 10 TestRun.seven) = some [55] := by decide +kernel
    have hw : WritesAll [.inline] [W.iS] := by
      have := WritesAll.cons (.inlineS) .nil
      exact this
    cases hrun : @Book.run Book.toy 10 TestRun.seven with
    | ok σ o =>
      rw [hrun] at hr
      have hr : σ.out = [55] := Option.some.inj hr
      obtain ⟨k, hk⟩ := (C107_text toyHost [110] [.inline] [W.iS] sevenText [] hw (by decide) (by simp) rfl rfl hs
        (.inline (by decide) (by decide)) (p := TestRun.seven) (by decide) seven_means hlim 10).1 σ o hrun
      refine ⟨u, k, ?_, ?_, ?_⟩
      · rw [← hr]
        exact hk k (Nat.le_refl _)
      · refine C107_refused toyHost [110] [.inline] [W.iS] [40, 55] [] hw (by decide) (by simp) rfl rfl hs (.inline (by decide) (by decide)) (by decide) ?_ ?_ k
        · intro ts ht
          have : (match Parse.tokenize 0 [40, 55] with | .ok ts => decide (Parse.excess ts ≤ 0) | _ => true) = true := by decide +kernel
          rw [show Parse.tokenize 0 [40, 55] = .ok ts from ht] at this
          exact of_decide_eq_true this
        · intro ts root h1 h2
          have hq := (Parse.C80_parse (fun _ => none) 0 [40, 55] root).mpr ⟨ts, h1, h2⟩
          have : (match Parse.parse (fun _ => none) 0 [40, 55] with | .ok _ => false | _ => true) = true := by decide +kernel
          rw [hq] at this
          cases this
      · exact C107_missing toyHost [110] [] [] [102] [] .nil (by decide) (by simp) rfl rfl hs rfl k
    | _ => rw [hrun] at hr; cases hr
  | _ => rw [hs] at hb; cases hb

/-- `x;` -/
def failing : Stmts := .cons (.expr (.ident [120])) .nil

def failedWith : Status World → Option (List (List Instr))
  | .err s => some s.exes
  | _ => none

/-- `<prelude>`; the program has no name of its own. -/
def toyNames (i : Nat) : Option (List UInt8) := if i = 0 then some (Parse.bytes "<prelude>") else some unnamed

/-- A host that tells what is printed. -/
def tracingHost (es : List (List UInt8 × Exe.Executable)) : Host :=
  { toyHost with
    fltC := Start.literal
    tell := fun x =>
      match x with
      | some (.err s) =>
        match Trace.printTrace toyNames es s.frames with
        | .ok (a, b) => ⟨[101], a ++ b⟩
        | _ => ⟨[101], []⟩
      | _ => ⟨[101], []⟩ }

/-- `noja -i 'x;'` has a message and a trace whose last line is about the text of the argument. -/
example : ∃ es u k message t inner line,
    command ((tracingHost es).lib k u) [110] [W.iS, [120, 59]] = .ok ⟨[], [.message message, .trace (Trace.header ++ t)], [], 255⟩ ∧
      Trace.Reads 0 (inner ++ [⟨unnamed, line⟩]) t := by
  have hb : (match Book.boot Book.toy 1024 1000 with
      | .done _ u => if u.exes.length = 1 then failedWith (Book.client Book.toy 1024 u (compile failing) 100) else none
      | _ => none) = some [compile Start.prog, compile failing] := by decide +kernel
  cases hs : Book.boot Book.toy 1024 1000 with
  | done vs u =>
    rw [hs] at hb
    dsimp only at hb
    by_cases hu : u.exes.length = 1
    · rw [if_pos hu] at hb
      cases hv : Book.client Book.toy 1024 u (compile failing) 100 with
      | err v =>
        rw [hv] at hb
        have hx : v.exes = [compile Start.prog, compile failing] := Option.some.inj hb
        have same : ∀ {k x}, Book.client Book.toy 1024 u (compile failing) k = x → (∀ t, x ≠ .run t) → x = .err v := fun hk hr =>
          start_stable hk hv hr nofun
        obtain ⟨e0, hc0, hf0⟩ : ∃ e, compileText Start.literal 0 Start.text = .ok e ∧
            ∀ i, Exe.fetch e i = ((compile Start.prog)[i]?).map Instr.encode := by
          have h := Start.parse_text
          cases hr : Parse.parse Start.literal 0 Start.text with
          | ok root =>
            rw [hr, Exec.bind_ok] at h
            injection h with h
            obtain ⟨ts, h1, h2⟩ := (Parse.C80_parse _ 0 _ root).mp hr
            obtain ⟨e, h4, -, h5⟩ := C84_compiled Start.literal 0 Start.text ts root _ h1 h2 h
            exact ⟨e, h4, h5⟩
          | _ => rw [hr] at h; cases h
        obtain ⟨root, hroot, hel⟩ : ∃ root, Parse.parse Start.literal 0 [120, 59] = .ok root ∧ root.elab false = some failing := by
          have h : (match Parse.parse Start.literal 0 [120, 59] with
            | .ok root => (match root.elab false with
              | some (.cons (.expr (.ident x)) .nil) => decide (x = [120])
              | _ => false)
            | _ => false) = true := by decide +kernel
          cases hr : Parse.parse Start.literal 0 [120, 59] with
          | ok root =>
            rw [hr] at h
            dsimp only at h
            refine ⟨root, rfl, ?_⟩
            split at h
            · rename_i x he
              rw [he, of_decide_eq_true h]
              rfl
            · cases h
          | _ => rw [hr] at h; cases h
        obtain ⟨ts, h1, h2⟩ := (Parse.C80_parse _ 0 _ root).mp hroot
        obtain ⟨e1, hc1, -, hf1⟩ := C84_compiled Start.literal 0 [120, 59] ts root _ h1 h2 hel
        have hT : (tracingHost [(Start.text, e0), ([120, 59], e1)]).Traces u failing [120, 59] unnamed toyNames
            (fun _ => [(Start.text, e0), ([120, 59], e1)]) := {
          loaded := fun k s hk => by
            cases same hk nofun
            intro i src e hi
            rw [hx]
            match i, hi with
            | 0, hi => cases hi; exact ⟨⟨0, hc0⟩, _, rfl, hf0⟩
            | 1, hi => cases hi; exact ⟨⟨0, hc1⟩, _, rfl, hf1⟩
            | i + 2, hi => cases hi
          text := fun s => ⟨e1, by rw [hu]; rfl⟩
          name := by rw [hu]; rfl
          tell := fun s a b h => by
            show (match Trace.printTrace toyNames _ s.frames with
              | .ok (a, b) => (⟨[101], a ++ b⟩ : Report)
              | _ => ⟨[101], []⟩).trace = _
            rw [h] }
        have hr : (match @Book.run Book.toy 10 failing with | .err o => decide (o = []) | _ => false) = true := by decide +kernel
        cases hrun : @Book.run Book.toy 10 failing with
        | err o =>
          rw [hrun] at hr
          have hr : o = [] := of_decide_eq_true hr
          subst hr
          have hw : WritesAll [.inline] [W.iS] := by
            have := WritesAll.cons (.inlineS) .nil
            exact this
          obtain ⟨k, message, t, inner, line, h3, h4, -⟩ := C107_trace (tracingHost [(Start.text, e0), ([120, 59], e1)]) [110] [.inline] [W.iS]
            [120, 59] [] hw (by decide) (by simp) rfl rfl hs (.inline (by decide) (by decide)) (p := failing) (by decide)
            (by unfold Host.Means; rw [if_neg nofun]; exact ⟨ts, root, h1, h2, hel⟩) (fun k t q => by cases same q nofun) hT 10 [] hrun
          exact ⟨_, u, k, message, t, inner, line, h3 k (Nat.le_refl _), h4⟩
        | _ => rw [hrun] at hr; cases hr
      | _ => rw [hv] at hb; cases hb
    · rw [if_neg hu] at hb
      cases hb
  | _ => rw [hs] at hb; cases hb

/-- `noja --diagram-ast -i 'f(-1);'` writes a picture; `noja --diagram-ast -i '(7'` has a message. -/
example (u : St World) (k : Nat) : (∃ t root, command (toyHost.lib k u) [110] [W.dL, W.iS, Parse.bytes "f(-1);"] = .ok ⟨t, [], [], 0⟩ ∧
      Parse.parse (fun _ => none) 0 (Parse.bytes "f(-1);") = .ok root ∧ Diagram.Pictures (fun _ => []) root t) ∧
    command (toyHost.lib k u) [110] [W.dL, W.iS, [40, 55]] = .ok ⟨[], [.message [109]], [], 255⟩ := by
  have hw : WritesAll [.diagram, .inline] [W.dL, W.iS] := WritesAll.cons (.diagram) (WritesAll.cons (.inlineS) .nil)
  refine ⟨?_, ?_⟩
  · have h : (match Parse.parse (fun _ => none) 0 (Parse.bytes "f(-1);") with | .ok root => Diagram.isCall root | _ => false) = true := by
      decide +kernel
    cases hp : Parse.parse (fun _ => none) 0 (Parse.bytes "f(-1);") with
    | ok root =>
      rw [hp] at h
      dsimp only at h
      have hr : Diagram.FineSs root := by
        unfold Diagram.isCall at h
        split at h
        · rw [of_decide_eq_true h]
          simp [Diagram.FineSs, Diagram.FineS, Diagram.FineE, Diagram.FineC, Diagram.FineEs, IsI32]
        · cases h
      obtain ⟨ts, h1, h2⟩ := (Parse.C80_parse _ 0 _ root).mp hp
      obtain ⟨t, ht, h3, -⟩ := C107_diagram toyHost [110] [.diagram, .inline] [W.dL, W.iS] (Parse.bytes "f(-1);") [] hw (by decide) (by simp) rfl
        (.inline (by decide) (by decide)) (fun b c hc => by cases hc) h1 h2 hr k u
      exact ⟨t, root, h3 rfl, rfl, ht⟩
    | _ => rw [hp] at h; cases h
  · refine C107_diagram_refused toyHost [110] [.diagram, .inline] [W.dL, W.iS] [40, 55] [] hw (by decide) (by simp) rfl (.inline (by decide) (by decide))
      (by decide) ?_ ?_ k u
    · intro ts ht
      have : (match Parse.tokenize 0 [40, 55] with | .ok ts => decide (Parse.excess ts ≤ 0) | _ => true) = true := by decide +kernel
      rw [show Parse.tokenize 0 [40, 55] = .ok ts from ht] at this
      exact of_decide_eq_true this
    · intro ts root h1 h2
      have hq := (Parse.C80_parse (fun _ => none) 0 [40, 55] root).mpr ⟨ts, h1, h2⟩
      have : (match Parse.parse (fun _ => none) 0 [40, 55] with | .ok _ => false | _ => true) = true := by decide +kernel
      rw [hq] at this
      cases this

end Noja.Cli
