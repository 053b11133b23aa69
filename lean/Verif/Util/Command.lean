import Verif.Util.Cli

/-!
# The command (cli/main.c): C107

What the command writes, where, and with which status it ends; `Verif.Util.Cli` has its arguments (C93).  What the library does is a
parameter: making a runtime, plugging the builtins, running a text, drawing a diagram.  `Verif.VM.Book.Command` puts the interpreter
in its place.

Simplifications: what is written arrives (`fwrite`, `fprintf` and `fclose` do not fail), nothing interrupts the program; the texts of the
two reports of a failure, the message and the stack trace, come from the library (C55, C82, C88).
-/

set_option linter.unusedVariables false
set_option linter.unusedSimpArgs false

namespace Noja.Cli

/-! ## Model -/

/-- A message and a stack trace, as they are printed. -/
structure Report where
  message : List UInt8
  trace : List UInt8
  deriving DecidableEq

/-- What is written on the stream of errors. -/
inductive Said where
  | usage
  | noInput
  | noRuntime
  | message (m : List UInt8)
  | trace (t : List UInt8)
  | notOpened (file : Arg)
  deriving DecidableEq

/-- The library and the file system. -/
structure Lib where
  /-- `Runtime_New` with a heap of so many bytes, which profiles or not. -/
  made : Nat → Bool → Bool
  /-- `Runtime_plugDefaultBuiltins`, in such a runtime: what is reported. -/
  plug : Nat → Exec (Option Report)
  /-- `runBytecodeString`, `runBytecodeFile`, `runString` and `runFile`: what the program writes, and what is reported. -/
  run : (assembly inline : Bool) → Arg → Nat → Exec (List UInt8 × Option Report)
  /-- `Runtime_SerializeProfilingResultsToStream`, in a runtime that profiles. -/
  profile : (assembly inline : Bool) → Arg → Nat → List UInt8
  /-- `diagramStringAST` and `diagramFileAST`: a diagram, or the message of an error. -/
  diagram : (inline : Bool) → Arg → Exec (List UInt8 ⊕ List UInt8)
  /-- Whether `fopen(file, "wb")` opens it. -/
  opens : Arg → Bool

/-- What has been done: what is on the two streams, the files that have been written (with `wb`, which empties them), the status that the
shell sees. -/
structure Result where
  out : List UInt8 := []
  said : List Said := []
  files : List (Arg × List UInt8) := []
  status : Nat := 0
  deriving DecidableEq

/-- `return -1` -/
def failure : Nat := 255

/-- The text of main.c:40-62. -/
def helpText (name : List UInt8) : List UInt8 :=
  "\nUsage:\n  $ ".toUTF8.toList ++ name ++ " ..OPTIONS <file>\n".toUTF8.toList ++
  ("\nOptions:\n" ++
   "  -h, --help          Show this message\n" ++
   "  -i, --inline        Execute a string of code instead of a file\n" ++
   "  -a, --assembly      Specify that the source is bytecode and not noja code\n" ++
   "  -p, --profile       Profile the execution of the source (can't be used with -d)\n" ++
   "  -o, --output <file> Specify the output file of -p or --diagram-ast\n" ++
   "  -H, --heap <size>   Specify the heap size of the runtime\n" ++
   "  --diagram-ast       Generate a GraphViz view of the AST\n\n").toUTF8.toList

/-- runtime.c:811-829: nothing is written by a runtime that does not profile. -/
def results (L : Lib) (assembly inline profile : Bool) (input : Arg) (heap : Nat) : List UInt8 :=
  if profile then L.profile assembly inline input heap else []

/-- main.c:175-192: the diagram is written. -/
def writeDiagram (L : Lib) (t : List UInt8) : Option Arg → Result
  | none => { out := t }
  | some o => if L.opens o then { files := [(o, t)] } else { said := [.notOpened o], status := failure }

/-- main.c:252-257 and runtime.c:831-839: the results of profiling are written; whether they could be is not looked at. -/
def writeResults (L : Lib) (out t : List UInt8) : Option Arg → Result
  | none => { out := out ++ t }
  | some o => if L.opens o then { out := out, files := [(o, t)] } else { out := out }

/-- main.c:140-262. -/
def perform (L : Lib) (name : List UInt8) : Action → Exec Result
  | .usage => .ok { said := [.usage], status := failure }
  | .help => .ok { out := helpText name }
  | .noInput => .ok { said := [.noInput, .usage], status := failure }
  | .diagram inline input output => do
    match ← L.diagram inline input with
    | .inr m => .ok { said := [.message m], status := failure }
    | .inl t => .ok (writeDiagram L t output)
  | .run assembly inline profile input output heap =>
    if L.made heap profile = false then .ok { said := [.noRuntime], status := failure }
    else do
      match ← L.plug heap with
      | some r => .ok { said := [.message r.message, .trace r.trace], status := failure }
      | none =>
        match ← L.run assembly inline input heap with
        | (out, some r) => .ok { out := out, said := [.message r.message, .trace r.trace], status := failure }
        | (out, none) => .ok (writeResults L out (results L assembly inline profile input heap) output)

/-- main.c:80-263 `main`. -/
def command (L : Lib) (name : List UInt8) (argv : List Arg) : Exec Result := do
  let a ← main argv
  perform L name a

/-! ## Property -/

/-- Where a text is asked for: on the stream, or in a file which then has this text and nothing else. -/
inductive Put (L : Lib) (pre t : List UInt8) : Option Arg → Result → Prop
  | stream : Put L pre t none ⟨pre ++ t, [], [], 0⟩
  | file (o : Arg) : L.opens o = true → Put L pre t (some o) ⟨pre, [], [(o, t)], 0⟩

/-- What was asked for has been done: help was given; the diagram is where it is wanted; the program has run to its end, what it wrote is
on the stream, and its profile, if it is asked for, where that is wanted. -/
inductive Did (L : Lib) (name : List UInt8) : Action → Result → Prop
  | help : Did L name .help ⟨helpText name, [], [], 0⟩
  | diagram {inline : Bool} {f : Arg} {o : Option Arg} {t : List UInt8} {r : Result} : L.diagram inline f = .ok (.inl t) → Put L [] t o r →
      Did L name (.diagram inline f o) r
  | run {assembly inline : Bool} {f : Arg} {o : Option Arg} {heap : Nat} {out : List UInt8} : L.made heap false = true →
      L.plug heap = .ok none → L.run assembly inline f heap = .ok (out, none) → Did L name (.run assembly inline false f o heap) ⟨out, [], [], 0⟩
  | profile {assembly inline : Bool} {f : Arg} {o : Option Arg} {heap : Nat} {out : List UInt8} {r : Result} : L.made heap true = true →
      L.plug heap = .ok none → L.run assembly inline f heap = .ok (out, none) → Put L out (L.profile assembly inline f heap) o r →
      Did L name (.run assembly inline true f o heap) r

/-- Or it could not be done: the status says so and there is a message; no file has been touched, and the only thing on the stream is
what a program has written before it failed. -/
def Failed (L : Lib) (a : Action) (r : Result) : Prop :=
  r.status = 255 ∧ r.said ≠ [] ∧ r.files = [] ∧
    (r.out = [] ∨ ∃ assembly inline profile f o heap e, a = .run assembly inline profile f o heap ∧
      L.run assembly inline f heap = .ok (r.out, some e) ∧ .message e.message ∈ r.said ∧ .trace e.trace ∈ r.said)

/-- **C107**: whatever the arguments mean (C93), either it is done and the status is 0, or it is not and the status and a message say
so. -/
def C107Statement : Prop :=
  ∀ (L : Lib) (name : List UInt8) (argv : List Arg) (a : Action) (r : Result), main argv = .ok a → command L name argv = .ok r →
    Did L name a r ∨ Failed L a r

/-- The command asks for a profile in a file that cannot be opened, or names a file for a profile without asking for one. -/
def Ignored (L : Lib) : Action → Prop
  | .run _ _ profile _ (some o) _ => profile = false ∨ L.opens o = false
  | _ => False

/-- **C107, partial**: for all commands but those which name a file for a profile that they do not ask for or that cannot be opened. -/
theorem C107_partial (L : Lib) (name : List UInt8) (argv : List Arg) (a : Action) (r : Result) (ha : main argv = .ok a)
    (h : command L name argv = .ok r) (hi : ¬ Ignored L a) : Did L name a r ∨ Failed L a r := by
  unfold command at h
  rw [ha, Exec.bind_ok] at h
  cases a with
  | usage =>
    injection h with h
    subst h
    exact .inr ⟨rfl, nofun, rfl, .inl rfl⟩
  | noInput =>
    injection h with h
    subst h
    exact .inr ⟨rfl, nofun, rfl, .inl rfl⟩
  | help =>
    injection h with h
    subst h
    exact .inl .help
  | diagram inline f o =>
    unfold perform at h
    dsimp only at h
    cases hd : L.diagram inline f with
    | ok x =>
      rw [hd, Exec.bind_ok] at h
      cases x with
      | inr m =>
        injection h with h
        subst h
        exact .inr ⟨rfl, nofun, rfl, .inl rfl⟩
      | inl t =>
        injection h with h
        subst h
        cases o with
        | none => exact .inl (.diagram hd .stream)
        | some o =>
          unfold writeDiagram
          dsimp only
          by_cases ho : L.opens o = true
          · rw [if_pos ho]
            exact .inl (.diagram hd (.file o ho))
          · rw [if_neg ho]
            exact .inr ⟨rfl, nofun, rfl, .inl rfl⟩
    | err => rw [hd] at h; cases h
    | ub => rw [hd] at h; cases h
    | diverge => rw [hd] at h; cases h
  | run assembly inline profile f o heap =>
    unfold perform at h
    dsimp only at h
    by_cases hm : L.made heap profile = false
    · rw [if_pos hm] at h
      injection h with h
      subst h
      exact .inr ⟨rfl, nofun, rfl, .inl rfl⟩
    · rw [if_neg hm] at h
      have hm : L.made heap profile = true := by simpa using hm
      cases hp : L.plug heap with
      | ok x =>
        rw [hp, Exec.bind_ok] at h
        cases x with
        | some e =>
          injection h with h
          subst h
          exact .inr ⟨rfl, nofun, rfl, .inl rfl⟩
        | none =>
          dsimp only at h
          cases hr : L.run assembly inline f heap with
          | ok y =>
            rw [hr, Exec.bind_ok] at h
            obtain ⟨out, e⟩ := y
            cases e with
            | some e =>
              injection h with h
              subst h
              exact .inr ⟨rfl, nofun, rfl, .inr ⟨_, _, _, _, _, _, e, rfl, hr, List.mem_cons_self .., List.mem_cons_of_mem _ (List.mem_cons_self ..)⟩⟩
            | none =>
              injection h with h
              subst h
              left
              cases profile with
              | false =>
                cases o with
                | none =>
                  show Did L name _ ⟨out ++ [], [], [], 0⟩
                  rw [List.append_nil]
                  exact .run hm hp hr
                | some o => exact absurd (.inl rfl) hi
              | true =>
                cases o with
                | none => exact .profile hm hp hr .stream
                | some o =>
                  unfold writeResults
                  dsimp only
                  by_cases ho : L.opens o = true
                  · rw [if_pos ho]
                    exact .profile hm hp hr (.file o ho)
                  · exact absurd (.inr (by simpa using ho)) hi
          | err => rw [hr] at h; cases h
          | ub => rw [hr] at h; cases h
          | diverge => rw [hr] at h; cases h
      | err => rw [hp] at h; cases h
      | ub => rw [hp] at h; cases h
      | diverge => rw [hp] at h; cases h

/-- The two do not happen together: the status says which. -/
theorem C107_status (L : Lib) (name : List UInt8) (a : Action) (r : Result) :
    (Did L name a r → r.status = 0 ∧ r.said = []) ∧ (Failed L a r → r.status ≠ 0 ∧ r.said ≠ []) := by
  refine ⟨fun h => ?_, fun h => ⟨by rw [h.1]; decide, h.2.1⟩⟩
  cases h with
  | help => exact ⟨rfl, rfl⟩
  | run => exact ⟨rfl, rfl⟩
  | diagram _ h => cases h <;> exact ⟨rfl, rfl⟩
  | profile _ _ _ h => cases h <;> exact ⟨rfl, rfl⟩

/-- What was asked for is done if it can be: a program that runs to its end ends the command with 0, and what the program wrote is on the
stream. -/
theorem C107_runs (L : Lib) (name : List UInt8) (os : List Opt) (args : List Arg) (file : Arg) (rest : List Arg) (hw : WritesAll os args)
    (hf : file ∉ words) (hs : ∀ n, Opt.heap n ∈ os → n < 2 ^ 31) {assembly inline : Bool} {heap : Nat}
    (ha : want os file = .run assembly inline false file none heap) (hm : L.made heap false = true) (hp : L.plug heap = .ok none) :
    (∀ out, L.run assembly inline file heap = .ok (out, none) → command L name (args ++ file :: rest) = .ok ⟨out, [], [], 0⟩) ∧
    ∀ out e, L.run assembly inline file heap = .ok (out, some e) →
      command L name (args ++ file :: rest) = .ok ⟨out, [.message e.message, .trace e.trace], [], 255⟩ := by
  have hc : command L name (args ++ file :: rest) = perform L name (.run assembly inline false file none heap) := by
    unfold command
    rw [C93_partial os args file rest hw hf hs, Exec.bind_ok, ha]
  rw [hc]
  unfold perform
  dsimp only
  rw [if_neg (by rw [hm]; decide), hp, Exec.bind_ok]
  dsimp only
  refine ⟨fun out h => ?_, fun out e h => ?_⟩
  · rw [h, Exec.bind_ok]
    show Exec.ok (⟨out ++ [], [], [], 0⟩ : Result) = _
    rw [List.append_nil]
  · rw [h, Exec.bind_ok]
    rfl

/-! ## Examples and violations -/

/-- A library in which everything works, for programs that write `x`, and in which only `ok` can be opened. -/
def toyLib : Lib where
  made _ _ := true
  plug _ := .ok none
  run _ _ f _ := if f = [102] then .ok ([120], none) else .ok ([121], some ⟨[101], [116]⟩)
  profile _ _ _ _ := [112]
  diagram _ _ := .ok (.inl [100])
  opens f := f == [111, 107]

/-- `noja f`, `noja g`, `noja -p f`, `noja -p -o ok f`, `noja --diagram-ast -o no f`, `noja -h`, `noja` -/
example : command toyLib [110] [[102]] = .ok ⟨[120], [], [], 0⟩ ∧
    command toyLib [110] [[103]] = .ok ⟨[121], [.message [101], .trace [116]], [], 255⟩ ∧
    command toyLib [110] [W.pS, [102]] = .ok ⟨[120, 112], [], [], 0⟩ ∧
    command toyLib [110] [W.pS, W.oS, [111, 107], [102]] = .ok ⟨[120], [], [([111, 107], [112])], 0⟩ ∧
    command toyLib [110] [W.dL, W.oS, [110, 111], [102]] = .ok ⟨[], [.notOpened [110, 111]], [], 255⟩ ∧
    command toyLib [110] [W.hS] = .ok ⟨helpText [110], [], [], 0⟩ ∧
    command toyLib [110] [] = .ok ⟨[], [.noInput, .usage], [], 255⟩ := by
  refine ⟨?_, ?_, ?_, ?_, ?_, ?_, ?_⟩ <;> first | rfl | decide +kernel

example : want [] [102] = .run false false false [102] none 1048576 ∧ ¬ Ignored toyLib (want [] [102]) := ⟨rfl, nofun⟩

/-- `noja -p -o no f`: there is no profile, and the status is 0. -/
theorem C107_violated : ¬ C107Statement := by
  intro h
  have ha : main [W.pS, W.oS, [110, 111], [102]] = .ok (.run false false true [102] (some [110, 111]) 1048576) := by decide +kernel
  have hc : command toyLib [110] [W.pS, W.oS, [110, 111], [102]] = .ok ⟨[120], [], [], 0⟩ := by decide +kernel
  rcases h _ _ _ _ _ ha hc with h | h
  · cases h with
    | profile _ _ _ hp => cases hp
  · exact absurd h.1 (by decide)

/-- `noja -o ok f`: no profile is asked for, and the file is emptied. -/
theorem C107_violated_emptied : ∃ (L : Lib) (name : List UInt8) (argv : List Arg) (a : Action) (r : Result), main argv = .ok a ∧
    command L name argv = .ok r ∧ L.opens [111, 107] = true ∧ r.files = [([111, 107], [])] ∧ ¬ (Did L name a r ∨ Failed L a r) := by
  refine ⟨toyLib, [110], [W.oS, [111, 107], [102]], .run false false false [102] (some [111, 107]) 1048576, ⟨[120], [], [([111, 107], [])], 0⟩,
    by decide +kernel, by decide +kernel, by decide, rfl, fun h => ?_⟩
  rcases h with h | h
  · cases h
  · exact absurd h.1 (by decide)

end Noja.Cli
