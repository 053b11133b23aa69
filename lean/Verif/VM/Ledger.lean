/-!
# What a session holds, and property C103

Sources and executables are counted; frames, function objects, the table of a profile and the
functions of `run.c` hold them.  Here the counters of `Util/RefCount.lean` are used by the code that
takes and gives back: `src/lib/run.c`, `src/lib/runtime.c`, `src/lib/timing.c` and the part of
`src/cli/main.c` that runs a program.  What a program does besides is any sequence of making
functions, calling them, calling native functions, importing files, collecting garbage and failing.

Simplified: `malloc` succeeds, objects other than functions hold nothing, the names in the profile
come and go with its entries.  A frame of a file that was not compiled is the one
structure `failed_frame` of the runtime; that there is at most one is proved (`C103_one_failed`).
-/

set_option linter.unusedVariables false
set_option linter.unusedSimpArgs false

namespace Noja.Ledger

/-! ## Model -/

/-- source.c:42-47; `freed` counts the calls of `free`. -/
structure Src where
  refs : Int
  freed : Nat

/-- executable.c:50-58. -/
structure Exe where
  refs : Int
  freed : Nat
  src : Nat

/-- runtime.c:50-71. -/
inductive Frame where
  | normal (exe : Nat)
  | native
  | failed (src : Nat)
deriving DecidableEq

structure St where
  srcs : Nat → Src
  nsrc : Nat
  exes : Nat → Exe
  nexe : Nat
  frames : List Frame
  /-- the executables of the function objects on the heap -/
  funs : List Nat
  /-- the sources of the entries of the profile -/
  timing : Option (List Nat)
  /-- arrays for missing arguments that were not freed -/
  arrays : Nat
  /-- something was used after it was freed -/
  fault : Bool

def set {α : Type} (f : Nat → α) (i : Nat) (v : α) : Nat → α := fun j => if j = i then v else f j

def touchSrc (y : Nat) (s : St) : St := if (s.srcs y).freed = 0 then s else { s with fault := true }

def touchExe (x : Nat) (s : St) : St := if (s.exes x).freed = 0 then s else { s with fault := true }

/-- source.c:49-53 `Source_Copy`. -/
def srcCopy (y : Nat) (s : St) : St :=
  let s := touchSrc y s
  { s with srcs := set s.srcs y { s.srcs y with refs := (s.srcs y).refs + 1 } }

/-- source.c:55-62 `Source_Free`. -/
def srcFree (y : Nat) (s : St) : St :=
  let s := touchSrc y s
  let r := (s.srcs y).refs - 1
  { s with srcs := set s.srcs y { refs := r, freed := if r = 0 then (s.srcs y).freed + 1 else (s.srcs y).freed } }

/-- executable.c:168-174 `Executable_Copy`. -/
def exeCopy (x : Nat) (s : St) : St :=
  let s := touchExe x s
  { s with exes := set s.exes x { s.exes x with refs := (s.exes x).refs + 1 } }

/-- executable.c:176-187 `Executable_Free`. -/
def exeFree (x : Nat) (s : St) : St :=
  let s := touchExe x s
  let e := s.exes x
  if e.refs - 1 = 0 then
    let s := srcFree e.src s
    { s with exes := set s.exes x { e with refs := e.refs - 1, freed := e.freed + 1 } }
  else { s with exes := set s.exes x { e with refs := e.refs - 1 } }

/-- source.c:166,208: a source, with one holder. -/
def newSrc (s : St) : St :=
  { s with srcs := set s.srcs s.nsrc { refs := 1, freed := 0 }, nsrc := s.nsrc + 1 }

/-- executable.c:477 and 230-239 `Executable_SetSource` (codegenctx.c:134, assemble.c:476): an executable,
with one holder, that holds its source. -/
def newExe (y : Nat) (s : St) : St :=
  let s := srcCopy y s
  { s with exes := set s.exes s.nexe { refs := 1, freed := 0, src := y }, nexe := s.nexe + 1 }

/-- runtime.c:13 -/
def maxFrames : Nat := 16

/-- runtime.c:651-686 `Runtime_PushFrame` with runtime.c:599-609 `appendFrame`. -/
def pushFrame (x : Nat) (s : St) : St × Bool :=
  let s := exeCopy x s
  if s.frames.length = maxFrames then (exeFree x s, false)
  else ({ s with frames := .normal x :: s.frames }, true)

/-- runtime.c:611-631 `Runtime_PushFailedFrame`. -/
def pushFailed (y : Nat) (s : St) : St :=
  let s := srcCopy y s
  if s.frames.length = maxFrames then srcFree y s
  else { s with frames := .failed y :: s.frames }

/-- runtime.c:688-716 `Runtime_PopFrame`. -/
def popFrame (s : St) : St × Bool :=
  match s.frames with
  | [] => (s, false)
  | .normal x :: fs => (exeFree x { s with frames := fs }, true)
  | .native :: fs => ({ s with frames := fs }, true)
  | .failed y :: fs => (srcFree y { s with frames := fs }, true)

/-- run.c:1107-1132 `runExecutableAtIndex`; `body` is what the instructions do. -/
def runAt (x : Nat) (body : St → St × Bool) (s : St) : St × Bool :=
  match pushFrame x s with
  | (s, false) => (s, false)
  | (s, true) =>
    match body s with
    | (s, false) => (s, false)
    | (s, true) => popFrame s

/-- run.c:1134-1150 `runSource` (1152-1168 `runBytecodeSource` is alike). -/
def runSource (y : Nat) (compiles : Bool) (body : St → St × Bool) (s : St) : St × Bool :=
  if compiles then
    let s := newExe y s
    let x := s.nexe - 1
    match runAt x body s with
    | (s, ok) => (exeFree x s, ok)
  else (pushFailed y s, false)

/-- run.c:1170-1216 and 1264-1285, runtime.c:780-802: a source is made, run and released. -/
def runFile (readable compiles : Bool) (body : St → St × Bool) (s : St) : St × Bool :=
  if readable then
    let s := newSrc s
    let y := s.nsrc - 1
    match runSource y compiles body s with
    | (s, ok) => (srcFree y s, ok)
  else (s, false)

/-- The instruction is fetched from the executable of the frame. -/
def fetch (s : St) : St :=
  match s.frames with
  | .normal x :: _ => touchExe x s
  | _ => s

/-- run.c:158-200 `Object_FromNojaFunction` and timing.c:43-68 `TimingTable_newEntry`. -/
def define (s : St) : St :=
  match s.frames with
  | .normal x :: _ =>
    let s := exeCopy x s
    let s := { s with funs := x :: s.funs }
    match s.timing with
    | none => s
    | some t =>
      let s := srcCopy (s.exes x).src (touchExe x s)
      { s with timing := some ((s.exes x).src :: t) }
  | _ => s

/-- Which function objects a collection keeps, and which it does not. -/
def sift : List Bool → List Nat → List Nat × List Nat
  | [], xs => (xs, [])
  | _ :: _, [] => ([], [])
  | true :: bs, x :: xs => ((x :: (sift bs xs).1), (sift bs xs).2)
  | false :: bs, x :: xs => ((sift bs xs).1, (x :: (sift bs xs).2))

/-- run.c:26-33 `func_free` of several functions. -/
def dropAll : List Nat → St → St
  | [], s => s
  | x :: xs, s => dropAll xs (exeFree x s)

/-- A collection of garbage that keeps some of the functions. -/
def collect (keep : List Bool) (s : St) : St :=
  dropAll (sift keep s.funs).2 { s with funs := (sift keep s.funs).1 }

mutual
/-- What a program does. -/
inductive Act where
  /-- a function is made -/
  | define
  /-- a function is called, with or without missing arguments -/
  | call (f : Nat) (missing : Bool) (body : Acts)
  /-- a native function is called -/
  | native (missing : Bool) (body : Acts)
  /-- a file is imported (by a native function) -/
  | import (readable compiles : Bool) (body : Acts)
  | collect (keep : List Bool)
  /-- an error -/
  | fail
inductive Acts where
  | nil
  | cons (a : Act) (as : Acts)
end

def allocIf (b : Bool) (s : St) : St := if b then { s with arrays := s.arrays + 1 } else s
def freeIf (b : Bool) (s : St) : St := if b then { s with arrays := s.arrays - 1 } else s

mutual
def exec : Act → St → St × Bool
  | .define, s => (define (fetch s), true)
  /- run.c:42-117 `func_call` -/
  | .call f missing body, s =>
    let s := fetch s
    match s.funs[f]? with
    | none => (s, false)
    | some x =>
      match runAt x (execs body) (allocIf missing s) with
      | (s, ok) => (freeIf missing s, ok)
  /- run.c:208-285 `native_func_call` -/
  | .native missing body, s =>
    let s := allocIf missing (fetch s)
    if s.frames.length = maxFrames then (s, false)
    else
      match execs body { s with frames := .native :: s.frames } with
      | (s, ok) =>
        let s := freeIf missing s
        if ok then popFrame s else (s, false)
  | .import readable compiles body, s => runFile readable compiles (execs body) (fetch s)
  | .collect keep, s => (collect keep (fetch s), true)
  | .fail, s => (fetch s, false)
def execs : Acts → St → St × Bool
  | .nil, s => (fetch s, true)
  | .cons a as, s =>
    match exec a s with
    | (s, false) => (s, false)
    | (s, true) => execs as s
end

/-- runtime.c:214-228 `Runtime_PrintStackTrace` and 180-212 `printFrame`. -/
def trace : List Frame → St → St
  | [], s => s
  | .normal x :: fs, s => trace fs (touchSrc (s.exes x).src (touchExe x s))
  | .native :: fs, s => trace fs s
  | .failed y :: fs, s => trace fs (touchSrc y s)

/-- runtime.c:811-829 `Runtime_SerializeProfilingResultsToStream`: the sources it reads. -/
def profile : List Nat → St → St
  | [], s => s
  | y :: ys, s => profile ys (touchSrc y s)

/-- runtime.c:372-373: pops as many frames as there are. -/
def popAll : Nat → St → St
  | 0, s => s
  | n + 1, s => popAll n (popFrame s).1

/-- timing.c:22-32 `TimingTable_free`. -/
def releaseAll : List Nat → St → St
  | [], s => s
  | y :: ys, s => releaseAll ys (srcFree y s)

/-- runtime.c:370-379 `Runtime_Free`. -/
def runtimeFree (s : St) : St :=
  let s := popAll s.frames.length s
  let s := releaseAll (s.timing.getD []) { s with timing := none }
  dropAll s.funs { s with funs := [] }

/-- runtime.c:325-368 `Runtime_New`. -/
def start (time : Bool) : St :=
  { srcs := fun _ => ⟨0, 0⟩, nsrc := 0, exes := fun _ => ⟨0, 0, 0⟩, nexe := 0, frames := [], funs := [],
    timing := if time then some [] else none, arrays := 0, fault := false }

/-- A source to run: whether it can be read, whether it compiles, and what it does. -/
structure Prog where
  readable : Bool
  compiles : Bool
  body : Acts

/-- cli/main.c:206-254: the session up to `Runtime_Free`. -/
def running (time : Bool) (prelude program : Prog) : St × Bool :=
  match runFile prelude.readable prelude.compiles (execs prelude.body) (start time) with
  | (s, false) => (trace s.frames s, false)
  | (s, true) =>
    match runFile program.readable program.compiles (execs program.body) s with
    | (s, false) => (trace s.frames s, false)
    | (s, true) => (profile (s.timing.getD []) s, true)

/-- cli/main.c:206-254 -/
def session (time : Bool) (prelude program : Prog) : St := runtimeFree (running time prelude program).1

/-! ## Property -/

/-- Nothing is used after it was freed, and in the end everything was freed once. -/
structure Clean (s : St) : Prop where
  unharmed : s.fault = false
  frames : s.frames = []
  exes : ∀ x, x < s.nexe → (s.exes x).freed = 1
  srcs : ∀ y, y < s.nsrc → (s.srcs y).freed = 1

/-- The property. -/
def C103Statement : Prop := ∀ time prelude program,
  Clean (session time prelude program) ∧ (session time prelude program).arrays = 0

/-! ## Proof -/

/-- The counters are right when `ce` and `cs` count the holders. -/
structure Bal (ce cs : Nat → Nat) (s : St) : Prop where
  live : ∃ l : List Nat, l.Nodup ∧ (∀ x, x ∈ l ↔ x < s.nexe ∧ (s.exes x).freed = 0) ∧
    ∀ y, y < s.nsrc → (s.srcs y).refs = (cs y : Int) + (l.map fun x => (s.exes x).src).count y
  exe : ∀ x, x < s.nexe → (s.exes x).refs = ce x ∧ (s.exes x).freed = if ce x = 0 then 1 else 0
  src : ∀ y, y < s.nsrc → (s.srcs y).freed = if (s.srcs y).refs = 0 then 1 else 0
  exeLt : ∀ x, ce x ≠ 0 → x < s.nexe
  srcLt : ∀ y, cs y ≠ 0 → y < s.nsrc
  exeSrc : ∀ x, x < s.nexe → (s.exes x).src < s.nsrc
  ok : s.fault = false

def inc (f : Nat → Nat) (x : Nat) : Nat → Nat := fun y => f y + if y = x then 1 else 0

theorem inc_self (f : Nat → Nat) (x : Nat) : inc f x x = f x + 1 := by simp [inc]
theorem inc_ne (f : Nat → Nat) {x y : Nat} (h : y ≠ x) : inc f x y = f y := by simp [inc, h]

theorem set_self {α : Type} (f : Nat → α) (i : Nat) (v : α) : set f i v i = v := if_pos rfl
theorem set_ne {α : Type} (f : Nat → α) {i j : Nat} (v : α) (h : j ≠ i) : set f i v j = f j := if_neg h

variable {ce cs : Nat → Nat} {s : St} {x y : Nat}

theorem Bal.srcAlive (b : Bal ce cs s) (h : cs y ≠ 0) : (s.srcs y).freed = 0 := by
  obtain ⟨l, -, -, hl⟩ := b.live
  rw [b.src y (b.srcLt y h), hl y (b.srcLt y h), if_neg (by omega)]

theorem Bal.exeAlive (b : Bal ce cs s) (h : ce x ≠ 0) : (s.exes x).freed = 0 := by
  rw [(b.exe x (b.exeLt x h)).2, if_neg h]

/-- The source of an executable in use is there. -/
theorem Bal.srcOfExe (b : Bal ce cs s) (h : ce x ≠ 0) : (s.srcs (s.exes x).src).freed = 0 := by
  obtain ⟨l, hn, hm, hl⟩ := b.live
  have hx := b.exeLt x h
  have hy := b.exeSrc x hx
  have hmem : x ∈ l := (hm x).2 ⟨hx, b.exeAlive h⟩
  have hc : 0 < (l.map fun x => (s.exes x).src).count (s.exes x).src :=
    List.count_pos_iff.2 (List.mem_map_of_mem (f := fun x => (s.exes x).src) hmem)
  rw [b.src _ hy, hl _ hy, if_neg (by omega)]

theorem touchSrc_ok (h : (s.srcs y).freed = 0) : touchSrc y s = s := if_pos h
theorem touchExe_ok (h : (s.exes x).freed = 0) : touchExe x s = s := if_pos h

theorem Bal.congr {ce' cs' : Nat → Nat} (b : Bal ce cs s) (he : ∀ x, ce x = ce' x) (hs : ∀ x, cs x = cs' x) : Bal ce' cs' s := by
  have h1 : ce = ce' := funext he
  have h2 : cs = cs' := funext hs
  rw [← h1, ← h2]
  exact b

/-- Only the counters count. -/
theorem Bal.of (b : Bal ce cs s) {t : St} (h1 : t.srcs = s.srcs) (h2 : t.nsrc = s.nsrc) (h3 : t.exes = s.exes)
    (h4 : t.nexe = s.nexe) (h5 : t.fault = s.fault) : Bal ce cs t := by
  obtain ⟨a, b, c, d, e, f, g⟩ := b
  constructor
  · rw [h1, h2, h3, h4]; exact a
  · rw [h3, h4]; exact b
  · rw [h1, h2]; exact c
  · rw [h4]; exact d
  · rw [h2]; exact e
  · rw [h2, h3, h4]; exact f
  · rw [h5]; exact g

/-- One more holder of a source that is there. -/
theorem Bal.srcCopy (b : Bal ce cs s) (hy : y < s.nsrc) (ha : (s.srcs y).freed = 0) : Bal ce (inc cs y) (srcCopy y s) := by
  unfold Ledger.srcCopy
  rw [touchSrc_ok ha]
  obtain ⟨l, hn, hm, hl⟩ := b.live
  have h0 : ¬ (s.srcs y).refs = 0 := by
    intro h
    rw [b.src y hy, if_pos h] at ha
    cases ha
  constructor
  · refine ⟨l, hn, hm, fun z hz => ?_⟩
    show (set s.srcs y _ z).refs = _
    by_cases q : z = y
    · subst q
      rw [set_self, inc_self]
      have := hl z hz
      dsimp only
      omega
    · rw [set_ne _ _ q, inc_ne _ q]
      exact hl z hz
  · exact b.exe
  · intro z hz
    show (set s.srcs y _ z).freed = if (set s.srcs y _ z).refs = 0 then 1 else 0
    by_cases q : z = y
    · subst q
      rw [set_self]
      dsimp only
      have h2 : 0 ≤ (s.srcs z).refs := by rw [hl z hz]; omega
      rw [ha, if_neg (by omega)]
    · rw [set_ne _ _ q]
      exact b.src z hz
  · exact b.exeLt
  · intro z hz
    show z < s.nsrc
    by_cases q : z = y
    · subst q; exact hy
    · rw [inc_ne _ q] at hz; exact b.srcLt z hz
  · exact b.exeSrc
  · exact b.ok

/-- One holder less. -/
theorem Bal.srcFree (b : Bal ce (inc cs y) s) : Bal ce cs (srcFree y s) := by
  have hc : inc cs y y ≠ 0 := by rw [inc_self]; omega
  have hy := b.srcLt y hc
  have ha := b.srcAlive hc
  unfold Ledger.srcFree
  rw [touchSrc_ok ha]
  obtain ⟨l, hn, hm, hl⟩ := b.live
  constructor
  · refine ⟨l, hn, hm, fun z hz => ?_⟩
    show (set s.srcs y _ z).refs = _
    have h := hl z hz
    by_cases q : z = y
    · subst q
      rw [inc_self] at h
      rw [set_self]
      dsimp only
      omega
    · rw [inc_ne _ q] at h
      rw [set_ne _ _ q]
      exact h
  · exact b.exe
  · intro z hz
    show (set s.srcs y _ z).freed = if (set s.srcs y _ z).refs = 0 then 1 else 0
    by_cases q : z = y
    · subst q
      rw [set_self]
      dsimp only
      rw [ha]
    · rw [set_ne _ _ q]
      exact b.src z hz
  · exact b.exeLt
  · intro z hz
    refine b.srcLt z ?_
    unfold inc
    omega
  · exact b.exeSrc
  · exact b.ok

theorem Bal.exeCopy (b : Bal ce cs s) (h : ce x ≠ 0) : Bal (inc ce x) cs (exeCopy x s) := by
  have hx := b.exeLt x h
  have ha := b.exeAlive h
  unfold Ledger.exeCopy
  rw [touchExe_ok ha]
  obtain ⟨l, hn, hm, hl⟩ := b.live
  have hsrc : ∀ z, (set s.exes x { s.exes x with refs := (s.exes x).refs + 1 } z).src = (s.exes z).src := by
    intro z
    by_cases q : z = x
    · subst q; rw [set_self]
    · rw [set_ne _ _ q]
  have hfr : ∀ z, (set s.exes x { s.exes x with refs := (s.exes x).refs + 1 } z).freed = (s.exes z).freed := by
    intro z
    by_cases q : z = x
    · subst q; rw [set_self]
    · rw [set_ne _ _ q]
  constructor
  · refine ⟨l, hn, fun z => ?_, fun z hz => ?_⟩
    · show _ ↔ z < s.nexe ∧ (set s.exes x _ z).freed = 0
      rw [hfr]
      exact hm z
    · show _ = _ + ((l.map fun w => (set s.exes x _ w).src).count z : Int)
      rw [show (fun w => (set s.exes x { s.exes x with refs := (s.exes x).refs + 1 } w).src) = fun w => (s.exes w).src from funext hsrc]
      exact hl z hz
  · intro z hz
    show (set s.exes x _ z).refs = _ ∧ (set s.exes x _ z).freed = _
    rw [hfr]
    by_cases q : z = x
    · subst q
      rw [set_self, inc_self]
      obtain ⟨h1, h2⟩ := b.exe z hz
      refine ⟨by dsimp only; omega, ?_⟩
      rw [ha, if_neg (by omega)]
    · rw [set_ne _ _ q, inc_ne _ q]
      exact b.exe z hz
  · exact b.src
  · intro z hz
    show z < s.nexe
    by_cases q : z = x
    · subst q; exact hx
    · rw [inc_ne _ q] at hz; exact b.exeLt z hz
  · exact b.srcLt
  · intro z hz
    show (set s.exes x _ z).src < s.nsrc
    rw [hsrc]
    exact b.exeSrc z hz
  · exact b.ok

theorem count_erase {l : List Nat} (f : Nat → Nat) (h : x ∈ l) (y : Nat) :
    (l.map f).count y = ((l.erase x).map f).count y + if y = f x then 1 else 0 := by
  have := (List.perm_cons_erase h).map f
  rw [this.count_eq, List.map_cons, List.count_cons]
  by_cases q : y = f x
  · subst q; simp
  · have q' : ¬ f x = y := fun e => q e.symm
    simp [q, q']

/-- One holder of an executable less; the last takes the source with it. -/
theorem Bal.exeFree (b : Bal (inc ce x) cs s) : Bal ce cs (exeFree x s) := by
  have hc : inc ce x x ≠ 0 := by rw [inc_self]; omega
  have hx := b.exeLt x hc
  have ha := b.exeAlive hc
  have hsa := b.srcOfExe hc
  have hsl := b.exeSrc x hx
  obtain ⟨hr, -⟩ := b.exe x hx
  rw [inc_self] at hr
  unfold Ledger.exeFree
  rw [touchExe_ok ha]
  dsimp only
  obtain ⟨l, hn, hm, hl⟩ := b.live
  have hsrc : ∀ (e : Exe), e.src = (s.exes x).src → ∀ z, (set s.exes x e z).src = (s.exes z).src := by
    intro e he z
    by_cases q : z = x
    · subst q; rw [set_self]; exact he
    · rw [set_ne _ _ q]
  by_cases q0 : (s.exes x).refs - 1 = 0
  · rw [if_pos q0]
    have c0 : ce x = 0 := by omega
    unfold Ledger.srcFree
    rw [touchSrc_ok hsa]
    dsimp only
    have hmem : x ∈ l := (hm x).2 ⟨hx, ha⟩
    constructor
    · refine ⟨l.erase x, hn.erase x, fun z => ?_, fun z hz => ?_⟩
      · show _ ↔ z < s.nexe ∧ (set s.exes x _ z).freed = 0
        rw [hn.mem_erase_iff, hm z]
        by_cases q : z = x
        · subst q
          rw [set_self]
          simp
        · rw [set_ne _ _ q]
          simp [q]
      · show (set s.srcs _ _ z).refs = _ + (((l.erase x).map fun w => (set s.exes x _ w).src).count z : Int)
        rw [show (fun w => (set s.exes x { s.exes x with refs := (s.exes x).refs - 1, freed := (s.exes x).freed + 1 } w).src) =
          fun w => (s.exes w).src from funext (hsrc _ rfl)]
        have h := hl z hz
        rw [count_erase _ hmem z] at h
        by_cases q : z = (s.exes x).src
        · rw [if_pos q] at h
          rw [← q, set_self]
          dsimp only
          omega
        · rw [if_neg q] at h
          rw [set_ne _ _ q]
          exact h
    · intro z hz
      show (set s.exes x _ z).refs = _ ∧ (set s.exes x _ z).freed = _
      by_cases q : z = x
      · subst q
        rw [set_self]
        dsimp only
        rw [if_pos c0, ha]
        exact ⟨by omega, rfl⟩
      · rw [set_ne _ _ q]
        have := b.exe z hz
        rw [inc_ne _ q] at this
        exact this
    · intro z hz
      show (set s.srcs _ _ z).freed = if (set s.srcs _ _ z).refs = 0 then 1 else 0
      by_cases q : z = (s.exes x).src
      · rw [← q, set_self]
        dsimp only
        rw [q, hsa]
      · rw [set_ne _ _ q]
        exact b.src z hz
    · intro z hz
      exact b.exeLt z (by unfold inc; omega)
    · exact b.srcLt
    · intro z hz
      show (set s.exes x _ z).src < s.nsrc
      rw [hsrc { s.exes x with refs := (s.exes x).refs - 1, freed := (s.exes x).freed + 1 } rfl]
      exact b.exeSrc z hz
    · exact b.ok
  · rw [if_neg q0]
    have c0 : ce x ≠ 0 := by omega
    have hfr : ∀ z, (set s.exes x { s.exes x with refs := (s.exes x).refs - 1 } z).freed = (s.exes z).freed := by
      intro z
      by_cases q : z = x
      · subst q; rw [set_self]
      · rw [set_ne _ _ q]
    constructor
    · refine ⟨l, hn, fun z => ?_, fun z hz => ?_⟩
      · show _ ↔ z < s.nexe ∧ (set s.exes x _ z).freed = 0
        rw [hfr]
        exact hm z
      · show _ = _ + ((l.map fun w => (set s.exes x _ w).src).count z : Int)
        rw [show (fun w => (set s.exes x { s.exes x with refs := (s.exes x).refs - 1 } w).src) =
          fun w => (s.exes w).src from funext (hsrc _ rfl)]
        exact hl z hz
    · intro z hz
      show (set s.exes x _ z).refs = _ ∧ (set s.exes x _ z).freed = _
      rw [hfr]
      by_cases q : z = x
      · subst q
        rw [set_self]
        dsimp only
        rw [if_neg c0, ha]
        exact ⟨by omega, rfl⟩
      · rw [set_ne _ _ q]
        have := b.exe z hz
        rw [inc_ne _ q] at this
        exact this
    · exact b.src
    · intro z hz
      exact b.exeLt z (by unfold inc; omega)
    · exact b.srcLt
    · intro z hz
      show (set s.exes x _ z).src < s.nsrc
      rw [hsrc { s.exes x with refs := (s.exes x).refs - 1 } rfl]
      exact b.exeSrc z hz
    · exact b.ok


theorem Bal.newSrc (b : Bal ce cs s) : Bal ce (inc cs s.nsrc) (newSrc s) := by
  obtain ⟨l, hn, hm, hl⟩ := b.live
  have c0 : cs s.nsrc = 0 := by
    apply Classical.byContradiction
    intro h
    exact absurd (b.srcLt _ h) (Nat.lt_irrefl _)
  constructor
  · refine ⟨l, hn, hm, fun z hz => ?_⟩
    have hz' : z < s.nsrc + 1 := hz
    show (set s.srcs s.nsrc _ z).refs = _ + ((l.map fun w => (s.exes w).src).count z : Int)
    by_cases q : z = s.nsrc
    · subst q
      rw [set_self, inc_self, c0]
      have : (l.map fun w => (s.exes w).src).count s.nsrc = 0 := by
        rw [List.count_eq_zero]
        intro hmem
        obtain ⟨w, hw, he⟩ := List.mem_map.1 hmem
        have := b.exeSrc w ((hm w).1 hw).1
        omega
      rw [this]
      rfl
    · rw [set_ne _ _ q, inc_ne _ q]
      exact hl z (by omega)
  · exact b.exe
  · intro z hz
    have hz' : z < s.nsrc + 1 := hz
    show (set s.srcs s.nsrc _ z).freed = if (set s.srcs s.nsrc _ z).refs = 0 then 1 else 0
    by_cases q : z = s.nsrc
    · subst q
      rw [set_self]
      rfl
    · rw [set_ne _ _ q]
      exact b.src z (by omega)
  · exact b.exeLt
  · intro z hz
    show z < s.nsrc + 1
    by_cases q : z = s.nsrc
    · omega
    · rw [inc_ne _ q] at hz
      have := b.srcLt z hz
      omega
  · intro z hz
    show (s.exes z).src < s.nsrc + 1
    have := b.exeSrc z hz
    omega
  · exact b.ok

theorem Bal.newExe (b : Bal ce cs s) (h : cs y ≠ 0) : Bal (inc ce s.nexe) cs (newExe y s) := by
  have ha := b.srcAlive h
  have hy := b.srcLt y h
  have k := b.srcCopy hy ha
  have e0 : ce s.nexe = 0 := by
    apply Classical.byContradiction
    intro h
    exact absurd (b.exeLt _ h) (Nat.lt_irrefl _)
  unfold Ledger.newExe
  have he : (Ledger.srcCopy y s).nexe = s.nexe ∧ (Ledger.srcCopy y s).exes = s.exes ∧ (Ledger.srcCopy y s).nsrc = s.nsrc := by
    unfold Ledger.srcCopy
    rw [touchSrc_ok ha]
    exact ⟨rfl, rfl, rfl⟩
  revert k he
  generalize Ledger.srcCopy y s = t
  intro k he
  obtain ⟨e1, e2, e3⟩ := he
  obtain ⟨l, hn, hm, hl⟩ := k.live
  have hnl : s.nexe ∉ l := by
    intro h
    have := ((hm _).1 h).1
    omega
  have hex : ∀ z, z ≠ s.nexe → set t.exes t.nexe { refs := 1, freed := 0, src := y } z = t.exes z :=
    fun z hz => set_ne _ _ (by rw [e1]; exact hz)
  have hself : set t.exes t.nexe { refs := 1, freed := 0, src := y } s.nexe = { refs := 1, freed := 0, src := y } := by
    rw [← e1]; exact set_self _ _ _
  constructor
  · refine ⟨s.nexe :: l, List.nodup_cons.2 ⟨hnl, hn⟩, fun z => ?_, fun z hz => ?_⟩
    · show _ ↔ z < t.nexe + 1 ∧ (set t.exes t.nexe _ z).freed = 0
      by_cases q : z = s.nexe
      · rw [q, hself]
        simp [e1]
      · rw [hex z q, List.mem_cons, hm z]
        constructor
        · rintro (h | h)
          · exact absurd h q
          · exact ⟨by omega, h.2⟩
        · intro h
          exact .inr ⟨by omega, h.2⟩
    · show _ = _ + (((s.nexe :: l).map fun w => (set t.exes t.nexe _ w).src).count z : Int)
      have hmap : (l.map fun w => (set t.exes t.nexe { refs := 1, freed := 0, src := y } w).src) = l.map fun w => (t.exes w).src := by
        apply List.map_congr_left
        intro w hw
        rw [hex w (fun e => hnl (e ▸ hw))]
      rw [List.map_cons, hmap, hself, List.count_cons]
      have := hl z hz
      unfold inc at this
      by_cases q : z = y
      · subst q
        simp at this ⊢
        omega
      · have q' : ¬ y = z := fun e => q e.symm
        simp [q, q'] at this ⊢
        exact this
  · intro z hz
    have hz' : z < t.nexe + 1 := hz
    show (set t.exes t.nexe _ z).refs = _ ∧ (set t.exes t.nexe _ z).freed = _
    by_cases q : z = s.nexe
    · subst q
      rw [hself, inc_self, e0]
      exact ⟨rfl, rfl⟩
    · rw [hex z q, inc_ne _ q]
      exact k.exe z (by omega)
  · exact k.src
  · intro z hz
    show z < t.nexe + 1
    by_cases q : z = s.nexe
    · omega
    · rw [inc_ne _ q] at hz
      have := b.exeLt z hz
      omega
  · intro z hz
    show z < t.nsrc
    rw [e3]
    exact b.srcLt z hz
  · intro z hz
    have hz' : z < t.nexe + 1 := hz
    show (set t.exes t.nexe _ z).src < t.nsrc
    by_cases q : z = s.nexe
    · subst q
      rw [hself, e3]
      exact hy
    · rw [hex z q]
      exact k.exeSrc z (by omega)
  · exact k.ok

/-! ### Who holds what -/

def exesOf : List Frame → List Nat
  | [] => []
  | .normal x :: fs => x :: exesOf fs
  | _ :: fs => exesOf fs

def srcsOf : List Frame → List Nat
  | [] => []
  | .failed y :: fs => y :: srcsOf fs
  | _ :: fs => srcsOf fs

/-- The counters are right: `hE` and `hS` are held by functions of `run.c` that have not returned. -/
def Inv (hE hS : List Nat) (s : St) : Prop :=
  Bal (fun x => (exesOf s.frames).count x + s.funs.count x + hE.count x)
    (fun y => (srcsOf s.frames).count y + (s.timing.getD []).count y + hS.count y) s

variable {hE hS : List Nat}

/-- A part of the state that is not counted. -/
theorem Inv.of (i : Inv hE hS s) {t : St} (h1 : t.srcs = s.srcs) (h2 : t.nsrc = s.nsrc) (h3 : t.exes = s.exes)
    (h4 : t.nexe = s.nexe) (h5 : t.fault = s.fault) (h6 : t.frames = s.frames) (h7 : t.funs = s.funs)
    (h8 : t.timing = s.timing) : Inv hE hS t := by
  unfold Inv
  rw [h6, h7, h8]
  exact Bal.of i h1 h2 h3 h4 h5

theorem Inv.allocIf (i : Inv hE hS s) (b : Bool) : Inv hE hS (allocIf b s) := by
  cases b with
  | false => exact i
  | true => exact i.of rfl rfl rfl rfl rfl rfl rfl rfl

theorem Inv.freeIf (i : Inv hE hS s) (b : Bool) : Inv hE hS (freeIf b s) := by
  cases b with
  | false => exact i
  | true => exact i.of rfl rfl rfl rfl rfl rfl rfl rfl

/-! Copies and releases leave the rest alone. -/

/-- The part of a state that counters are not. -/
def Same (s t : St) : Prop := t.frames = s.frames ∧ t.funs = s.funs ∧ t.timing = s.timing ∧ t.arrays = s.arrays

theorem touchSrc_same : Same s (touchSrc y s) := by unfold touchSrc; split <;> exact ⟨rfl, rfl, rfl, rfl⟩
theorem touchExe_same : Same s (touchExe x s) := by unfold touchExe; split <;> exact ⟨rfl, rfl, rfl, rfl⟩
theorem srcCopy_same : Same s (srcCopy y s) := touchSrc_same (y := y) (s := s)
theorem srcFree_same : Same s (srcFree y s) := touchSrc_same (y := y) (s := s)
theorem exeCopy_same : Same s (exeCopy x s) := touchExe_same (x := x) (s := s)
theorem Same.trans {s t u : St} (h : Same s t) (k : Same t u) : Same s u :=
  ⟨k.1.trans h.1, k.2.1.trans h.2.1, k.2.2.1.trans h.2.2.1, k.2.2.2.trans h.2.2.2⟩
theorem exeFree_same : Same s (exeFree x s) := by
  unfold exeFree
  dsimp only
  by_cases q : ((touchExe x s).exes x).refs - 1 = 0
  · rw [if_pos q]
    exact (touchExe_same (x := x) (s := s)).trans srcFree_same
  · rw [if_neg q]
    exact touchExe_same (x := x) (s := s)
theorem newSrc_same : Same s (newSrc s) := ⟨rfl, rfl, rfl, rfl⟩
theorem newExe_same : Same s (newExe y s) := srcCopy_same (y := y) (s := s)

theorem Inv.exeCopy (i : Inv hE hS s) (h : x ∈ exesOf s.frames ∨ x ∈ s.funs ∨ x ∈ hE) : Inv (x :: hE) hS (exeCopy x s) := by
  unfold Inv at i ⊢
  rw [exeCopy_same.1, exeCopy_same.2.1, exeCopy_same.2.2.1]
  have hc : (exesOf s.frames).count x + s.funs.count x + hE.count x ≠ 0 := by
    rcases h with h | h | h <;> have := List.count_pos_iff.2 h <;> omega
  refine (Bal.exeCopy i hc).congr (fun z => ?_) fun _ => rfl
  unfold inc
  rw [List.count_cons]
  by_cases q : z = x
  · subst q; simp; omega
  · have q' : ¬ x = z := fun e => q e.symm
    simp [q, q']

theorem Inv.exeFree (i : Inv (x :: hE) hS s) : Inv hE hS (exeFree x s) := by
  unfold Inv at i ⊢
  rw [exeFree_same.1, exeFree_same.2.1, exeFree_same.2.2.1]
  refine Bal.exeFree (i.congr (fun z => ?_) fun _ => rfl)
  unfold inc
  rw [List.count_cons]
  by_cases q : z = x
  · subst q; simp; omega
  · have q' : ¬ x = z := fun e => q e.symm
    simp [q, q']

theorem Inv.srcFree (i : Inv hE (y :: hS) s) : Inv hE hS (srcFree y s) := by
  unfold Inv at i ⊢
  rw [srcFree_same.1, srcFree_same.2.1, srcFree_same.2.2.1]
  refine Bal.srcFree (i.congr (fun _ => rfl) fun z => ?_)
  unfold inc
  rw [List.count_cons]
  by_cases q : z = y
  · subst q; simp; omega
  · have q' : ¬ y = z := fun e => q e.symm
    simp [q, q']

theorem Inv.srcCopy' (i : Inv hE hS s) (hy : y < s.nsrc) (ha : (s.srcs y).freed = 0) : Inv hE (y :: hS) (srcCopy y s) := by
  unfold Inv at i ⊢
  rw [srcCopy_same.1, srcCopy_same.2.1, srcCopy_same.2.2.1]
  refine (Bal.srcCopy i hy ha).congr (fun _ => rfl) fun z => ?_
  unfold inc
  rw [List.count_cons]
  by_cases q : z = y
  · subst q; simp; omega
  · have q' : ¬ y = z := fun e => q e.symm
    simp [q, q']

theorem Inv.srcCopy (i : Inv hE hS s) (h : y ∈ hS) : Inv hE (y :: hS) (srcCopy y s) := by
  have hc : (srcsOf s.frames).count y + (s.timing.getD []).count y + hS.count y ≠ 0 := by
    have := List.count_pos_iff.2 h
    omega
  exact i.srcCopy' (Bal.srcLt i y hc) (Bal.srcAlive i hc)

theorem Inv.newSrc (i : Inv hE hS s) : Inv hE (s.nsrc :: hS) (newSrc s) := by
  unfold Inv at i ⊢
  refine (Bal.newSrc i).congr (fun _ => rfl) fun z => ?_
  show inc _ _ _ = (srcsOf s.frames).count z + (s.timing.getD []).count z + _
  unfold inc
  rw [List.count_cons]
  by_cases q : z = s.nsrc
  · subst q; simp; omega
  · have q' : ¬ s.nsrc = z := fun e => q e.symm
    simp [q, q']

theorem Inv.newExe (i : Inv hE hS s) (h : y ∈ hS) : Inv (s.nexe :: hE) hS (newExe y s) := by
  have hc : (srcsOf s.frames).count y + (s.timing.getD []).count y + hS.count y ≠ 0 := by
    have := List.count_pos_iff.2 h
    omega
  unfold Inv at i ⊢
  rw [newExe_same.1, newExe_same.2.1, newExe_same.2.2.1]
  refine (Bal.newExe i hc).congr (fun z => ?_) fun _ => rfl
  unfold inc
  rw [List.count_cons]
  by_cases q : z = s.nexe
  · subst q; simp; omega
  · have q' : ¬ s.nexe = z := fun e => q e.symm
    simp [q, q']

theorem Inv.exeAlive (i : Inv hE hS s) (h : x ∈ exesOf s.frames ∨ x ∈ s.funs ∨ x ∈ hE) :
    (s.exes x).freed = 0 ∧ (s.srcs (s.exes x).src).freed = 0 ∧ x < s.nexe := by
  have hc : (exesOf s.frames).count x + s.funs.count x + hE.count x ≠ 0 := by
    rcases h with h | h | h <;> have := List.count_pos_iff.2 h <;> omega
  exact ⟨Bal.exeAlive i hc, Bal.srcOfExe i hc, Bal.exeLt i x hc⟩

theorem Inv.srcAlive (i : Inv hE hS s) (h : y ∈ srcsOf s.frames ∨ y ∈ s.timing.getD [] ∨ y ∈ hS) :
    (s.srcs y).freed = 0 := by
  have hc : (srcsOf s.frames).count y + (s.timing.getD []).count y + hS.count y ≠ 0 := by
    rcases h with h | h | h <;> have := List.count_pos_iff.2 h <;> omega
  exact Bal.srcAlive i hc

/-- What is held may be in any order, and held by whomever. -/
theorem Inv.move (i : Inv hE hS s) {hE' hS' : List Nat} {fr : List Frame} {fu : List Nat} {ti : Option (List Nat)}
    (h1 : ∀ x, (exesOf s.frames).count x + s.funs.count x + hE.count x = (exesOf fr).count x + fu.count x + hE'.count x)
    (h2 : ∀ y, (srcsOf s.frames).count y + (s.timing.getD []).count y + hS.count y =
      (srcsOf fr).count y + (ti.getD []).count y + hS'.count y) :
    Inv hE' hS' { s with frames := fr, funs := fu, timing := ti } :=
  (Bal.of i (t := { s with frames := fr, funs := fu, timing := ti }) rfl rfl rfl rfl rfl).congr h1 h2

theorem fetch_ok (i : Inv hE hS s) : fetch s = s := by
  unfold fetch
  split
  · rename_i x fs hf
    exact touchExe_ok (i.exeAlive (.inl (by rw [hf]; exact List.mem_cons_self))).1
  · rfl

/-- What is true after something was done from `s`. -/
structure Did (hE hS : List Nat) (s : St) (r : St × Bool) : Prop where
  inv : Inv hE hS r.1
  frames : ∃ ext, r.1.frames = ext ++ s.frames ∧ (r.2 = true → ext = []) ∧ (srcsOf ext).length ≤ 1
  arrays : r.1.arrays ≤ s.arrays + if r.2 then 0 else 1
  more : s.arrays ≤ r.1.arrays

theorem Did.same {t : St} (i : Inv hE hS t) (h : Same s t) (b : Bool) : Did hE hS s (t, b) :=
  ⟨i, ⟨[], h.1, fun _ => rfl, Nat.zero_le _⟩, by show t.arrays ≤ _; rw [h.2.2.2]; exact Nat.le_add_right _ _,
    by show _ ≤ t.arrays; rw [h.2.2.2]; exact Nat.le_refl _⟩

theorem popFrame_normal {fs : List Frame} (i : Inv hE hS s) (hf : s.frames = .normal x :: fs) :
    Inv hE hS (popFrame s).1 ∧ (popFrame s).2 = true ∧ (popFrame s).1.frames = fs ∧ (popFrame s).1.arrays = s.arrays := by
  unfold popFrame
  rw [hf]
  dsimp only
  have k : Inv (x :: hE) hS { s with frames := fs } := by
    refine Inv.move i (fu := s.funs) (ti := s.timing) (fun z => ?_) fun z => ?_
    · rw [hf]
      show (x :: exesOf fs).count z + _ + _ = _
      rw [List.count_cons, List.count_cons]
      omega
    · rw [hf]
      rfl
  exact ⟨k.exeFree, rfl, exeFree_same.1, exeFree_same.2.2.2⟩

theorem popFrame_native {fs : List Frame} (i : Inv hE hS s) (hf : s.frames = .native :: fs) :
    Inv hE hS (popFrame s).1 ∧ (popFrame s).2 = true ∧ (popFrame s).1.frames = fs ∧ (popFrame s).1.arrays = s.arrays := by
  unfold popFrame
  rw [hf]
  dsimp only
  refine ⟨?_, rfl, rfl, rfl⟩
  exact Inv.move i (fu := s.funs) (ti := s.timing) (fun z => by rw [hf]; rfl) (fun z => by rw [hf]; rfl)

theorem popFrame_failed {fs : List Frame} (i : Inv hE hS s) (hf : s.frames = .failed y :: fs) :
    Inv hE hS (popFrame s).1 ∧ (popFrame s).2 = true ∧ (popFrame s).1.frames = fs ∧ (popFrame s).1.arrays = s.arrays := by
  unfold popFrame
  rw [hf]
  dsimp only
  have k : Inv hE (y :: hS) { s with frames := fs } := by
    refine Inv.move i (fu := s.funs) (ti := s.timing) (fun z => ?_) fun z => ?_
    · rw [hf]
      rfl
    · rw [hf]
      show (y :: srcsOf fs).count z + _ + _ = _
      rw [List.count_cons, List.count_cons]
      omega
  exact ⟨k.srcFree, rfl, srcFree_same.1, srcFree_same.2.2.2⟩

/-- What a body must do. -/
def Good (body : St → St × Bool) : Prop := ∀ (hE hS : List Nat) (s : St), Inv hE hS s → Did hE hS s (body s)

theorem srcsOf_append (a b : List Frame) : srcsOf (a ++ b) = srcsOf a ++ srcsOf b := by
  induction a with
  | nil => rfl
  | cons f a ih => cases f <;> simp [srcsOf, ih]

theorem did_runAt {body : St → St × Bool} (g : Good body) (i : Inv hE hS s)
    (h : x ∈ exesOf s.frames ∨ x ∈ s.funs ∨ x ∈ hE) : Did hE hS s (runAt x body s) := by
  have k := i.exeCopy h
  have sm := exeCopy_same (x := x) (s := s)
  unfold runAt pushFrame
  dsimp only
  revert k sm
  generalize exeCopy x s = t
  intro k sm
  by_cases q : t.frames.length = maxFrames
  · rw [if_pos q]
    exact .same k.exeFree (sm.trans exeFree_same) false
  · rw [if_neg q]
    dsimp only
    have k2 : Inv hE hS { t with frames := .normal x :: t.frames } := by
      refine Inv.move k (fu := t.funs) (ti := t.timing) (fun z => ?_) fun z => rfl
      show _ = (x :: exesOf t.frames).count z + _ + _
      rw [List.count_cons, List.count_cons]
      omega
    have d := g _ _ _ k2
    revert d
    generalize body { t with frames := .normal x :: t.frames } = r
    intro d
    obtain ⟨u, ok⟩ := r
    obtain ⟨di, ⟨ext, df, dk, dl⟩, da, dm⟩ := d
    have ha : t.arrays = s.arrays := sm.2.2.2
    cases ok with
    | false =>
      refine ⟨di, ⟨ext ++ [.normal x], ?_, nofun, ?_⟩, ?_, ?_⟩
      · show u.frames = _
        rw [show u.frames = _ from df, ← sm.1]
        simp
      · rw [srcsOf_append]
        simpa [srcsOf] using dl
      · show u.arrays ≤ _
        rw [← ha]
        exact da
      · show _ ≤ u.arrays
        rw [← ha]
        exact dm
    | true =>
      have he := dk rfl
      subst he
      obtain ⟨p1, p2, p3, p4⟩ := popFrame_normal di df
      refine ⟨p1, ⟨[], p3.trans sm.1, fun _ => rfl, Nat.zero_le _⟩, ?_, ?_⟩
      · show (popFrame u).1.arrays ≤ s.arrays + if (popFrame u).2 = true then 0 else 1
        rw [p2, p4, ← ha]
        exact da
      · show s.arrays ≤ (popFrame u).1.arrays
        rw [p4, ← ha]
        exact dm

theorem Did.from {r : St × Bool} {t : St} (d : Did hE hS t r) (sm : Same s t) : Did hE hS s r := by
  obtain ⟨a, ⟨ext, b, c, e⟩, f, g⟩ := d
  refine ⟨a, ⟨ext, by rw [b, sm.1], c, e⟩, ?_, ?_⟩
  · rw [← sm.2.2.2]; exact f
  · rw [← sm.2.2.2]; exact g

theorem Did.then {u v : St} {ok : Bool} {hE' hS' : List Nat} (d : Did hE hS s (u, ok)) (i : Inv hE' hS' v) (sm : Same u v) :
    Did hE' hS' s (v, ok) := by
  obtain ⟨a, ⟨ext, b, c, e⟩, f, g⟩ := d
  refine ⟨i, ⟨ext, sm.1.trans b, c, e⟩, ?_, ?_⟩
  · show v.arrays ≤ _; rw [sm.2.2.2]; exact f
  · show _ ≤ v.arrays; rw [sm.2.2.2]; exact g

theorem did_runSource {body : St → St × Bool} (g : Good body) (i : Inv hE hS s) (h : y ∈ hS) (c : Bool) :
    Did hE hS s (runSource y c body s) := by
  unfold runSource
  cases c with
  | true =>
    rw [if_pos rfl]
    dsimp only
    have k := i.newExe h
    have hn : (newExe y s).nexe - 1 = s.nexe := by
      show (srcCopy y s).nexe + 1 - 1 = _
      show (touchSrc y s).nexe + 1 - 1 = _
      unfold touchSrc
      split <;> rfl
    rw [hn]
    have d := did_runAt g k (.inr (.inr List.mem_cons_self))
    revert d
    generalize runAt s.nexe body (newExe y s) = r
    intro d
    obtain ⟨u, ok⟩ := r
    exact (d.from newExe_same).then d.inv.exeFree exeFree_same
  | false =>
    rw [if_neg (by decide)]
    have k := i.srcCopy h
    have sm := srcCopy_same (y := y) (s := s)
    unfold pushFailed
    dsimp only
    revert k sm
    generalize srcCopy y s = t
    intro k sm
    by_cases q : t.frames.length = maxFrames
    · rw [if_pos q]
      exact .same k.srcFree (sm.trans srcFree_same) false
    · rw [if_neg q]
      refine ⟨?_, ⟨[.failed y], ?_, nofun, Nat.le_refl _⟩, ?_, ?_⟩
      · refine Inv.move k (fu := t.funs) (ti := t.timing) (fun z => rfl) fun z => ?_
        show _ = (y :: srcsOf t.frames).count z + _ + _
        rw [List.count_cons, List.count_cons]
        omega
      · show _ :: t.frames = _
        rw [sm.1]
        rfl
      · show t.arrays ≤ _
        rw [sm.2.2.2]
        exact Nat.le_add_right _ _
      · show _ ≤ t.arrays
        rw [sm.2.2.2]
        exact Nat.le_refl _

theorem did_runFile {body : St → St × Bool} (g : Good body) (i : Inv hE hS s) (r c : Bool) :
    Did hE hS s (runFile r c body s) := by
  unfold runFile
  cases r with
  | false => exact .same i ⟨rfl, rfl, rfl, rfl⟩ false
  | true =>
    rw [if_pos rfl]
    dsimp only
    rw [show (newSrc s).nsrc - 1 = s.nsrc from rfl]
    have d := did_runSource g i.newSrc (List.mem_cons_self) c
    revert d
    generalize runSource s.nsrc c body (newSrc s) = r
    intro d
    obtain ⟨u, ok⟩ := r
    exact (d.from newSrc_same).then d.inv.srcFree srcFree_same

theorem inv_define (i : Inv hE hS s) : Inv hE hS (define s) ∧ (define s).frames = s.frames ∧ (define s).arrays = s.arrays := by
  unfold define
  split
  · rename_i x fs hf
    have hx : x ∈ exesOf s.frames := by rw [hf]; exact List.mem_cons_self
    have k := i.exeCopy (.inl hx)
    have sm := exeCopy_same (x := x) (s := s)
    dsimp only
    revert k sm
    generalize exeCopy x s = t
    intro k sm
    have k2 : Inv hE hS { t with funs := x :: t.funs } := by
      refine Inv.move k (fr := t.frames) (ti := t.timing) (fun z => ?_) fun z => rfl
      rw [List.count_cons, List.count_cons]
      omega
    have hx2 : x ∈ exesOf t.frames := by rw [sm.1]; exact hx
    obtain ⟨a1, a2, a3⟩ := k2.exeAlive (.inl hx2)
    have hl : (t.exes x).src < t.nsrc := Bal.exeSrc k2 x a3
    have k3 := k2.srcCopy' (y := (t.exes x).src) hl a2
    have sm3 := srcCopy_same (y := (t.exes x).src) (s := { t with funs := x :: t.funs })
    have hsrc : ((srcCopy (t.exes x).src { t with funs := x :: t.funs }).exes x).src = (t.exes x).src := by
      unfold srcCopy touchSrc
      dsimp only
      split <;> rfl
    have ht1 := touchExe_ok (s := { t with funs := x :: t.funs }) a1
    split
    · exact ⟨k2, sm.1, sm.2.2.2⟩
    · rename_i l ht
      have ht : t.timing = some l := ht
      rw [ht1, hsrc]
      refine ⟨?_, sm3.1.trans sm.1, sm3.2.2.2.trans sm.2.2.2⟩
      revert k3 sm3
      generalize srcCopy (t.exes x).src { t with funs := x :: t.funs } = u
      intro k3 sm3
      refine Inv.move k3 (fr := u.frames) (fu := u.funs) (fun z => rfl) fun z => ?_
      have hu : u.timing = some l := sm3.2.2.1.trans ht
      rw [hu]
      show _ + l.count z + _ = _ + ((t.exes x).src :: l).count z + _
      rw [List.count_cons, List.count_cons]
      omega
  · exact ⟨i, rfl, rfl⟩

theorem sift_count : ∀ (bs : List Bool) (xs : List Nat) (z : Nat), xs.count z = (sift bs xs).1.count z + (sift bs xs).2.count z
  | [], xs, z => by simp [sift]
  | _ :: _, [], z => by simp [sift]
  | true :: bs, x :: xs, z => by
    simp only [sift, List.count_cons]
    have := sift_count bs xs z
    omega
  | false :: bs, x :: xs, z => by
    simp only [sift, List.count_cons]
    have := sift_count bs xs z
    omega

theorem inv_dropAll : ∀ {xs : List Nat} {s : St}, Inv (xs ++ hE) hS s → Inv hE hS (dropAll xs s) ∧ Same s (dropAll xs s)
  | [], s, i => ⟨i, rfl, rfl, rfl, rfl⟩
  | x :: xs, s, i =>
    have k := inv_dropAll (xs := xs) (Inv.exeFree (x := x) (hE := xs ++ hE) i)
    ⟨k.1, exeFree_same.trans k.2⟩

theorem inv_releaseAll : ∀ {ys : List Nat} {s : St}, Inv hE (ys ++ hS) s → Inv hE hS (releaseAll ys s) ∧ Same s (releaseAll ys s)
  | [], s, i => ⟨i, rfl, rfl, rfl, rfl⟩
  | y :: ys, s, i =>
    have k := inv_releaseAll (ys := ys) (Inv.srcFree (y := y) (hS := ys ++ hS) i)
    ⟨k.1, srcFree_same.trans k.2⟩

theorem inv_collect (i : Inv hE hS s) (keep : List Bool) :
    Inv hE hS (collect keep s) ∧ (collect keep s).frames = s.frames ∧ (collect keep s).arrays = s.arrays := by
  unfold collect
  have k : Inv ((sift keep s.funs).2 ++ hE) hS { s with funs := (sift keep s.funs).1 } := by
    refine Inv.move i (fr := s.frames) (ti := s.timing) (fun z => ?_) fun z => rfl
    rw [List.count_append, sift_count keep s.funs z]
    omega
  obtain ⟨a, b⟩ := inv_dropAll k
  exact ⟨a, b.1, b.2.2.2⟩

mutual
theorem did_exec : ∀ (a : Act), Good (exec a)
  | .define => fun hE hS s i => by
    show Did hE hS s (define (fetch s), true)
    rw [fetch_ok i]
    obtain ⟨a, b, c⟩ := inv_define i
    exact ⟨a, ⟨[], b, fun _ => rfl, Nat.zero_le _⟩, by show _ ≤ _; rw [show (define s, true).1.arrays = _ from c]; exact Nat.le_refl _,
      by rw [show (define s, true).1.arrays = _ from c]; exact Nat.le_refl _⟩
  | .call f missing body => fun hE hS s i => by
    unfold exec
    dsimp only
    rw [fetch_ok i]
    cases hf : s.funs[f]? with
    | none => exact .same i ⟨rfl, rfl, rfl, rfl⟩ false
    | some x =>
      dsimp only
      have hx : x ∈ (allocIf missing s).funs := by
        have := List.mem_of_getElem? hf
        cases missing <;> exact this
      have d := did_runAt (did_execs body) (i.allocIf missing) (.inr (.inl hx))
      revert d
      generalize runAt x (execs body) (allocIf missing s) = r
      intro d
      obtain ⟨u, ok⟩ := r
      obtain ⟨di, ⟨ext, df, dk, dl⟩, da, dm⟩ := d
      refine ⟨di.freeIf missing, ⟨ext, ?_, dk, dl⟩, ?_, ?_⟩
      · show (freeIf missing u).frames = _
        cases missing <;> exact df
      · show (freeIf missing u).arrays ≤ _
        have da' : u.arrays ≤ (allocIf missing s).arrays + if ok = true then 0 else 1 := da
        cases missing with
        | false => exact da'
        | true =>
          have da' : u.arrays ≤ (s.arrays + 1) + if ok = true then 0 else 1 := da
          show u.arrays - 1 ≤ s.arrays + if ok = true then 0 else 1
          omega
      · show _ ≤ (freeIf missing u).arrays
        have dm' : (allocIf missing s).arrays ≤ u.arrays := dm
        cases missing with
        | false => exact dm'
        | true =>
          have dm' : s.arrays + 1 ≤ u.arrays := dm
          show s.arrays ≤ u.arrays - 1
          omega
  | .native missing body => fun hE hS s i => by
    unfold exec
    dsimp only
    rw [fetch_ok i]
    have k := i.allocIf missing
    have e1 : (allocIf missing s).frames = s.frames := by cases missing <;> rfl
    by_cases q : (allocIf missing s).frames.length = maxFrames
    · rw [if_pos q]
      refine ⟨k, ⟨[], e1, fun _ => rfl, Nat.zero_le _⟩, ?_, ?_⟩
      · show (allocIf missing s).arrays ≤ s.arrays + 1
        cases missing
        · exact Nat.le_succ _
        · exact Nat.le_refl _
      · show _ ≤ (allocIf missing s).arrays
        cases missing
        · exact Nat.le_refl _
        · exact Nat.le_succ _
    · rw [if_neg q]
      have k2 : Inv hE hS { allocIf missing s with frames := .native :: (allocIf missing s).frames } :=
        Inv.move k (fu := (allocIf missing s).funs) (ti := (allocIf missing s).timing) (fun z => rfl) fun z => rfl
      have d := did_execs body _ _ _ k2
      revert d
      generalize execs body { allocIf missing s with frames := .native :: (allocIf missing s).frames } = r
      intro d
      obtain ⟨u, ok⟩ := r
      obtain ⟨di, ⟨ext, df, dk, dl⟩, da, dm⟩ := d
      have hfr : (freeIf missing u).frames = u.frames := by cases missing <;> rfl
      have ha : (freeIf missing u).arrays ≤ s.arrays + if ok = true then 0 else 1 := by
        have da' : u.arrays ≤ (allocIf missing s).arrays + if ok = true then 0 else 1 := da
        cases missing with
        | false => exact da'
        | true =>
          have da' : u.arrays ≤ (s.arrays + 1) + if ok = true then 0 else 1 := da
          show u.arrays - 1 ≤ s.arrays + if ok = true then 0 else 1
          omega
      have hm : s.arrays ≤ (freeIf missing u).arrays := by
        have dm' : (allocIf missing s).arrays ≤ u.arrays := dm
        cases missing with
        | false => exact dm'
        | true =>
          have dm' : s.arrays + 1 ≤ u.arrays := dm
          show s.arrays ≤ u.arrays - 1
          omega
      have df' : u.frames = ext ++ .native :: s.frames := by
        rw [← e1]
        exact df
      cases ok with
      | false =>
        dsimp only
        rw [if_neg (by decide)]
        refine ⟨di.freeIf missing, ⟨ext ++ [.native], ?_, nofun, ?_⟩, ha, hm⟩
        · show (freeIf missing u).frames = _
          rw [hfr, df']
          simp
        · rw [srcsOf_append]
          simpa [srcsOf] using dl
      | true =>
        have he := dk rfl
        subst he
        dsimp only
        rw [if_pos rfl]
        obtain ⟨p1, p2, p3, p4⟩ := popFrame_native (di.freeIf missing) (hfr.trans df')
        refine ⟨p1, ⟨[], p3, fun _ => rfl, Nat.zero_le _⟩, ?_, ?_⟩
        · rw [p2, p4]
          exact ha
        · rw [p4]
          exact hm
  | .import r c body => fun hE hS s i => by
    unfold exec
    rw [fetch_ok i]
    exact did_runFile (did_execs body) i r c
  | .collect keep => fun hE hS s i => by
    unfold exec
    rw [fetch_ok i]
    obtain ⟨a, b, c⟩ := inv_collect i keep
    exact ⟨a, ⟨[], b, fun _ => rfl, Nat.zero_le _⟩, by rw [show (collect keep s, true).1.arrays = _ from c]; exact Nat.le_refl _,
      by rw [show (collect keep s, true).1.arrays = _ from c]; exact Nat.le_refl _⟩
  | .fail => fun hE hS s i => by
    unfold exec
    rw [fetch_ok i]
    exact .same i ⟨rfl, rfl, rfl, rfl⟩ false
theorem did_execs : ∀ (as : Acts), Good (execs as)
  | .nil => fun hE hS s i => by
    unfold execs
    rw [fetch_ok i]
    exact .same i ⟨rfl, rfl, rfl, rfl⟩ true
  | .cons a as => fun hE hS s i => by
    unfold execs
    have d := did_exec a _ _ _ i
    revert d
    generalize exec a s = r
    intro d
    obtain ⟨u, ok⟩ := r
    cases ok with
    | false => exact d
    | true =>
      obtain ⟨di, ⟨ext, df, dk, dl⟩, da, dm⟩ := d
      have he := dk rfl
      subst he
      obtain ⟨a1, ⟨ext, a2, a3, a4⟩, a5, a6⟩ := did_execs as _ _ _ di
      have df' : u.frames = s.frames := df
      refine ⟨a1, ⟨ext, by rw [a2]; exact congrArg _ df', a3, a4⟩, Nat.le_trans a5 ?_, Nat.le_trans dm a6⟩
      exact Nat.add_le_add_right da _
end

theorem trace_ok : ∀ {fs : List Frame}, Inv hE hS s → (∀ x ∈ exesOf fs, x ∈ exesOf s.frames) → (∀ y ∈ srcsOf fs, y ∈ srcsOf s.frames) →
    trace fs s = s
  | [], _, _, _ => rfl
  | .normal x :: fs, i, h1, h2 => by
    obtain ⟨a, b, c⟩ := i.exeAlive (.inl (h1 x List.mem_cons_self))
    unfold trace
    rw [touchExe_ok a, touchSrc_ok b]
    exact trace_ok i (fun z hz => h1 z (List.mem_cons_of_mem _ hz)) h2
  | .native :: fs, i, h1, h2 => trace_ok (fs := fs) i h1 h2
  | .failed y :: fs, i, h1, h2 => by
    unfold trace
    rw [touchSrc_ok (i.srcAlive (.inl (h2 y List.mem_cons_self)))]
    exact trace_ok i h1 (fun z hz => h2 z (List.mem_cons_of_mem _ hz))

theorem profile_ok : ∀ {ys : List Nat}, Inv hE hS s → (∀ y ∈ ys, y ∈ s.timing.getD []) → profile ys s = s
  | [], _, _ => rfl
  | y :: ys, i, h => by
    unfold profile
    rw [touchSrc_ok (i.srcAlive (.inr (.inl (h y List.mem_cons_self))))]
    exact profile_ok i (fun z hz => h z (List.mem_cons_of_mem _ hz))

theorem inv_popAll : ∀ {n : Nat} {s : St}, Inv hE hS s → s.frames.length = n →
    Inv hE hS (popAll n s) ∧ (popAll n s).frames = [] ∧ (popAll n s).arrays = s.arrays
  | 0, s, i, h => ⟨i, List.length_eq_zero_iff.1 h, rfl⟩
  | n + 1, s, i, h => by
    have key : Inv hE hS (popFrame s).1 ∧ (popFrame s).1.frames.length = n ∧ (popFrame s).1.arrays = s.arrays := by
      cases hf : s.frames with
      | nil => rw [hf] at h; cases h
      | cons f fs =>
        rw [hf] at h
        have hl : fs.length = n := Nat.succ.inj h
        cases f with
        | normal x => obtain ⟨a, b, c, d⟩ := popFrame_normal i hf; exact ⟨a, by rw [c]; exact hl, d⟩
        | native => obtain ⟨a, b, c, d⟩ := popFrame_native i hf; exact ⟨a, by rw [c]; exact hl, d⟩
        | failed y => obtain ⟨a, b, c, d⟩ := popFrame_failed i hf; exact ⟨a, by rw [c]; exact hl, d⟩
    obtain ⟨a, b, c⟩ := inv_popAll key.1 key.2.1
    exact ⟨a, b, c.trans key.2.2⟩

theorem clean_free (i : Inv [] [] s) : Clean (runtimeFree s) ∧ (runtimeFree s).arrays = s.arrays := by
  unfold runtimeFree
  obtain ⟨a, b, c⟩ := inv_popAll i rfl
  dsimp only
  revert a b c
  generalize popAll s.frames.length s = t
  intro a b c
  have k : Inv [] (t.timing.getD [] ++ []) { t with timing := none } := by
    refine Inv.move a (fr := t.frames) (fu := t.funs) (fun z => rfl) fun z => ?_
    simp
  obtain ⟨k1, k2⟩ := inv_releaseAll k
  revert k1 k2
  generalize releaseAll (t.timing.getD []) { t with timing := none } = u
  intro k1 k2
  have m : Inv (u.funs ++ []) [] { u with funs := [] } := by
    refine Inv.move k1 (fr := u.frames) (ti := u.timing) (fun z => ?_) fun z => rfl
    simp
  obtain ⟨m1, m2⟩ := inv_dropAll m
  revert m1 m2
  generalize dropAll u.funs { u with funs := [] } = v
  intro m1 m2
  have e1 : v.frames = [] := m2.1.trans (k2.1.trans b)
  have e2 : v.funs = [] := m2.2.1
  have e3 : v.timing = none := m2.2.2.1.trans k2.2.2.1
  unfold Inv at m1
  rw [e1, e2, e3] at m1
  have hx : ∀ x, x < v.nexe → (v.exes x).freed = 1 := fun x hx => by
    rw [(m1.exe x hx).2]
    exact if_pos (by simp [exesOf])
  refine ⟨⟨m1.ok, e1, hx, fun y hy => ?_⟩, m2.2.2.2.trans (k2.2.2.2.trans c)⟩
  obtain ⟨l, hn, hm, hl⟩ := m1.live
  have hnil : l = [] := by
    cases l with
    | nil => rfl
    | cons w l =>
      obtain ⟨w1, w2⟩ := (hm w).1 List.mem_cons_self
      rw [hx w w1] at w2
      cases w2
  subst hnil
  rw [m1.src y hy, hl y hy]
  exact if_pos (by simp [srcsOf])

theorem inv_start (time : Bool) : Inv [] [] (start time) := by
  have ht : (start time).timing.getD [] = [] := by cases time <;> rfl
  unfold Inv
  rw [ht]
  constructor
  · exact ⟨[], List.nodup_nil, fun x => ⟨nofun, fun h => absurd h.1 (Nat.not_lt_zero _)⟩, fun y hy => absurd hy (Nat.not_lt_zero _)⟩
  · exact fun x hx => absurd hx (Nat.not_lt_zero _)
  · exact fun x hx => absurd hx (Nat.not_lt_zero _)
  · exact fun x hx => absurd rfl hx
  · exact fun x hx => absurd rfl hx
  · exact fun x hx => absurd hx (Nat.not_lt_zero _)
  · rfl

theorem did_running (time : Bool) (prelude program : Prog) : Did [] [] (start time) (running time prelude program) := by
  unfold running
  have d := did_runFile (did_execs prelude.body) (inv_start time) prelude.readable prelude.compiles
  revert d
  generalize runFile prelude.readable prelude.compiles (execs prelude.body) (start time) = r
  intro d
  obtain ⟨s, ok⟩ := r
  cases ok with
  | false =>
    dsimp only
    rw [trace_ok d.inv (fun _ h => h) fun _ h => h]
    exact d
  | true =>
    dsimp only
    obtain ⟨di, ⟨ext, df, dk, dl⟩, da, dm⟩ := d
    have he := dk rfl
    subst he
    have d2 := did_runFile (did_execs program.body) di program.readable program.compiles
    have d2 : Did [] [] (start time) (runFile program.readable program.compiles (execs program.body) s) := by
      obtain ⟨a1, ⟨ext, a2, a3, a4⟩, a5, a6⟩ := d2
      have df' : s.frames = (start time).frames := df
      exact ⟨a1, ⟨ext, by rw [a2]; exact congrArg _ df', a3, a4⟩, Nat.le_trans a5 (Nat.add_le_add_right da _), Nat.le_trans dm a6⟩
    revert d2
    generalize runFile program.readable program.compiles (execs program.body) s = r
    intro d2
    obtain ⟨u, ok⟩ := r
    cases ok with
    | false =>
      dsimp only
      rw [trace_ok d2.inv (fun _ h => h) fun _ h => h]
      exact d2
    | true =>
      dsimp only
      rw [profile_ok d2.inv fun _ h => h]
      exact d2

/-- **C103**, in part: in every session no source and no executable is used after it was freed, and in
the end each was freed exactly once.  The array for missing arguments of a call is freed too, unless a
native function is refused because calls are nested too deep; then one such array is lost, and if
nothing fails, none.  (Missing: that it is freed then; `C103_violated`.) -/
theorem C103_partial (time : Bool) (prelude program : Prog) :
    Clean (session time prelude program) ∧ (session time prelude program).arrays ≤ 1 ∧
    ((running time prelude program).2 = true → (session time prelude program).arrays = 0) := by
  have d := did_running time prelude program
  obtain ⟨c, e⟩ := clean_free d.inv
  have h0 : (start time).arrays = 0 := rfl
  have h := d.arrays
  rw [h0] at h
  unfold session
  refine ⟨c, ?_, fun hk => ?_⟩
  · rw [e]
    split at h <;> omega
  · rw [e]
    rw [if_pos hk] at h
    omega

/-- At most one frame of a file that was not compiled is ever there: the one structure that the
runtime has for it is enough. -/
theorem C103_one_failed (time : Bool) (prelude program : Prog) :
    (srcsOf (running time prelude program).1.frames).length ≤ 1 := by
  obtain ⟨-, ⟨ext, df, -, dl⟩, -, -⟩ := did_running time prelude program
  rw [df]
  simpa [show (start time).frames = [] from rfl] using dl

/-- A program that makes a function, calls it (there another is made, garbage is collected, and a file is
imported that makes a function) and calls what is left; and then imports a file that does not compile. -/
def busy : Prog :=
  ⟨true, true, .cons .define (.cons (.call 0 true (.cons .define (.cons (.collect [true, false])
    (.cons (.native false (.cons (.import true true (.cons .define .nil)) .nil)) .nil)))) (.cons (.call 0 false .nil)
    (.cons (.native true (.cons (.import true false .nil) .nil)) .nil)))⟩

example : (running true ⟨true, true, .cons .define .nil⟩ busy).2 = false ∧
    (running true ⟨true, true, .cons .define .nil⟩ busy).1.frames = [.failed 3, .native, .normal 1] ∧
    (running true ⟨true, true, .cons .define .nil⟩ busy).1.funs = [2, 1, 0] ∧
    (running true ⟨true, true, .cons .define .nil⟩ busy).1.timing = some [2, 1, 1, 0] ∧
    (running true ⟨true, true, .cons .define .nil⟩ busy).1.nexe = 3 ∧ (running true ⟨true, true, .cons .define .nil⟩ busy).1.nsrc = 4 := by decide +kernel

/-- A function that calls itself so often, and then a native function without its argument. -/
def deep : Nat → Acts
  | 0 => .cons (.native true .nil) .nil
  | n + 1 => .cons (.call 0 false (deep n)) .nil

theorem deep_lost : ∀ (n : Nat) {s : St}, s.funs ≠ [] → s.frames.length + n = maxFrames →
    (execs (deep n) s).1.arrays = s.arrays + 1 ∧ (execs (deep n) s).2 = false
  | 0, s, _, hl => by
    have sm : Same s (fetch s) := by
      unfold fetch
      split
      · exact touchExe_same
      · exact ⟨rfl, rfl, rfl, rfl⟩
    unfold deep execs exec
    dsimp only
    revert sm
    generalize fetch s = t
    intro sm
    have q : (allocIf true t).frames.length = maxFrames := by
      show t.frames.length = _
      rw [sm.1]
      exact hl
    rw [if_pos q]
    exact ⟨by show t.arrays + 1 = _; rw [sm.2.2.2], rfl⟩
  | n + 1, s, hn, hl => by
    have sm : Same s (fetch s) := by
      unfold fetch
      split
      · exact touchExe_same
      · exact ⟨rfl, rfl, rfl, rfl⟩
    obtain ⟨x, xs, hx⟩ := List.exists_cons_of_ne_nil hn
    have key : ∀ t, Same s t → (runAt x (execs (deep n)) t).1.arrays = s.arrays + 1 ∧ (runAt x (execs (deep n)) t).2 = false := by
      intro t sm
      have sm2 := sm.trans (exeCopy_same (x := x) (s := t))
      unfold runAt pushFrame
      dsimp only
      revert sm2
      generalize exeCopy x t = u
      intro sm2
      rw [if_neg (show ¬ u.frames.length = maxFrames by rw [sm2.1]; omega)]
      dsimp only
      have k := deep_lost n (s := { u with frames := .normal x :: u.frames }) (by show u.funs ≠ []; rw [sm2.2.1]; exact hn)
        (by show u.frames.length + 1 + n = _; rw [sm2.1]; omega)
      revert k
      generalize execs (deep n) { u with frames := .normal x :: u.frames } = r
      intro k
      obtain ⟨v, ok⟩ := r
      obtain ⟨k1, k2⟩ := k
      have k2 : ok = false := k2
      subst k2
      exact ⟨k1.trans (congrArg (· + 1) sm2.2.2.2), rfl⟩
    have k := key _ sm
    unfold deep execs exec
    dsimp only
    rw [show (fetch s).funs[0]? = some x by rw [sm.2.1, hx]; rfl]
    dsimp only
    have e : allocIf false (fetch s) = fetch s := rfl
    rw [e]
    revert k
    generalize runAt x (execs (deep n)) (fetch s) = r
    intro k
    obtain ⟨v, ok⟩ := r
    obtain ⟨k1, k2⟩ := k
    have k2 : ok = false := k2
    subst k2
    exact ⟨k1, rfl⟩

theorem fetch_same : Same s (fetch s) := by
  unfold fetch
  split
  · exact touchExe_same
  · exact ⟨rfl, rfl, rfl, rfl⟩

theorem define_lost (hf : s.frames = [.normal x]) :
    (execs (.cons .define (deep 15)) s).1.arrays = s.arrays + 1 ∧ (execs (.cons .define (deep 15)) s).2 = false := by
  have sm := fetch_same (s := s)
  have e : execs (.cons .define (deep 15)) s = execs (deep 15) (define (fetch s)) := rfl
  rw [e]
  have key : (define (fetch s)).funs ≠ [] ∧ (define (fetch s)).frames = [.normal x] ∧ (define (fetch s)).arrays = s.arrays := by
    have hf2 : (fetch s).frames = [.normal x] := sm.1.trans hf
    have ha : (fetch s).arrays = s.arrays := sm.2.2.2
    revert hf2 ha
    generalize fetch s = t
    intro hf2 ha
    unfold define
    rw [hf2]
    dsimp only
    have sm2 := exeCopy_same (x := x) (s := t)
    revert sm2
    generalize exeCopy x t = u
    intro sm2
    have g1 : u.frames = [.normal x] := sm2.1.trans hf2
    have g2 : u.arrays = s.arrays := sm2.2.2.2.trans ha
    split
    · exact ⟨nofun, g1, g2⟩
    · have sm3 := (touchExe_same (x := x) (s := { u with funs := x :: u.funs })).trans
        (srcCopy_same (y := (u.exes x).src) (s := touchExe x { u with funs := x :: u.funs }))
      refine ⟨?_, sm3.1.trans g1, sm3.2.2.2.trans g2⟩
      show (srcCopy (u.exes x).src (touchExe x { u with funs := x :: u.funs })).funs ≠ []
      rw [sm3.2.1]
      exact nofun
  have k := deep_lost 15 key.1 (by rw [key.2.1]; rfl)
  rw [key.2.2] at k
  exact k

theorem file_lost (hf : s.frames = []) :
    (runFile true true (execs (.cons .define (deep 15))) s).1.arrays = s.arrays + 1 := by
  unfold runFile runSource
  rw [if_pos rfl]
  dsimp only
  rw [if_pos rfl]
  show (srcFree _ (exeFree _ _)).arrays = _
  rw [srcFree_same.2.2.2, exeFree_same.2.2.2]
  have sm := ((newSrc_same (s := s)).trans (newExe_same (y := (newSrc s).nsrc - 1) (s := newSrc s)))
  revert sm
  generalize newExe ((newSrc s).nsrc - 1) (newSrc s) = t
  intro sm
  generalize t.nexe - 1 = z
  have sm2 := sm.trans (exeCopy_same (x := z) (s := t))
  unfold runAt pushFrame
  dsimp only
  revert sm2
  generalize exeCopy z t = u
  intro sm2
  have hu : u.frames = [] := sm2.1.trans hf
  rw [if_neg (show ¬ u.frames.length = maxFrames by rw [hu]; decide)]
  dsimp only
  have k := define_lost (s := { u with frames := .normal z :: u.frames }) (x := z) (by rw [hu])
  revert k
  generalize execs (.cons .define (deep 15)) { u with frames := .normal z :: u.frames } = r
  intro k
  obtain ⟨v, ok⟩ := r
  obtain ⟨k1, k2⟩ := k
  have k2 : ok = false := k2
  subst k2
  exact k1.trans (congrArg (· + 1) sm2.2.2.2)

/-- **C103** does not hold: sixteen nested calls, the last one of a native function without its argument. -/
theorem C103_violated : ¬ C103Statement := by
  intro h
  have h1 := (h false ⟨true, true, .nil⟩ ⟨true, true, .cons .define (deep 15)⟩).2
  have e := (clean_free (did_running false ⟨true, true, .nil⟩ ⟨true, true, .cons .define (deep 15)⟩).inv).2
  have h2 : (running false ⟨true, true, .nil⟩ ⟨true, true, .cons .define (deep 15)⟩).1.arrays = 1 := by
    have d := did_runFile (did_execs .nil) (inv_start false) true true
    have ok : (runFile true true (execs .nil) (start false)).2 = true := by decide +kernel
    have i2 := did_running false ⟨true, true, .nil⟩ ⟨true, true, .cons .define (deep 15)⟩
    unfold running at i2 ⊢
    dsimp only at i2 ⊢
    revert d ok i2
    generalize runFile true true (execs .nil) (start false) = r
    obtain ⟨s, ok⟩ := r
    intro d hk
    have hk : ok = true := hk
    subst hk
    dsimp only
    obtain ⟨di, ⟨ext, df, dk, -⟩, da, dm⟩ := d
    have he := dk rfl
    subst he
    have hf : s.frames = [] := df
    have ha : s.arrays = 0 := Nat.le_zero.1 da
    have k := file_lost hf
    have d3 := did_runFile (did_execs (.cons .define (deep 15))) di true true
    revert k d3
    generalize runFile true true (execs (.cons .define (deep 15))) s = r
    obtain ⟨u, ok⟩ := r
    intro k d3 i2
    cases ok with
    | true =>
      have := d3.arrays
      rw [k, ha] at this
      exact absurd (show 0 + 1 ≤ 0 + 0 from this) (by decide)
    | false =>
      dsimp only
      rw [trace_ok d3.inv (fun _ h => h) fun _ h => h]
      rw [show u.arrays = _ from k, ha]
  unfold session at h1
  rw [e, h2] at h1
  cases h1

end Noja.Ledger
