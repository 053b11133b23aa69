import Verif.VM.Scope
import Verif.VM.Depth
import Verif.VM.Sim
import Verif.VM.Nested

/-!
# Examples for the theorems about running machines

One program, run by the model on the objects of `Verif.VM.Objects`:

    fun f(a, b = 2) { fun g() return a; return b, g(); }
    x, y = f(7);
    return y, x;
-/

set_option linter.unusedVariables false

namespace Noja.VM.Demo

open Noja.VM

def config : Config where
  hit _ _ := true
  arith := ⟨fun _ x _ => x⟩
  fuel := 8
  builtins := none
  slot _ _ := none
  native _ _ w := .ok w (.done [])
  selectX _ _ w := .ok { w with err := true } none
  insertX _ _ _ _ w := .err w

def L : Layer World := objects config

def world : World := ⟨[], false, fun _ => none, fun _ => none, fun _ => none, fun _ => 0, []⟩

def a : Name := [97]
def b : Name := [98]
def f : Name := [102]
def g : Name := [103]
def x : Name := [120]
def y : Name := [121]

def prog : Stmts :=
  .cons (.func f (.mk (.cons b (.yes (.int 2)) .no (.cons a .no .no .nil))
    (.comp (.cons (.func g (.mk .nil (.ret (.cons (.ident a) .nil))))
      (.cons (.ret (.cons (.ident b) (.cons (.call (.fn (.ident g) .nil)) .nil))) .nil)))))
  (.cons (.expr (.massign (.var x) (.one (.var y)) (.fn (.ident f) (.cons (.int 7) .nil))))
  (.cons (.ret (.cons (.ident y) (.cons (.ident x) .nil))) .nil))

theorem prog_wf : prog.wf false = true := by decide

def s₀ : St World := ⟨world, fun _ => none, [compile prog], [], []⟩

/-- The state after a number of steps. -/
def after (n : Nat) : Option (St World) :=
  match boot L 100 0 s₀ with
  | .run s =>
    match runN L 100 n s with
    | .run s => some s
    | _ => none
  | _ => none

/-- What the program returns, as integers. -/
def answer (n : Nat) : Option (List (Option Int)) :=
  match boot L 100 0 s₀ with
  | .run s =>
    match runN L 100 n s with
    | .done vs s => some (vs.map (intKey s.w.heap))
    | _ => none
  | _ => none

example : answer 60 = some [some 7, some 2] := by decide +kernel

/-! ## The hypotheses of the theorems hold for it -/

def isRun : Status World → Bool
  | .run _ => true
  | _ => false

def get : Status World → St World
  | .run s => s
  | _ => s₀

theorem run_get {x : Status World} (h : isRun x = true) : x = .run (get x) := by
  cases x with
  | run s => rfl
  | _ => cases h

def s₁ : St World := get (boot L 100 0 s₀)

theorem boots : boot L 100 0 s₀ = .run s₁ := run_get (by decide +kernel)

def at' (n : Nat) : St World := get (runN L 100 n s₁)

def top (s : St World) : Option NFrame :=
  match s.frames with
  | .normal f :: _ => some f
  | _ => none

theorem top_eq {s : St World} {f : NFrame} (h : top s = some f) : ∃ fs, s.frames = .normal f :: fs := by
  unfold top at h
  split at h
  · rename_i g fs hg
    cases h
    exact ⟨fs, hg⟩
  · cases h

theorem compiled : Compiled s₀.exes := by
  intro e code h
  have := List.mem_of_getElem? h
  simp only [s₀, List.mem_singleton] at this
  exact ⟨prog, prog_wf, this⟩

/-- C35: three frames at this moment, with a value waiting in one that is not the innermost. -/
example : s₀.frames = [] ∧ s₀.stack.length ≤ 100 ∧ isRun (exec L 100 (fun _ => false) 24 0 s₁) = true ∧
    (get (exec L 100 (fun _ => false) 24 0 s₁)).frames.map Frame.used = [0, 1, 0] :=
  ⟨rfl, by decide, by decide +kernel, by decide +kernel⟩

/-- C36: a call, and the middle of it, and its end. -/
example : ∃ s g fs t t', s₀.frames = [] ∧ boot L 100 0 s₀ = .run s₁ ∧ runN L 100 6 s₁ = .run s ∧
    s.frames = .normal g :: fs ∧ fetch s.exes g.exe g.idx = some (.call 1 2) ∧
    runN L 100 18 s = .run t ∧ t.frames.length = 3 ∧
    runN L 100 21 s = .run t' ∧ t'.frames.length = 1 := by
  obtain ⟨fs, hfs⟩ := top_eq (s := at' 6) (f := ((top (at' 6)).getD ⟨0, 0, 0, none, 0, 0⟩)) (by decide +kernel)
  exact ⟨at' 6, _, fs, get (runN L 100 18 (at' 6)), get (runN L 100 21 (at' 6)), rfl, boots,
    run_get (by decide +kernel), hfs, by decide +kernel, run_get (by decide +kernel), by decide +kernel,
    run_get (by decide +kernel), by decide +kernel⟩

/-- C37: run by functions calling each other, which need two levels of them; the results are the same
integers, and with a fuel of one the functions do not end. -/
example : s₀.frames = [] ∧ (match runTop L 100 (fun _ => false) 60 0 s₀ with
      | .ok vs _ s => decide (vs.map (intKey s.w.heap) = [some 7, some 2])
      | _ => false) = true ∧
    (match runTop L 100 (fun _ => false) 1 0 s₀ with | .more => true | _ => false) = true :=
  ⟨rfl, by decide +kernel, by decide +kernel⟩

/-- C40, C41: the program, in the middle of a call. -/
example : s₀.frames = [] ∧ (∀ r, s₀.funcs r = none) ∧ Compiled s₀.exes ∧ 0 < s₀.exes.length ∧
    boot L 100 0 s₀ = .run s₁ ∧ runN L 100 24 s₁ = .run (at' 24) :=
  ⟨rfl, fun _ => rfl, compiled, by decide, boots, run_get (by decide +kernel)⟩

/-- Ways through the code: the call of `f` is reached with two values, and so is the instruction
after the test for a missing argument, in two ways. -/
example : Path (compile prog) 28 2 ∧ Path (compile prog) 8 2 := by
  constructor
  · have h := Path.start (code := compile prog)
    have h := Path.step (t := 1) h (ins := .pushFun 2 2 f) rfl (by decide)
    have h := Path.step (t := 24) h (ins := .jump 24) rfl (by decide)
    have h := Path.step (t := 25) h (ins := .ass f) rfl (by decide)
    have h := Path.step (t := 26) h (ins := .pop 1) rfl (by decide)
    have h := Path.step (t := 27) h (ins := .pushInt 7) rfl (by decide)
    exact Path.step (t := 28) h (ins := .pushVar f) rfl (by decide)
  · have h := Path.entry (code := compile prog) (j := 0) (ins := .pushFun 2 2 f) rfl rfl
    have h := Path.step (t := 3) h (ins := .pushTyp) rfl (by decide)
    have h := Path.step (t := 4) h (ins := .pushNneTyp) rfl (by decide)
    have h := Path.step (t := 5) h (ins := .bin .eql) rfl (by decide)
    exact Path.step (t := 8) h (ins := .jumpIfNot 8) rfl (by decide)

/-- C42: the layer is lawful, no functions exist yet, and the program has a meaning. -/
example : L.Lawful ∧ Rel [] (fun _ => none) (fun _ => none) ∧
    (match prog.mean L 5 ⟨world, fun _ => none⟩ with
      | .ok s vs => decide (vs.map (intKey s.w.heap) = [some 7, some 2])
      | _ => false) = true :=
  ⟨objects_lawful _, fun _ => trivial, by decide +kernel⟩

/-! C33: the state in which `g` is about to read `a`, which is a variable of `f`. -/

/-- Keys that are names, by computation. -/
def names (h : Graph.Heap) (es : List (Nat × Nat)) : Bool :=
  es.all fun e =>
    match h[e.1]? with
    | some (.str s) =>
      match Str.fromString s.body s.bytes with
      | .ok t => decide (t = s) && !(s.body.take s.bytes).contains 0
      | _ => false
    | _ => false

theorem names_sound {h : Graph.Heap} {es : List (Nat × Nat)} (hn : names h es = true) : NameKeys h es := by
  intro e he
  have := List.all_eq_true.1 hn e he
  revert this
  cases hk : h[e.1]? with
  | none => intro h; cases h
  | some o =>
    cases o with
    | str s =>
      dsimp only
      cases hs : Str.fromString s.body s.bytes with
      | ok t =>
        simp only [Bool.and_eq_true, decide_eq_true_eq, Bool.not_eq_true', List.contains_eq_mem, decide_eq_false_iff_not]
        rintro ⟨rfl, hz⟩
        exact ⟨_, t, t.body, t.bytes, hk, hs, rfl, hz⟩
      | _ => intro h; cases h
    | _ => intro h; cases h

def mapAt (s : St World) (r : Nat) : List (Nat × Nat) :=
  match s.w.heap[r]? with
  | some (.map es) => es
  | _ => []

theorem scope_of {s : St World} {r : Nat} (h : s.w.heap[r]? = some (.map (mapAt s r)))
    (hn : names s.w.heap (mapAt s r) = true) : Scopes s.w r [r] := .map h (names_sound hn)

def theFrame : NFrame := (top (at' 24)).getD ⟨0, 0, 0, none, 0, 0⟩

def isMap (s : St World) (r : Nat) : Bool :=
  match s.w.heap[r]? with
  | some (.map _) => true
  | _ => false

theorem isMap_eq {s : St World} {r : Nat} (h : isMap s r = true) : s.w.heap[r]? = some (.map (mapAt s r)) := by
  unfold isMap at h
  unfold mapAt
  split at h
  · rename_i es he
    simp [he]
  · cases h

theorem scopes24 : Scopes (at' 24).w 36 [36] ∧ OScopes (at' 24).w (some 31) [27, 21] := by
  have m : ∀ r, isMap (at' 24) r = true → names (at' 24).w.heap (mapAt (at' 24) r) = true →
      Scopes (at' 24).w r [r] := fun r h hn => scope_of (isMap_eq h) hn
  refine ⟨m 36 (by decide +kernel) (by decide +kernel), ?_⟩
  refine Scopes.more (c := 31) (p := 22) (vars := 27) (as := [27]) (bs := [21]) (by decide +kernel) (by decide +kernel)
    (by decide) (by decide) (m 27 (by decide +kernel) (by decide +kernel)) ?_
  exact Scopes.last (by decide +kernel) (by decide +kernel) (by decide) (m 21 (by decide +kernel) (by decide +kernel))

/-- The hypotheses of `C33_read_partial` in that state, where the innermost scope with `a` is the second. -/
example : ∃ s fs, cstring a = .ok s ∧ (0 : UInt8) ∉ a ∧ 0 < config.fuel ∧ (at' 24).w.err = false ∧
    Quiet config a ∧ Reaches config.hit ((at' 24).w.alloc (.str s)).1.heap ∧
    (at' 24).frames = .normal theFrame :: fs ∧ theFrame.locals = 36 ∧ theFrame.closure = some 31 ∧
    Scopes (at' 24).w 36 [36] ∧ OScopes (at' 24).w (some 31) [27, 21] ∧ OScopes (at' 24).w config.builtins [] ∧
    (bound config (at' 24).w a 36).isSome = false ∧ (bound config (at' 24).w a 27).isSome = true := by
  obtain ⟨fs, hfs⟩ := top_eq (s := at' 24) (f := theFrame) (by decide +kernel)
  refine ⟨⟨1, 1, [97, 0]⟩, fs, by rfl, by decide, by decide, by decide +kernel, ?_, fun _ _ _ _ _ => rfl, hfs,
    by decide +kernel, by decide +kernel, scopes24.1, scopes24.2, rfl, by decide +kernel, by decide +kernel⟩
  intro t f w w' r h
  cases h

/-- The hypotheses of `C33_write_partial` there. -/
example : ∃ s es, cstring b = .ok s ∧ (0 : UInt8) ∉ b ∧ 0 < config.fuel ∧
    Reaches config.hit ((at' 24).w.alloc (.str s)).1.heap ∧
    (at' 24).w.heap[27]? = some (.map es) ∧ NameKeys (at' 24).w.heap es ∧ 1 < es.length :=
  ⟨⟨1, 1, [98, 0]⟩, mapAt (at' 24) 27, by rfl, by decide, by decide, fun _ _ _ _ _ => rfl,
    isMap_eq (by decide +kernel), names_sound (by decide +kernel), by decide +kernel⟩

/-- The hypotheses of `C33_closure` there. -/
example : ∃ es, (at' 20).w.heap[27]? = some (.map es) ∧ NameKeys (at' 20).w.heap es ∧
    OScopes (at' 20).w (some 22) [21] := by
  have m : ∀ r, isMap (at' 20) r = true → names (at' 20).w.heap (mapAt (at' 20) r) = true →
      Scopes (at' 20).w r [r] := fun r h hn => scope_of (isMap_eq h) hn
  exact ⟨mapAt (at' 20) 27, isMap_eq (by decide +kernel), names_sound (by decide +kernel),
    Scopes.last (by decide +kernel) (by decide +kernel) (by decide) (m 21 (by decide +kernel) (by decide +kernel))⟩

end Noja.VM.Demo
