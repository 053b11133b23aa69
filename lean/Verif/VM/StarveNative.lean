import Verif.VM.Starve

/-!
# Built-in functions that get no memory (C113)

A built-in function that gets no memory for its result returns -1, without a report (basic.c:160-163, utils.c:22-23, heap.c:303-306).  `native_func_call` pops
the frame of the built-in function only if the result is not negative (run.c:285), so it stays.  The instruction stops the loop of the function `f`
that called, which looks like a return without results (a frame of a built-in function has no values, runtime.c:592-597); and the frame that is
popped then (run.c:1128) is that of the built-in function, so that the frame of `f` stays.  If `f` was called by a function `g`, the loop of `g` goes
on with the frame that is there: that of `f`.  So `f` goes on, as if its caller had been called in its place, and what returns to the caller of `g` is
what `f` returns; each function takes the place of its caller, and the outermost one is not continued at all.

In the model the number of results that are wanted is kept in the frame of the function that is called; in the program it is on the stack of C, and
stays there.  Simplifications: built-in functions that have done something before they ask for memory, and functions that were started by an
`import`, are not described; the frame of the outermost function, which stays in the list of frames to the end, is left out.
-/

set_option linter.unusedVariables false

namespace Noja.VM

variable {W : Type} {L : Layer W} {cap : Nat}

/-- Each function takes the place of its caller. -/
def shift : List Frame → Option (List Frame)
  | [.normal _] => some []
  | .normal f :: .normal g :: fs => (shift (.normal g :: fs)).map (.normal { f with want := g.want } :: ·)
  | _ => none

/-- run.c:1103-1131 and 786-803 if a built-in function has returned -1 without a report. -/
def lost (L : Layer W) (cap : Nat) (s : St W) : Status W :=
  match s.frames with
  | .normal f :: _ =>
    if L.pending s.w then .err s
    else
      match shift s.frames with
      | some [] => .done [] { s with frames := [] }
      | some fs => deliver L cap f.want [] { s with frames := fs }
      | none => .ub
  | _ => .err s

/-- run.c:755-786: a call; if it is one of a built-in function, it gets no memory. -/
def refusedCall (L : Layer W) (cap argc want : Nat) (s : St W) : Status W :=
  s.pop 1 fun vs s =>
    match vs with
    | [f] =>
      if maxArgs < argc then .limit s
      else s.pop argc fun argv s =>
        match L.callee f s.w with
        | .ok w (.native _ _) => if maxFrames ≤ s.frames.length then .limit { s with w := w } else lost L cap { s with w := w }
        | _ => callObj L cap f argv want s
    | _ => .ub

/-- `step`, without memory for built-in functions. -/
def refusedCallStep (L : Layer W) (cap : Nat) (s : St W) : Status W :=
  match s.frames with
  | .normal f :: fs =>
    match fetch s.exes f.exe f.idx with
    | none => .err s
    | some (.call argc want) => refusedCall L cap argc want { s with frames := .normal { f with idx := f.idx + 1 } :: fs }
    | some i => execI L cap i { s with frames := .normal { f with idx := f.idx + 1 } :: fs }
  | _ => .err s

/-- `runM`, without memory for built-in functions in the steps that `full` says. -/
def runC (L : Layer W) (cap : Nat) (full : Nat → Bool) : (n t : Nat) → St W → Status W
  | 0, _, s => .run s
  | n + 1, t, s =>
    match (if full t then refusedCallStep L cap s else step L cap s) with
    | .run s => runC L cap full n (t + 1) s
    | x => x

/-- Other instructions do not notice. -/
theorem refusedCallStep_other {s : St W} (h : ∀ argc want, next s ≠ some (.call argc want)) : refusedCallStep L cap s = step L cap s := by
  unfold refusedCallStep step
  unfold next at h
  cases hf : s.frames with
  | nil => rfl
  | cons g fs =>
    cases g with
    | native k => rfl
    | normal f =>
      rw [hf] at h
      dsimp only at h ⊢
      cases hi : fetch s.exes f.exe f.idx with
      | none => rfl
      | some i =>
        cases i with
        | call argc want => exact absurd hi (h argc want)
        | _ => rfl

/-- C113: as long as no call is refused memory, all is as ever. -/
theorem C113_native_same (full : Nat → Bool) : ∀ (n t : Nat) (s : St W), runC L cap full n t s = runN L cap n s ∨
    ∃ k u argc want, k < n ∧ full (t + k) = true ∧ runN L cap k s = .run u ∧ next u = some (.call argc want)
  | 0, _, _ => .inl rfl
  | n + 1, t, s => by
    by_cases hq : full t = true ∧ ∃ argc want, next s = some (.call argc want)
    · obtain ⟨h1, argc, want, h2⟩ := hq
      exact .inr ⟨0, s, argc, want, by omega, h1, rfl, h2⟩
    · have hs : (if full t = true then refusedCallStep L cap s else step L cap s) = step L cap s := by
        by_cases hf : full t = true
        · rw [if_pos hf]
          exact refusedCallStep_other fun argc want hi => hq ⟨hf, argc, want, hi⟩
        · rw [if_neg hf]
      unfold runC
      rw [hs, runN_succ]
      cases hst : step L cap s with
      | run v =>
        rcases C113_native_same full n (t + 1) v with h | ⟨k, u, argc, want, h1, h2, h3, h4⟩
        · exact .inl h
        · refine .inr ⟨k + 1, u, argc, want, by omega, ?_, ?_, h4⟩
          · rw [← h2]
            congr 1
            omega
          · rw [runN_succ, hst]
            exact h3
      | _ => exact .inl rfl

/-- Where a function is, and what it knows. -/
structure Place where
  exe : Nat
  idx : Nat
  locals : Ref
  closure : Option Ref
  used : Nat
deriving DecidableEq

def Frame.place : Frame → Option Place
  | .normal f => some ⟨f.exe, f.idx, f.locals, f.closure, f.used⟩
  | .native _ => none

def Frame.wants : Frame → Nat
  | .normal f => f.want
  | .native k => k

/-- All functions but the outermost one are where they were, and each is waited for by the one that waited for its caller. -/
theorem shift_spec : ∀ (fs : List Frame), fs ≠ [] → (∀ x ∈ fs, ∃ f, x = .normal f) →
    ∃ gs, shift fs = some gs ∧ gs.map Frame.place = fs.dropLast.map Frame.place ∧ gs.map Frame.wants = fs.tail.map Frame.wants
  | [], h, _ => absurd rfl h
  | [x], _, h => by
    obtain ⟨f, rfl⟩ := h x (by simp)
    exact ⟨[], rfl, rfl, rfl⟩
  | x :: y :: fs, _, h => by
    obtain ⟨f, rfl⟩ := h x (by simp)
    obtain ⟨g, rfl⟩ := h y (by simp)
    obtain ⟨gs, h1, h2, h3⟩ := shift_spec (.normal g :: fs) (by simp) fun z hz => h z (List.mem_cons_of_mem _ hz)
    refine ⟨.normal { f with want := g.want } :: gs, ?_, ?_, ?_⟩
    · unfold shift
      rw [h1]
      rfl
    · rw [List.map_cons, h2]
      rfl
    · rw [List.map_cons, h3]
      rfl

/-- **C113, for built-in functions**: if there are only functions of the program and no error has been reported, a refusal is no error.  In the
outermost function the program ends well, without results.  In another one this function goes on behind the call, with as many `none` as the
caller wanted from it, and each function returns to the caller of its caller. -/
theorem C113_native {s : St W} {f : NFrame} {fs : List Frame} (hf : s.frames = .normal f :: fs) (hn : ∀ x ∈ fs, ∃ g, x = .normal g)
    (hp : L.pending s.w = false) :
    (fs = [] → ∃ t, lost L cap s = .done [] t ∧ t.w = s.w) ∧
    (fs ≠ [] → ∃ gs, lost L cap s = { s with frames := gs }.pushAll cap (List.replicate f.want L.none) ∧
      gs.map Frame.place = s.frames.dropLast.map Frame.place ∧ gs.map Frame.wants = fs.map Frame.wants) := by
  unfold lost
  rw [hf]
  dsimp only
  rw [if_neg (by rw [hp]; decide)]
  refine ⟨fun h => ?_, fun h => ?_⟩
  · subst h
    exact ⟨_, rfl, rfl⟩
  · obtain ⟨gs, h1, h2, h3⟩ := shift_spec (.normal f :: fs) (by simp) fun x hx => by
      rcases List.mem_cons.1 hx with rfl | hx
      · exact ⟨f, rfl⟩
      · exact hn x hx
    refine ⟨gs, ?_, h2, h3⟩
    rw [h1]
    cases gs with
    | nil =>
      cases fs with
      | nil => exact absurd rfl h
      | cons y ys => cases h2
    | cons g gs =>
      dsimp only
      unfold deliver
      rw [if_neg (by simp)]
      simp

/-! ## A program -/

open Noja.VM.Book (bootT clientT)

/-- `clientT`, without memory for built-in functions in the steps that `full` says. -/
def clientC (fl : Book.Floats) (cap : Nat) (u : St TWorld) (code : List Instr) (full : Nat → Bool) (k : Nat) : Status TWorld :=
  match boot (tables (std (Book.printing fl Start.config)) false) cap u.exes.length
      ⟨Book.pluggedT u.w, u.funcs, u.exes ++ [code], [], []⟩ with
  | .run t => runC (tables (std (Book.printing fl Start.config)) false) cap full k 0 t
  | x => x

/-- `fun f() { count("a"); print(1); } f(); print(2);` -/
def twice : Stmts :=
  .cons (.func [102] (.mk .nil (.comp (
    .cons (.expr (.call (.fn (.ident [99, 111, 117, 110, 116]) (.cons (.str [97]) .nil)))) <|
    .cons (.expr (.call (.fn (.ident [112, 114, 105, 110, 116]) (.cons (.int 1) .nil)))) .nil)))) <|
  .cons (.expr (.call (.fn (.ident [102]) .nil))) <|
  .cons (.expr (.call (.fn (.ident [112, 114, 105, 110, 116]) (.cons (.int 2) .nil)))) .nil

/-- With memory it writes `12`.  If there is none for the result of `count`, it writes `1`, and all is well: `f` goes on, and the end of `f` is the
end of the program. -/
theorem twice_writes : ∃ vs u, bootT Book.toy 1024 1000 = .done vs u ∧
    Book.outOfT (clientT Book.toy 1024 u (compile twice) 100) = some (true, [49, 50]) ∧
    Book.outOfT (clientC Book.toy 1024 u (compile twice) (fun t => t == 8) 100) = some (true, [49]) := by
  have h1 : (Book.afterBootT fun u => Book.outOfT (clientT Book.toy 1024 u (compile twice) 100)) = some (true, [49, 50]) := by decide +kernel
  have h2 : (Book.afterBootT fun u => Book.outOfT (clientC Book.toy 1024 u (compile twice) (fun t => t == 8) 100)) = some (true, [49]) := by
    decide +kernel
  obtain ⟨vs, u, hs⟩ := Book.bootT_ends
  unfold Book.afterBootT at h1 h2
  rw [hs] at h1 h2
  exact ⟨vs, u, hs, h1, h2⟩

/-- C113 for built-in functions: a program that ends well has written what it writes if there is memory. -/
def C113_nativeStatement : Prop :=
  ∀ (fl : Book.Floats) (cap n : Nat) (vs : List Ref) (u : St TWorld), bootT fl cap n = .done vs u → ∀ p : Stmts, p.wf false = true →
    ∀ full k rs t, clientC fl cap u (compile p) full k = .done rs t →
      ∃ m rs' t', clientT fl cap u (compile p) m = .done rs' t' ∧ t'.w.w.out = t.w.w.out

/-- **C113 does not hold** for built-in functions either. -/
theorem C113_native_violated : ¬ C113_nativeStatement := by
  intro h
  obtain ⟨vs, u, hs, h1, h2⟩ := twice_writes
  cases hm : clientC Book.toy 1024 u (compile twice) (fun t => t == 8) 100 with
  | done rs t =>
    rw [hm] at h2
    have h2 : t.w.w.out = [49] := congrArg Prod.snd (Option.some.inj h2)
    obtain ⟨m, rs', t', h3, h4⟩ := h Book.toy 1024 1000 vs u hs twice (by decide) _ _ rs t hm
    cases hc : clientT Book.toy 1024 u (compile twice) 100 with
    | done r v =>
      rw [hc] at h1
      have h5 : v.w.w.out = [49, 50] := congrArg Prod.snd (Option.some.inj h1)
      cases start_stable (show start _ _ _ _ 100 = _ from hc) (show start _ _ _ _ m = _ from h3) nofun nofun
      rw [h4, h2] at h5
      cases h5
    | err v => rw [hc] at h1; cases h1
    | _ => rw [hc] at h1; cases h1
  | err t => rw [hm] at h2; cases h2
  | _ => rw [hm] at h2; cases h2

/-- `C113_native` has something to say about `twice`: when `count` is called there are two functions and no error. -/
example : ∃ vs u, bootT Book.toy 1024 1000 = .done vs u ∧ ∃ s f g argc want, clientT Book.toy 1024 u (compile twice) 8 = .run s ∧
    s.frames = [.normal f, .normal g] ∧ next s = some (.call argc want) ∧ s.w.w.err = false := by
  have h : (Book.afterBootT fun u => match clientT Book.toy 1024 u (compile twice) 8 with
      | .run s => some (match s.frames, next s with | [.normal _, .normal _], some (.call _ _) => !s.w.w.err | _, _ => false)
      | _ => none) = some true := by decide +kernel
  obtain ⟨vs, u, hs⟩ := Book.bootT_ends
  unfold Book.afterBootT at h
  rw [hs] at h
  dsimp only at h
  refine ⟨vs, u, hs, ?_⟩
  split at h
  · rename_i s hr
    have h := Option.some.inj h
    split at h
    · rename_i f g argc want hf hi
      exact ⟨s, f, g, argc, want, hr, hf, hi, by simpa using h⟩
    · cases h
  · cases h

end Noja.VM
