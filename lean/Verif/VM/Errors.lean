import Verif.VM.Nested
import Verif.VM.Objects

/-!
# C37, C38: errors and interrupts end a run

Stated about `runTop`, the functions of `run.c` calling each other, in terms of the steps of the
flat machine without interrupts (`runN`).
-/

set_option linter.unusedVariables false
set_option linter.unusedSimpArgs false

namespace Noja.VM

variable {W : Type} {L : Layer W} {cap : Nat} {stop : Nat → Bool}

theorem exec_quiet : ∀ (n t : Nat) (s : St W), (∀ i, t ≤ i → i < t + n → stop i = false) →
    exec L cap stop n t s = runN L cap n s
  | 0, _, _, _ => rfl
  | n + 1, t, s, h => by
    rw [exec_succ, runN_succ, if_neg (by rw [h t (Nat.le_refl t) (by omega)]; simp)]
    cases step L cap s with
    | run u => exact exec_quiet n (t + 1) u fun i h1 h2 => h i (by omega) (by omega)
    | _ => rfl

theorem exec_add : ∀ (m n t : Nat) (s : St W),
    exec L cap stop (m + n) t s = go L cap stop n (t + m) (exec L cap stop m t s)
  | 0, n, t, s => by rw [Nat.zero_add]; rfl
  | m + 1, n, t, s => by
    rw [show m + 1 + n = (m + n) + 1 by omega, exec_succ, exec_succ]
    by_cases h : stop t = true
    · rw [if_pos h, if_pos h]; rfl
    · rw [if_neg h, if_neg h]
      cases step L cap s with
      | run u =>
        show exec L cap stop (m + n) (t + 1) u = go L cap stop n (t + (m + 1)) (exec L cap stop m (t + 1) u)
        rw [exec_add m n (t + 1) u, show t + 1 + m = t + (m + 1) by omega]
      | _ => rfl

/-- C38: whatever the program does, if the program is to be stopped from the moment before its
`T`-th instruction on (counted over all frames), `run.c` returns: with what the program came to
if it ended in its first `T` instructions by itself; with an error, in the very state after these
`T` instructions, otherwise. -/
theorem C38_interrupt (stop : Nat → Bool) (T : Nat) (hq : ∀ i, i < T → stop i = false) (hT : stop T = true)
    (e : Nat) (s₀ s₁ : St W) (hs : s₀.frames = []) (hb : boot L cap e s₀ = .run s₁) :
    (runTop L cap stop (T + 2) e s₀).status = some (match runN L cap T s₁ with
      | .run u => .err u
      | x => x) := by
  refine C37_flat stop (T + 1) e s₀ hs ?_ ?_
  · rw [hb]
    show exec L cap stop (T + 1) 0 s₁ = _
    rw [exec_add, exec_quiet T 0 s₁ fun i _ h => hq i (by omega)]
    cases runN L cap T s₁ with
    | run u =>
      show exec L cap stop 1 (0 + T) u = .err u
      rw [exec_succ, Nat.zero_add, if_pos hT]
    | _ => rfl
  · intro u
    cases runN L cap T s₁ <;> simp

/-- C37, for errors that make an operation fail: if the `n`-th instruction fails, `run.c` returns
with an error, in the state in which it failed; nothing is done after it, in no frame. -/
theorem C37_partial (stop : Nat → Bool) (n : Nat) (hq : ∀ i, i ≤ n → stop i = false)
    (e : Nat) (s₀ s₁ u v : St W) (hs : s₀.frames = []) (hb : boot L cap e s₀ = .run s₁)
    (hu : runN L cap n s₁ = .run u) (hv : step L cap u = .err v) :
    (runTop L cap stop (n + 2) e s₀).status = some (.err v) := by
  refine C37_flat stop (n + 1) e s₀ hs ?_ (by simp)
  rw [hb]
  show exec L cap stop (n + 1) 0 s₁ = _
  rw [exec_add, exec_quiet n 0 s₁ fun i _ h => hq i (by omega), hu]
  show exec L cap stop 1 (0 + n) u = .err v
  rw [exec_succ, if_neg (by rw [Nat.zero_add, hq n (Nat.le_refl n)]; simp), hv]
  rfl

/-- Conversely, a run that returns with an error had exactly one failing instruction, its last,
or was interrupted. -/
theorem C37_only (stop : Nat → Bool) (fuel e : Nat) (s₀ s₁ v : St W) (hs : s₀.frames = [])
    (hb : boot L cap e s₀ = .run s₁) (h : (runTop L cap stop fuel e s₀).status = some (.err v)) :
    ∃ n u, runN L cap n s₁ = .run u ∧ ((stop n = true ∧ v = u) ∨ step L cap u = .err v) := by
  obtain ⟨k, hk⟩ := (C37_nested stop fuel e s₀ hs).1 _ h
  have h0 := hk 0
  rw [hb] at h0
  have key : ∀ (m t : Nat) (s : St W), exec L cap stop m t s = .err v →
      ∃ n u, runN L cap n s = .run u ∧ ((stop (t + n) = true ∧ v = u) ∨ step L cap u = .err v) := by
    intro m
    induction m with
    | zero => intro t s h; cases h
    | succ m ih =>
      intro t s h
      rw [exec_succ] at h
      by_cases q : stop t = true
      · rw [if_pos q] at h
        cases h
        exact ⟨0, _, rfl, .inl ⟨q, rfl⟩⟩
      · rw [if_neg q] at h
        cases hst : step L cap s with
        | run u =>
          rw [hst] at h
          obtain ⟨n, u', h1, h2⟩ := ih (t + 1) u h
          refine ⟨n + 1, u', ?_, ?_⟩
          · rw [runN_succ, hst]; exact h1
          · rw [show t + (n + 1) = t + 1 + n by omega]; exact h2
        | err u =>
          rw [hst] at h
          cases h
          exact ⟨0, s, rfl, .inr hst⟩
        | _ => rw [hst] at h; cases h
  obtain ⟨n, u, h1, h2⟩ := key (0 + k) 0 s₁ h0
  rw [Nat.zero_add] at h2
  exact ⟨n, u, h1, h2⟩

/-! ## The full statement, and why it fails -/

/-- C37: once the error of the run is set, nothing more is written. -/
def C37Statement : Prop :=
  ∀ (C : Config) (p : Stmts) (w : World) (cap n m : Nat) (s₁ u v : St World), p.wf false = true →
    w.err = false →
    boot (objects C) cap 0 ⟨w, fun _ => none, [compile p], [], []⟩ = .run s₁ →
    runN (objects C) cap n s₁ = .run u → u.w.err = true →
    runN (objects C) cap m u = .run v → v.w.out = u.w.out

namespace Stray

/-- Builtins `int`, `List` and a `print` for one string (basic.c). -/
def config : Config where
  hit _ _ := true
  arith := ⟨fun _ x _ => x⟩
  fuel := 8
  builtins := some 21
  slot _ n := if n = [105, 110, 116] then some (fun w => .ok w (typeRef .int))
    else if n = [76, 105, 115, 116] then some (fun w => .ok w (typeRef .list))
    else if n = [112, 114, 105, 110, 116] then some (fun w => .ok w 22)
    else none
  native _ args w :=
    match args with
    | [r] => .ok { w with out := w.out ++ (textOf w.heap r).getD [] } (.done [])
    | _ => .ok w (.done [])
  selectX _ _ w := .ok { w with err := true } none
  insertX _ _ _ _ w := .err w

def world : World := ⟨[.opaque .smap, .opaque .nfunc], false, fun _ => none, fun _ => none,
  fun r => if r = 22 then some (0, some 1) else none, fun _ => 0, []⟩

/-- `fun f(x: [int, int] | List) print("a"); f([1]);` -/
def prog : Stmts :=
  .cons (.func [102] (.mk
    (.cons [120] .no (.yes (.bin .sum
      (.list (.cons (.ident [105, 110, 116]) (.cons (.ident [105, 110, 116]) .nil)))
      (.ident [76, 105, 115, 116]))) .nil)
    (.expr (.call (.fn (.ident [112, 114, 105, 110, 116]) (.cons (.str [97]) .nil))))))
  (.cons (.expr (.call (.fn (.ident [102]) (.cons (.list (.cons (.int 1) .nil)) .nil)))) .nil)

def s₀ : St World := ⟨world, fun _ => none, [compile prog], [], []⟩

def get : Status World → St World
  | .run s => s
  | _ => s₀

def isRun : Status World → Bool
  | .run _ => true
  | _ => false

theorem run_get {x : Status World} (h : isRun x = true) : x = .run (get x) := by
  cases x with
  | run s => rfl
  | _ => cases h

def s₁ : St World := get (boot (objects config) 100 0 s₀)

def at' (n : Nat) : St World := get (runN (objects config) 100 n s₁)

theorem boots : boot (objects config) 100 0 s₀ = .run s₁ := run_get (by decide +kernel)

/-- The hypotheses of `C37_partial` and of `C38_interrupt`: the last instruction of `f` ends the run
with an error; before, it can be interrupted in two frames. -/
example : s₀.frames = [] ∧ boot (objects config) 100 0 s₀ = .run s₁ ∧
    runN (objects config) 100 26 s₁ = .run (at' 26) ∧
    (match step (objects config) 100 (at' 26) with | .err v => v.frames.length == 2 | _ => false) = true ∧
    runN (objects config) 100 20 s₁ = .run (at' 20) ∧ (at' 20).frames.length = 2 :=
  ⟨rfl, boots, run_get (by decide +kernel), by decide +kernel, run_get (by decide +kernel), by decide +kernel⟩

end Stray

/-- C37 is violated: `Object_IsTypeOf` can report an error and go on to say that the value is of
the type (o_list.c:70-93 asks for the second item of a list with one item, o_sum.c:69-75 then tries
the other type).  The error is only seen when the function returns (run.c:1098-1103); until then
the function runs, and prints. -/
theorem C37_violated : ¬ C37Statement := by
  intro h
  have := h Stray.config Stray.prog Stray.world 100 20 5 Stray.s₁ (Stray.at' 20)
    (Stray.get (runN (objects Stray.config) 100 5 (Stray.at' 20))) (by decide) rfl Stray.boots
    (Stray.run_get (by decide +kernel)) (by decide +kernel) (Stray.run_get (by decide +kernel))
  revert this
  decide +kernel

end Noja.VM
