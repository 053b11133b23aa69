import Verif.VM.StarveNative

/-!
# Names that get no memory (C113)

To read or write a variable the interpreter makes a string of its name (runtime.c:525-527, 554-556).  If there is no memory for it, the instruction
stops without a report and before anything is looked up or changed.  So also a variable that does not exist is not reported; and a function that
is refused memory at an assignment returns what it was about to assign, which is on its stack.
-/

set_option linter.unusedVariables false

namespace Noja.VM

variable {W : Type} {L : Layer W} {cap : Nat}

/-- The instructions that make a string of a name, and how many values must be on the stack (run.c:693-705, 911-926). -/
def names? : Instr → Option Nat
  | .pushVar _ => some 0
  | .ass _ => some 1
  | _ => none

/-- An instruction that gets no memory for the name of a variable. -/
def refusedName (L : Layer W) (cap : Nat) (i : Instr) (s : St W) : Status W :=
  match names? i with
  | none => execI L cap i s
  | some n => s.peek n fun _ => leave L cap s

/-- `step`, without memory for names. -/
def refusedNameStep (L : Layer W) (cap : Nat) (s : St W) : Status W :=
  match s.frames with
  | .normal f :: fs =>
    match fetch s.exes f.exe f.idx with
    | none => .err s
    | some i => refusedName L cap i { s with frames := .normal { f with idx := f.idx + 1 } :: fs }
  | _ => .err s

/-- `runM`, without memory for names in the steps that `full` says. -/
def runV (L : Layer W) (cap : Nat) (full : Nat → Bool) : (n t : Nat) → St W → Status W
  | 0, _, s => .run s
  | n + 1, t, s =>
    match (if full t then refusedNameStep L cap s else step L cap s) with
    | .run s => runV L cap full n (t + 1) s
    | x => x

/-- Other instructions do not notice. -/
theorem refusedNameStep_other {s : St W} (h : ∀ i, next s = some i → names? i = none) : refusedNameStep L cap s = step L cap s := by
  unfold refusedNameStep step
  unfold next at h
  cases hf : s.frames with
  | nil => rfl
  | cons g fs =>
    cases g with
    | native k => rfl
    | normal f =>
      rw [hf] at h
      dsimp only at h ⊢
      cases hi : fetch s.exes f.exe f.idx with
      | none => rfl
      | some i =>
        dsimp only
        unfold refusedName
        rw [h i hi]

/-- C113: as long as no name is refused memory, all is as ever. -/
theorem C113_name_same (full : Nat → Bool) : ∀ (n t : Nat) (s : St W), runV L cap full n t s = runN L cap n s ∨
    ∃ k u i, k < n ∧ full (t + k) = true ∧ runN L cap k s = .run u ∧ next u = some i ∧ names? i ≠ none
  | 0, _, _ => .inl rfl
  | n + 1, t, s => by
    by_cases hq : full t = true ∧ ∃ i, next s = some i ∧ names? i ≠ none
    · obtain ⟨h1, i, h2, h3⟩ := hq
      exact .inr ⟨0, s, i, by omega, h1, rfl, h2, h3⟩
    · have hs : (if full t = true then refusedNameStep L cap s else step L cap s) = step L cap s := by
        by_cases hf : full t = true
        · rw [if_pos hf]
          refine refusedNameStep_other fun i hi => ?_
          cases hm : names? i with
          | none => rfl
          | some n => exact absurd ⟨hf, i, hi, by rw [hm]; nofun⟩ hq
        · rw [if_neg hf]
      unfold runV
      rw [hs, runN_succ]
      cases hst : step L cap s with
      | run v =>
        rcases C113_name_same full n (t + 1) v with h | ⟨k, u, i, h1, h2, h3, h4, h5⟩
        · exact .inl h
        · refine .inr ⟨k + 1, u, i, by omega, ?_, ?_, h4, h5⟩
          · rw [← h2]
            congr 1
            omega
          · rw [runN_succ, hst]
            exact h3
      | _ => exact .inl rfl

/-- **C113, for names**: if no error has been reported and the values that the instruction needs are there, a refusal is no error, whether or not
the variable exists.  In the outermost function the program has ended, and well; a function that was called by another returns all that is on
its stack. -/
theorem C113_name {s : St W} {f : NFrame} {fs : List Frame} {i : Instr} {n : Nat} (hf : s.frames = .normal f :: fs) (hi : next s = some i)
    (hm : names? i = some n) (hu : n ≤ f.used) (hp : L.pending s.w = false) :
    (fs = [] → ∃ t, refusedNameStep L cap s = .done (s.stack.take f.used).reverse t ∧ t.w = s.w) ∧
    (∀ g gs, fs = .normal g :: gs → refusedNameStep L cap s =
      deliver L cap f.want (s.stack.take f.used).reverse { s with stack := s.stack.drop f.used, frames := fs }) := by
  unfold next at hi
  rw [hf] at hi
  have hi : fetch s.exes f.exe f.idx = some i := hi
  have key : refusedNameStep L cap s = leave L cap { s with frames := .normal { f with idx := f.idx + 1 } :: fs } := by
    unfold refusedNameStep
    rw [hf]
    dsimp only
    rw [hi]
    dsimp only
    unfold refusedName
    rw [hm]
    unfold St.peek
    dsimp only
    rw [if_neg (by omega)]
  rw [key]
  unfold leave
  dsimp only
  rw [if_neg (by rw [hp]; decide)]
  refine ⟨fun h => ?_, fun g gs h => ?_⟩
  · subst h
    exact ⟨_, rfl, rfl⟩
  · subst h
    rfl

/-! ## A program -/

open Noja.VM.Book (bootT clientT)

/-- `clientT`, without memory for names in the steps that `full` says. -/
def clientV (fl : Book.Floats) (cap : Nat) (u : St TWorld) (code : List Instr) (full : Nat → Bool) (k : Nat) : Status TWorld :=
  match boot (tables (std (Book.printing fl Start.config)) false) cap u.exes.length
      ⟨Book.pluggedT u.w, u.funcs, u.exes ++ [code], [], []⟩ with
  | .run t => runV (tables (std (Book.printing fl Start.config)) false) cap full k 0 t
  | x => x

/-- `fun f(x) { y = x + 1; return y * 9; } print(f(4));` -/
def tenfold : Stmts :=
  .cons (.func [102] (.mk (.cons [120] .no .no .nil) (.comp (
    .cons (.expr (.assign (.var [121]) (.bin .add (.ident [120]) (.int 1)))) <|
    .cons (.ret (.cons (.bin .mul (.ident [121]) (.int 9)) .nil)) .nil)))) <|
  .cons (.expr (.call (.fn (.ident [112, 114, 105, 110, 116]) (.cons (.call (.fn (.ident [102]) (.cons (.int 4) .nil))) .nil)))) .nil

/-- With memory it writes `45`.  If there is none for the name in `y = x + 1`, `f` returns what was to be assigned and it writes `5`; if there is
none for the name `x` when `f` stores its argument, it writes `4`; if there is none when `f` reads `x`, it writes `none`; and all is well. -/
theorem tenfold_writes : ∃ vs u, bootT Book.toy 1024 1000 = .done vs u ∧
    Book.outOfT (clientT Book.toy 1024 u (compile tenfold) 100) = some (true, [52, 53]) ∧
    Book.outOfT (clientV Book.toy 1024 u (compile tenfold) (fun t => t == 12) 100) = some (true, [53]) ∧
    Book.outOfT (clientV Book.toy 1024 u (compile tenfold) (fun t => t == 7) 100) = some (true, [52]) ∧
    Book.outOfT (clientV Book.toy 1024 u (compile tenfold) (fun t => t == 9) 100) = some (true, [110, 111, 110, 101]) := by
  have h1 : (Book.afterBootT fun u => Book.outOfT (clientT Book.toy 1024 u (compile tenfold) 100)) = some (true, [52, 53]) := by
    decide +kernel
  have h2 : (Book.afterBootT fun u => Book.outOfT (clientV Book.toy 1024 u (compile tenfold) (fun t => t == 12) 100)) = some (true, [53]) := by
    decide +kernel
  have h3 : (Book.afterBootT fun u => Book.outOfT (clientV Book.toy 1024 u (compile tenfold) (fun t => t == 7) 100)) = some (true, [52]) := by
    decide +kernel
  have h4 : (Book.afterBootT fun u => Book.outOfT (clientV Book.toy 1024 u (compile tenfold) (fun t => t == 9) 100)) =
      some (true, [110, 111, 110, 101]) := by decide +kernel
  obtain ⟨vs, u, hs⟩ := Book.bootT_ends
  unfold Book.afterBootT at h1 h2 h3 h4
  rw [hs] at h1 h2 h3 h4
  exact ⟨vs, u, hs, h1, h2, h3, h4⟩

/-- C113 for names as one would wish it: a program that ends well although names were refused memory has written what it writes with memory. -/
def C113_nameStatement : Prop :=
  ∀ (fl : Book.Floats) (cap n : Nat) (vs : List Ref) (u : St TWorld), bootT fl cap n = .done vs u → ∀ p : Stmts, p.wf false = true →
    ∀ (full : Nat → Bool) (k : Nat) rs t, clientV fl cap u (compile p) full k = .done rs t →
      ∃ m rs' t', clientT fl cap u (compile p) m = .done rs' t' ∧ t'.w.w.out = t.w.w.out

/-- **C113 does not hold for names**: a function that cannot store a variable returns the value, and the program ends well. -/
theorem C113_name_violated : ¬ C113_nameStatement := by
  intro h
  obtain ⟨vs, u, hs, h1, h2, -⟩ := tenfold_writes
  cases hm : clientV Book.toy 1024 u (compile tenfold) (fun t => t == 12) 100 with
  | done rs t =>
    rw [hm] at h2
    have h2 : t.w.w.out = [53] := congrArg Prod.snd (Option.some.inj h2)
    obtain ⟨m, rs', t', h3, h4⟩ := h Book.toy 1024 1000 vs u hs tenfold (by decide) _ _ rs t hm
    cases hc : clientT Book.toy 1024 u (compile tenfold) 100 with
    | done r v =>
      rw [hc] at h1
      have h5 : v.w.w.out = [52, 53] := congrArg Prod.snd (Option.some.inj h1)
      cases start_stable (show start _ _ _ _ 100 = _ from hc) (show start _ _ _ _ m = _ from h3) nofun nofun
      rw [h4, h2] at h5
      cases h5
    | err v => rw [hc] at h1; cases h1
    | _ => rw [hc] at h1; cases h1
  | err t => rw [hm] at h2; cases h2
  | _ => rw [hm] at h2; cases h2

/-- `C113_name` has something to say about `tenfold`: before step 12 there are two functions, the next instruction assigns, the value is there,
and there is no error. -/
example : ∃ vs u, bootT Book.toy 1024 1000 = .done vs u ∧ ∃ s f g i, clientT Book.toy 1024 u (compile tenfold) 12 = .run s ∧
    s.frames = [.normal f, .normal g] ∧ next s = some i ∧ names? i = some 1 ∧ 1 ≤ f.used ∧ s.w.w.err = false := by
  have h : (Book.afterBootT fun u => match clientT Book.toy 1024 u (compile tenfold) 12 with
      | .run s => some (match s.frames, next s with
        | [.normal f, .normal _], some i => (names? i == some 1) && decide (1 ≤ f.used) && !s.w.w.err
        | _, _ => false)
      | _ => none) = some true := by decide +kernel
  obtain ⟨vs, u, hs⟩ := Book.bootT_ends
  unfold Book.afterBootT at h
  rw [hs] at h
  dsimp only at h
  refine ⟨vs, u, hs, ?_⟩
  split at h
  · rename_i s hr
    have h := Option.some.inj h
    split at h
    · rename_i f g i hf hi
      simp only [Bool.and_eq_true, beq_iff_eq, decide_eq_true_eq, Bool.not_eq_true'] at h
      exact ⟨s, f, g, i, hr, hf, hi, h.1.1, h.1.2, h.2⟩
    · cases h
  · cases h

end Noja.VM
