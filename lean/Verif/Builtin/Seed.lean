import Verif.Builtin.Random
import Verif.Builtin.Args

/-!
# `random.seed` and series of random numbers (builtins/random.c) and property C115

Of `srand` and `rand` all that is known is what the C standard says (7.22.2): there is a hidden state, which `srand` sets to something that depends
on its argument only, and from which `rand` makes a number up to `RAND_MAX` and the next state; before the first `srand` the state is that of
`srand(1)`.  The argument of `srand` is an `unsigned int`, that of `random.seed` has 64 bits.  Nothing else in the interpreter calls `srand` or
`rand`.
-/

set_option linter.unusedVariables false

namespace Noja.Builtin.Random

/-! ## Model -/

/-- `srand` and `rand` of the C library. -/
structure Library where
  State : Type
  start : Nat → State
  next : State → Nat × State
  bound : ∀ s, (next s).1 ≤ randMax

/-- The calls that a program can make. -/
inductive Call where
  | seed (args : List Arg)
  | generate (args : List Arg)

/-- random.c:6-19 `bin_seed`; `srand(seed)` converts to `unsigned int`. -/
def seed (R : Library) (args : List Arg) (s : R.State) : Exec (Arg × R.State) :=
  match parseArgs (passArgs (some 1) args).1 (passArgs (some 1) args).2 ['i'] 0 with
  | .ok [.int v] => .ok (.none, R.start (toU32 v))
  | .ok _ => .ub
  | .err => .err
  | .ub => .ub
  | .diverge => .diverge

/-- `pargs[k].defined`, random.c:32-33. -/
def bound? : PArg → Option Int
  | .int v => some v
  | _ => none

/-- random.c:21-36 `bin_generate` with its arguments and the state of `rand`. -/
def generateCall (F : Rounding) (R : Library) (args : List Arg) (s : R.State) : Exec (Arg × R.State) :=
  match parseArgs (passArgs (some 2) args).1 (passArgs (some 2) args).2 ['?', 'i', '?', 'i'] 0 with
  | .ok [lo, hi] =>
    match generate F (bound? lo) (bound? hi) (R.next s).1 with
    | .ok v => .ok (.int v, (R.next s).2)
    | .err => .err
    | .ub => .ub
    | .diverge => .diverge
  | .ok _ => .ub
  | .err => .err
  | .ub => .ub
  | .diverge => .diverge

def call (F : Rounding) (R : Library) : Call → R.State → Exec (Arg × R.State)
  | .seed args, s => seed R args s
  | .generate args, s => generateCall F R args s

/-- What the calls of a program give, up to the first that fails. -/
def session (F : Rounding) (R : Library) : List Call → R.State → List (Exec Arg)
  | [], _ => []
  | c :: cs, s =>
    match call F R c s with
    | .ok (v, s) => .ok v :: session F R cs s
    | .err => [.err]
    | .ub => [.ub]
    | .diverge => [.diverge]

/-- A program starts without `srand`, which is as after `srand(1)`. -/
def fromStart (F : Rounding) (R : Library) (cs : List Call) : List (Exec Arg) := session F R cs (R.start 1)

/-- The numbers that `rand` gives, one after the other. -/
def nth (R : Library) : Nat → R.State → Nat
  | 0, s => (R.next s).1
  | k + 1, s => nth R k (R.next s).2

/-! ## Property -/

/-- **C115**: after `random.seed(n)` the numbers are those that belong to `n`, whatever has happened before; and different `n` have different numbers,
unless the C library has the same for all. -/
def C115Statement : Prop :=
  (∀ (F : Rounding) (R : Library) (n : Int), IsI64 n → ∀ (before before' cs : List Call),
    (∀ x ∈ fromStart F R before, ∃ v, x = .ok v) → (∀ x ∈ fromStart F R before', ∃ v, x = .ok v) →
    (fromStart F R (before ++ .seed [.int n] :: cs)).drop before.length = (fromStart F R (before' ++ .seed [.int n] :: cs)).drop before'.length) ∧
  ∀ n m : Int, IsI64 n → IsI64 m → n ≠ m →
    ∃ (F : Rounding) (R : Library) (cs : List Call), fromStart F R (.seed [.int n] :: cs) ≠ fromStart F R (.seed [.int m] :: cs)

theorem seed_int (R : Library) (n : Int) (s : R.State) : seed R [.int n] s = .ok (.none, R.start (toU32 n)) := rfl

theorem session_seed (F : Rounding) (R : Library) (n : Int) (cs : List Call) (s : R.State) :
    session F R (.seed [.int n] :: cs) s = .ok .none :: session F R cs (R.start (toU32 n)) := rfl

theorem session_ok {F : Rounding} {R : Library} {c : Call} {s t : R.State} {v : Arg} (cs : List Call) (h : call F R c s = .ok (v, t)) :
    session F R (c :: cs) s = .ok v :: session F R cs t := by
  have : session F R (c :: cs) s = (match call F R c s with
    | .ok (v, s) => .ok v :: session F R cs s | .err => [.err] | .ub => [.ub] | .diverge => [.diverge]) := rfl
  rw [this, h]

theorem call_generate {F : Rounding} {R : Library} {lo hi v : Int} {s : R.State} (h : generate F (some lo) (some hi) (R.next s).1 = .ok v) :
    call F R (.generate [.int lo, .int hi]) s = .ok (.int v, (R.next s).2) := by
  have : call F R (.generate [.int lo, .int hi]) s = (match generate F (some lo) (some hi) (R.next s).1 with
    | .ok v => .ok (.int v, (R.next s).2) | .err => .err | .ub => .ub | .diverge => .diverge) := rfl
  rw [this, h]

/-- If all calls of the beginning succeed, the rest starts in some state. -/
theorem session_append (F : Rounding) (R : Library) (cs : List Call) : ∀ (before : List Call) (s : R.State),
    (∀ x ∈ session F R before s, ∃ v, x = .ok v) → ∃ t, session F R (before ++ cs) s = session F R before s ++ session F R cs t ∧
      (session F R before s).length = before.length
  | [], s, _ => ⟨s, rfl, rfl⟩
  | c :: before, s, h => by
    rw [List.cons_append]
    cases hc : call F R c s with
    | ok x =>
      have e := fun cs => session_ok (v := x.1) (t := x.2) cs hc
      rw [e] at h
      obtain ⟨t, h1, h2⟩ := session_append F R cs before x.2 fun y hy => h y (List.mem_cons_of_mem _ hy)
      refine ⟨t, ?_, ?_⟩
      · rw [e, e, h1, List.cons_append]
      · rw [e, List.length_cons, h2, List.length_cons]
    | _ =>
      unfold session at h
      rw [hc] at h
      obtain ⟨v, hv⟩ := h _ (List.mem_singleton.2 rfl)
      cases hv

/-- C115, the first half: a seed makes what has happened before forgotten. -/
theorem C115_again (F : Rounding) (R : Library) (n : Int) (before before' cs : List Call)
    (h : ∀ x ∈ fromStart F R before, ∃ v, x = .ok v) (h' : ∀ x ∈ fromStart F R before', ∃ v, x = .ok v) :
    (fromStart F R (before ++ .seed [.int n] :: cs)).drop before.length = (fromStart F R (before' ++ .seed [.int n] :: cs)).drop before'.length := by
  unfold fromStart at *
  obtain ⟨t, h1, h2⟩ := session_append F R (.seed [.int n] :: cs) before _ h
  obtain ⟨t', h3, h4⟩ := session_append F R (.seed [.int n] :: cs) before' _ h'
  rw [h1, h3, ← h2, ← h4, List.drop_left, List.drop_left, session_seed, session_seed]

/-- A program that sets no seed gets the same numbers every time: those of the seed 1. -/
theorem C115_unseeded (F : Rounding) (R : Library) (cs : List Call) : (fromStart F R (.seed [.int 1] :: cs)).tail = fromStart F R cs := rfl

/-- A library whose numbers are the largest for one seed and 0 for all others. -/
def picky (a : Nat) : Library where
  State := Bool
  start k := k == a
  next s := (if s then randMax else 0, s)
  bound s := by cases s <;> decide

theorem generate_bit (F : Rounding) : generate F (some 0) (some 1) 0 = .ok 0 ∧ generate F (some 0) (some 1) randMax = .ok 1 := by
  refine ⟨generate_eq F (by decide) (by decide) (by decide) (by decide) (by decide) ?_, generate_eq F (by decide) (by decide) (by decide) (by decide) (by decide) ?_⟩
  · have e : (((1 - 0 : Int) : Rat) * ((0 : Nat) : Rat)) = 0 := by decide +kernel
    have e2 : (0 : Rat) / 2147483647 = 0 := by decide +kernel
    have e3 : (((0 : Int) : Rat) + 0) = 0 := by decide +kernel
    rw [e, rnd_zero, e2, rnd_zero, e3, rnd_zero]
    exact trunc_int 0
  · have e : (((1 - 0 : Int) : Rat) * (randMax : Rat)) = (randMax : Rat) := by decide +kernel
    have e2 : (2147483647 : Rat) / 2147483647 = ((1 : Int) : Rat) := by decide +kernel
    have e3 : (((0 : Int) : Rat) + ((1 : Int) : Rat)) = ((1 : Int) : Rat) := by decide +kernel
    rw [e, rnd_max, e2, rnd_int F (by decide), e3, rnd_int F (by decide)]
    exact trunc_int 1

/-- C115: two seeds have the same numbers, whatever the C library does, exactly if their lowest 32 bits are the same. -/
theorem C115_same (n m : Int) : (∀ (F : Rounding) (R : Library) (cs : List Call),
    fromStart F R (.seed [.int n] :: cs) = fromStart F R (.seed [.int m] :: cs)) ↔ n % 2 ^ 32 = m % 2 ^ 32 := by
  refine ⟨fun h => ?_, fun h F R cs => ?_⟩
  · have hF := h noRounding (picky (toU32 n)) [.generate [.int 0, .int 1]]
    have hg := generate_bit noRounding
    by_cases hq : toU32 m = toU32 n
    · unfold toU32 at hq
      omega
    · have hn : (picky (toU32 n)).start (toU32 n) = true := beq_self_eq_true _
      have hm : (picky (toU32 n)).start (toU32 m) = false := beq_eq_false_iff_ne.2 hq
      have e1 : fromStart noRounding (picky (toU32 n)) (.seed [.int n] :: [.generate [.int 0, .int 1]]) = [.ok .none, .ok (.int 1)] := by
        unfold fromStart
        rw [session_seed, hn]
        exact congrArg _ (session_ok [] (call_generate (R := picky (toU32 n)) (s := true) hg.2))
      have e2 : fromStart noRounding (picky (toU32 n)) (.seed [.int m] :: [.generate [.int 0, .int 1]]) = [.ok .none, .ok (.int 0)] := by
        unfold fromStart
        rw [session_seed, hm]
        exact congrArg _ (session_ok [] (call_generate (R := picky (toU32 n)) (s := false) hg.1))
      rw [e1, e2] at hF
      exact absurd hF (by decide)
  · unfold fromStart
    rw [session_seed, session_seed]
    unfold toU32
    rw [h]

example : (4294967303 : Int) % 2 ^ 32 = 7 % 2 ^ 32 := by decide

/-- C115 for seeds of 32 bits without a sign. -/
theorem C115_partial (n m : Int) (hn : 0 ≤ n ∧ n < 2 ^ 32) (hm : 0 ≤ m ∧ m < 2 ^ 32) (h : n ≠ m) :
    ∃ (F : Rounding) (R : Library) (cs : List Call), fromStart F R (.seed [.int n] :: cs) ≠ fromStart F R (.seed [.int m] :: cs) := by
  refine Classical.byContradiction fun hq => ?_
  have := (C115_same n m).1 fun F R cs => Classical.byContradiction fun hne => hq ⟨F, R, cs, hne⟩
  omega

/-- C115 is violated: the seeds 0 and 4294967296 always have the same numbers. -/
theorem C115_violated : ¬ C115Statement := by
  intro h
  obtain ⟨F, R, cs, hne⟩ := h.2 0 (2 ^ 32) (by decide) (by decide) (by decide)
  exact hne ((C115_same 0 (2 ^ 32)).2 (by decide) F R cs)

/-- C115: each call of `random.generate` takes one number of the C library, in the order of the calls, and bounds do not change which; within
bounds of 32 bits of which the upper one is not negative all calls succeed, and what they give is between their bounds. -/
theorem C115_numbers (F : Rounding) (R : Library) : ∀ (bs : List (Int × Int)) (s : R.State),
    (∀ b ∈ bs, IsI32 b.1 ∧ IsI32 b.2 ∧ b.1 ≤ b.2 ∧ 0 ≤ b.2) →
    ∃ vs : List Int, session F R (bs.map fun b => .generate [.int b.1, .int b.2]) s = vs.map (fun v => .ok (.int v)) ∧ vs.length = bs.length ∧
      ∀ (k : Nat) (b : Int × Int) (v : Int), bs[k]? = some b → vs[k]? = some v →
        generate F (some b.1) (some b.2) (nth R k s) = .ok v ∧ b.1 ≤ v ∧ v ≤ b.2
  | [], s, _ => ⟨[], rfl, rfl, fun k b v h => by simp at h⟩
  | b :: bs, s, h => by
    obtain ⟨h1, h2, h3, h4⟩ := h b (by simp)
    obtain ⟨v, hv, hlo, hhi⟩ := C92_partial F b.1 b.2 h1 h2 h3 h4 (R.next s).1 (R.bound s)
    obtain ⟨vs, e1, e2, e3⟩ := C115_numbers F R bs (R.next s).2 fun x hx => h x (List.mem_cons_of_mem _ hx)
    refine ⟨v :: vs, ?_, by rw [List.length_cons, List.length_cons, e2], ?_⟩
    · rw [List.map_cons, List.map_cons, session_ok _ (call_generate hv), e1]
    · intro k c w hc hw
      cases k with
      | zero =>
        simp only [List.getElem?_cons_zero, Option.some.injEq] at hc hw
        subst hc hw
        exact ⟨hv, hlo, hhi⟩
      | succ k =>
        simp only [List.getElem?_cons_succ] at hc hw
        exact e3 k c w hc hw

/-- C115: so what a program gets after a seed is a function of the lowest bits of the seed and of the bounds that it asks for. -/
theorem C115_series (F : Rounding) (R : Library) (n : Int) (before : List Call) (bs : List (Int × Int))
    (h : ∀ x ∈ fromStart F R before, ∃ v, x = .ok v) (hb : ∀ b ∈ bs, IsI32 b.1 ∧ IsI32 b.2 ∧ b.1 ≤ b.2 ∧ 0 ≤ b.2) :
    ∃ vs : List Int, (fromStart F R (before ++ .seed [.int n] :: bs.map fun b => .generate [.int b.1, .int b.2])).drop (before.length + 1) =
        vs.map (fun v => .ok (.int v)) ∧ vs.length = bs.length ∧
      ∀ (k : Nat) (b : Int × Int) (v : Int), bs[k]? = some b → vs[k]? = some v →
        generate F (some b.1) (some b.2) (nth R k (R.start (n % 2 ^ 32).toNat)) = .ok v ∧ b.1 ≤ v ∧ v ≤ b.2 := by
  obtain ⟨vs, e1, e2, e3⟩ := C115_numbers F R bs (R.start (n % 2 ^ 32).toNat) hb
  refine ⟨vs, ?_, e2, e3⟩
  unfold fromStart at h ⊢
  obtain ⟨t, h1, h2⟩ := session_append F R (.seed [.int n] :: bs.map fun b => .generate [.int b.1, .int b.2]) before _ h
  rw [h1, ← List.drop_drop, ← h2, List.drop_left, session_seed]
  exact e1

/-- C115: bounds that are left out, or `none`, are 0 and 2^63 - 1. -/
theorem C115_omitted (F : Rounding) (R : Library) (lo hi : Int) (s : R.State) :
    call F R (.generate []) s = call F R (.generate [.int 0, .int (2 ^ 63 - 1)]) s ∧
    call F R (.generate [.int lo]) s = call F R (.generate [.int lo, .int (2 ^ 63 - 1)]) s ∧
    call F R (.generate [.none, .int hi]) s = call F R (.generate [.int 0, .int hi]) s := ⟨rfl, rfl, rfl⟩

/-- A seed that is no integer is an error, with which the program ends. -/
theorem C115_refused (F : Rounding) (R : Library) (a : Arg) (cs : List Call) (s : R.State) (h : ∀ v, a ≠ .int v) :
    session F R (.seed [a] :: cs) s = [.err] := by
  cases a with
  | int v => exact absurd rfl (h v)
  | _ => rfl

example : ∀ b ∈ [((1 : Int), (6 : Int)), (-10, 10)], IsI32 b.1 ∧ IsI32 b.2 ∧ b.1 ≤ b.2 ∧ 0 ≤ b.2 := by decide

/-- `random.seed(5)`, a dice, and again. -/
example : let dice := [Call.seed [.int 5], .generate [.int 1, .int 6]]
    fromStart noRounding (picky 5) (dice ++ dice) = [.ok .none, .ok (.int 6), .ok .none, .ok (.int 6)] := by decide +kernel

example : ∀ x ∈ fromStart noRounding (picky 5) [.generate [.int 1, .int 6], .generate [.int 0]], ∃ v, x = .ok v := by
  have : fromStart noRounding (picky 5) [.generate [.int 1, .int 6], .generate [.int 0]] = [.ok (.int 1), .ok (.int 0)] := by decide +kernel
  rw [this]
  intro x hx
  rcases List.mem_cons.1 hx with rfl | hx
  · exact ⟨_, rfl⟩
  · rcases List.mem_singleton.1 hx with rfl
    exact ⟨_, rfl⟩

end Noja.Builtin.Random
