import Verif.VM.Invariant

/-!
# The interpreter as it is written: loops inside loops

`Verif.VM.Machine` runs all frames in one loop.  `run.c` runs a loop for every frame: `CALL` calls
`Object_Call`, which calls `runExecutableAtIndex`, which runs the loop of the callee to its end and
returns its results.  Here is that structure, function by function, and the proof that both do the
same (`C37_nested`).

Fuel bounds the depth of the recursion and the number of iterations of a loop; `t` counts the
checks for interrupts made so far.
-/

set_option linter.unusedVariables false
set_option linter.unusedSimpArgs false

namespace Noja.VM

variable {W : Type}

/-- How a function of `run.c` returns. -/
inductive NR (W α : Type) where
  | ok (a : α) (t : Nat) (s : St W)
  /-- with a failure value; an error was reported -/
  | err (s : St W)
  | limit (s : St W)
  | ub
  /-- out of fuel -/
  | more

def NR.bind {α β : Type} (x : NR W α) (f : α → Nat → St W → NR W β) : NR W β :=
  match x with
  | .ok a t s => f a t s
  | .err s => .err s
  | .limit s => .limit s
  | .ub => .ub
  | .more => .more

/-- A function that does not run any loop. -/
def NR.of {α : Type} (a : α) (t : Nat) : Status W → NR W α
  | .run s => .ok a t s
  | .err s => .err s
  | .limit s => .limit s
  | .done _ _ => .ub
  | .ub => .ub

/-- runtime.c:436-481 `Runtime_Pop`. -/
def St.popE (n : Nat) (s : St W) : Option (List Ref × St W) :=
  match s.frames with
  | .normal f :: fs =>
    if f.used < n then none
    else some (s.stack.take n,
      { s with stack := s.stack.drop n, frames := .normal { f with used := f.used - n } :: fs })
  | _ => none

/-- run.c:1108-1131 `runExecutableAtIndex`; `loop` is `runInstructionsUntilSomethingHappens`.
(The field `want` of the new frame is not used.) -/
def runExe (L : Layer W) (cap : Nat) (loop : Nat → St W → NR W Unit) (exe addr : Nat)
    (closure : Option Ref) (want : Nat) (args : List Ref) (t : Nat) (s : St W) : NR W (List Ref) :=
  (NR.of () t (enter L cap exe addr closure want args s)).bind fun _ t s =>
    (loop t s).bind fun _ t s =>
      match s.frames with
      | .normal f :: fs =>
        .ok (s.stack.take f.used).reverse t { s with stack := s.stack.drop f.used, frames := fs }
      | _ => .err s

/-- objects.c:133-147 `Object_Call`, run.c:41-118 `func_call`, run.c:207-283
`native_func_call`, basic.c:122-137 `bin_import`. -/
def objectCall (L : Layer W) (cap : Nat) (loop : Nat → St W → NR W Unit) (f : Ref) (argv : List Ref)
    (want t : Nat) (s : St W) : NR W (List Ref) :=
  match L.callee f s.w with
  | .err w => .err { s with w := w }
  | .ub => .ub
  | .ok w .no => .err { s with w := w }
  | .ok w (.noja clo) =>
    match s.funcs f with
    | none => .ub
    | some fn => runExe L cap loop fn.exe fn.addr (some clo) want (L.fit fn.argc argv) t { s with w := w }
  | .ok w (.native id argc) =>
    if maxFrames ≤ s.frames.length then .limit { s with w := w }
    else
      match L.native id (L.adapt argc argv) w with
      | .err w => .err { s with w := w, frames := .native want :: s.frames }
      | .ub => .ub
      | .ok w (.done rets) => .ok rets t { s with w := w }
      | .ok w (.load p) =>
        if p.wf false then
          (runExe L cap loop s.exes.length 0 none 0 [] t
            { s with w := w, exes := s.exes ++ [compile p], frames := .native want :: s.frames }).bind
              fun rets t s => .ok rets t { s with frames := s.frames.tail }
        else .ub

/-- run.c:755-804, `CALL`. -/
def callI (L : Layer W) (cap : Nat) (loop : Nat → St W → NR W Unit) (argc want t : Nat) (s : St W) :
    NR W Bool :=
  match s.popE 1 with
  | none => .err s
  | some ([f], s) =>
    if maxArgs < argc then .limit s
    else
      match s.popE argc with
      | none => .err s
      | some (argv, s) =>
        (objectCall L cap loop f argv want t s).bind fun rets t s => NR.of true t (deliver L cap want rets s)
  | some _ => .ub

/-- run.c:495-1080 `runInstruction`; the value says whether it returned 1. -/
def instr (L : Layer W) (cap : Nat) (loop : Nat → St W → NR W Unit) (t : Nat) (s : St W) : NR W Bool :=
  match s.frames with
  | .normal f :: fs =>
    match fetch s.exes f.exe f.idx with
    | none => .err s
    | some (.call argc want) =>
      callI L cap loop argc want t { s with frames := .normal { f with idx := f.idx + 1 } :: fs }
    | some (.ret _) => .ok false t { s with frames := .normal { f with idx := f.idx + 1 } :: fs }
    | some .exit =>
      NR.of false t ({ s with frames := .normal { f with idx := f.idx + 1 } :: fs }.push cap f.locals)
    | some i => NR.of true t (execI L cap i { s with frames := .normal { f with idx := f.idx + 1 } :: fs })
  | _ => .err s

/-- run.c:1082-1105 `runInstructionsUntilSomethingHappens`. -/
def loop (L : Layer W) (cap : Nat) (stop : Nat → Bool) : Nat → Nat → St W → NR W Unit
  | 0, _, _ => .more
  | fuel + 1, t, s =>
    if stop t then .err s
    else
      (instr L cap (loop L cap stop fuel) (t + 1) s).bind fun again t s =>
        if again then loop L cap stop fuel t s
        else if L.pending s.w then .err s
        else .ok () t s

/-- run.c:1133-1150: running an executable from its beginning. -/
def runTop (L : Layer W) (cap : Nat) (stop : Nat → Bool) (fuel e : Nat) (s : St W) : NR W (List Ref) :=
  runExe L cap (loop L cap stop fuel) e 0 none 0 [] 0 s

/-! ## Both do the same -/

variable {L : Layer W} {cap : Nat} {stop : Nat → Bool}

/-- The flat machine goes on. -/
def go (L : Layer W) (cap : Nat) (stop : Nat → Bool) (n t : Nat) : Status W → Status W
  | .run s => exec L cap stop n t s
  | x => x

theorem exec_succ (n t : Nat) (s : St W) :
    exec L cap stop (n + 1) t s = if stop t then .err s else go L cap stop n (t + 1) (step L cap s) := by
  show (if stop t then _ else _) = _
  by_cases h : stop t = true
  · rw [if_pos h, if_pos h]
  · rw [if_neg h, if_neg h]
    cases step L cap s <;> rfl

/-- Not the end of the outermost frame. -/
def Status.nd : Status W → Prop
  | .done _ _ => False
  | _ => True

theorem push_nd (v : Ref) (s : St W) : (s.push cap v).nd := by
  unfold St.push
  split
  · split
    · trivial
    · split <;> trivial
  · trivial

theorem pushAll_nd : ∀ (vs : List Ref) (s : St W), (s.pushAll cap vs).nd
  | [], s => trivial
  | v :: vs, s => by
    simp only [St.pushAll]
    have := push_nd (cap := cap) v s
    revert this
    cases s.push cap v with
    | run u => intro _; exact pushAll_nd vs u
    | _ => exact id

theorem pop_nd {n : Nat} {s : St W} {k : List Ref → St W → Status W} (h : ∀ vs s, (k vs s).nd) : (s.pop n k).nd := by
  unfold St.pop
  split
  · split
    · trivial
    · exact h _ _
  · trivial

theorem peek_nd {n : Nat} {s : St W} {k : List Ref → Status W} (h : ∀ vs, (k vs).nd) : (s.peek n k).nd := by
  unfold St.peek
  split
  · split
    · trivial
    · exact h _
  · trivial

theorem prim_nd {α : Type} {s : St W} {o : Out W α} {k : α → St W → Status W} (h : ∀ a s, (k a s).nd) :
    (s.prim o k).nd := by
  unfold St.prim
  split
  · exact h _ _
  · trivial
  · trivial

theorem goto_nd (a : Nat) (s : St W) : (s.goto a).nd := by
  unfold St.goto
  split <;> trivial

theorem deliver_nd (want : Nat) (rets : List Ref) (s : St W) : (deliver L cap want rets s).nd := by
  unfold deliver
  split
  · trivial
  · exact pushAll_nd _ _

theorem enter_nd (exe addr : Nat) (closure : Option Ref) (want : Nat) (args : List Ref) (s : St W) :
    (enter L cap exe addr closure want args s).nd := by
  unfold enter
  refine prim_nd fun a s => ?_
  split
  · trivial
  · exact pushAll_nd _ _

/-- Neither a call nor an end. -/
def Instr.plain : Instr → Bool
  | .call _ _ => false
  | .ret _ => false
  | .exit => false
  | _ => true

theorem execI_nd (i : Instr) (hi : i.plain = true) (s : St W) : (execI L cap i s).nd := by
  cases i with
  | call => cases hi
  | ret => cases hi
  | exit => cases hi
  | nope => trivial
  | un op =>
    cases op with
    | pos => simp only [execI]; refine peek_nd fun _ => ?_; trivial
    | _ =>
      simp only [execI]
      refine pop_nd fun vs s => ?_
      split
      · exact prim_nd fun _ _ => push_nd _ _
      · trivial
  | bin op =>
    simp only [execI]
    refine pop_nd fun vs s => ?_
    split
    · exact prim_nd fun _ _ => push_nd _ _
    · trivial
  | ass n =>
    simp only [execI]
    refine peek_nd fun vs => ?_
    split
    · exact prim_nd fun _ _ => trivial
    · trivial
  | pop n => simp only [execI]; refine pop_nd fun _ _ => ?_; trivial
  | checkType a b =>
    simp only [execI]
    refine peek_nd fun vs => ?_
    split
    · refine pop_nd fun _ _ => prim_nd fun r _ => ?_
      cases r <;> trivial
    · trivial
  | select =>
    simp only [execI]
    refine peek_nd fun vs => ?_
    split
    · exact pop_nd fun _ _ => prim_nd fun r _ => push_nd _ _
    · trivial
  | select2 =>
    simp only [execI]
    refine peek_nd fun vs => ?_
    split
    · exact pop_nd fun _ _ => prim_nd fun r _ => push_nd _ _
    · trivial
  | insert =>
    simp only [execI]
    refine peek_nd fun vs => ?_
    split
    · exact pop_nd fun _ _ => prim_nd fun r _ => trivial
    · trivial
  | insert2 =>
    simp only [execI]
    refine peek_nd fun vs => ?_
    split
    · exact pop_nd fun _ _ => prim_nd fun r _ => trivial
    · trivial
  | pushInt v => exact prim_nd fun _ _ => push_nd _ _
  | pushFlt v => exact prim_nd fun _ _ => push_nd _ _
  | pushStr v => exact prim_nd fun _ _ => push_nd _ _
  | pushVar n =>
    simp only [execI]
    split
    · exact prim_nd fun _ _ => push_nd _ _
    · trivial
  | pushNne => exact push_nd _ _
  | pushTru => exact push_nd _ _
  | pushFls => exact push_nd _ _
  | pushFun a b c =>
    simp only [execI]
    split
    · exact prim_nd fun _ _ => push_nd _ _
    · trivial
  | pushLst n => exact prim_nd fun _ _ => push_nd _ _
  | pushMap n => exact prim_nd fun _ _ => push_nd _ _
  | pushNneTyp => exact push_nd _ _
  | pushTyp =>
    simp only [execI]
    refine peek_nd fun vs => ?_
    split
    · exact prim_nd fun _ _ => push_nd _ _
    · trivial
  | jump a => exact goto_nd _ _
  | jumpIf a =>
    simp only [execI]
    refine pop_nd fun vs s => ?_
    split
    · refine prim_nd fun b s => ?_
      cases b
      · trivial
      · exact goto_nd _ _
    · trivial
  | jumpIfNot a =>
    simp only [execI]
    refine pop_nd fun vs s => ?_
    split
    · refine prim_nd fun b s => ?_
      cases b
      · exact goto_nd _ _
      · trivial
    · trivial

theorem pop_popE (n : Nat) (s : St W) (k : List Ref → St W → Status W) :
    s.pop n k = match s.popE n with
      | none => .err s
      | some (vs, s) => k vs s := by
  unfold St.pop St.popE
  cases s.frames with
  | nil => rfl
  | cons f fs =>
    cases f with
    | native _ => rfl
    | normal f =>
      dsimp only
      by_cases h : f.used < n
      · rw [if_pos h, if_pos h]
      · rw [if_neg h, if_neg h]

/-- `x` is what the flat machine does from `c n`, `n` steps being left after some number `k`:
it fails as `x` fails, and if `x` succeeds it goes on as `next` says. -/
def Flat (L : Layer W) (cap : Nat) (stop : Nat → Bool) (fuel : Nat) (c : Nat → Status W) {α : Type} (x : NR W α)
    (next : α → Nat → St W → Nat → Status W) : Prop :=
  match x with
  | .ok a t s => ∃ k, ∀ n, c (n + k) = next a t s n
  | .err s => ∃ k, ∀ n, c (n + k) = .err s
  | .limit s => ∃ k, ∀ n, c (n + k) = .limit s
  | .ub => ∃ k, ∀ n, c (n + k) = .ub
  | .more => ∃ n u, fuel ≤ n ∧ c n = .run u

theorem flat_of {fuel : Nat} {α β : Type} {x : Status W} (hx : x.nd) {a : α} {t : Nat}
    {f : α → Nat → St W → NR W β} {next : β → Nat → St W → Nat → Status W}
    (h : ∀ s, x = .run s → Flat L cap stop fuel (fun n => exec L cap stop n t s) (f a t s) next) :
    Flat L cap stop fuel (fun n => go L cap stop n t x) ((NR.of a t x).bind f) next := by
  cases x with
  | run s => exact h s rfl
  | done _ _ => cases hx
  | err s => exact ⟨0, fun n => rfl⟩
  | limit s => exact ⟨0, fun n => rfl⟩
  | ub => exact ⟨0, fun n => rfl⟩

theorem flat_bind {fuel : Nat} {α β : Type} {c : Nat → Status W} {x : NR W α}
    {f : α → Nat → St W → NR W β} {mid : α → Nat → St W → Nat → Status W}
    {next : β → Nat → St W → Nat → Status W}
    (h : Flat L cap stop fuel c x mid)
    (h2 : ∀ a t s, x = .ok a t s → Flat L cap stop fuel (mid a t s) (f a t s) next) :
    Flat L cap stop fuel c (x.bind f) next := by
  cases x with
  | ok a t s =>
    obtain ⟨k, hk⟩ := h
    have h2 := h2 a t s rfl
    show Flat L cap stop fuel c (f a t s) next
    revert h2
    cases f a t s with
    | ok b t' s' =>
      rintro ⟨k', hk'⟩
      exact ⟨k' + k, fun n => by rw [← Nat.add_assoc, hk, hk']⟩
    | err s' =>
      rintro ⟨k', hk'⟩
      exact ⟨k' + k, fun n => by rw [← Nat.add_assoc, hk, hk']⟩
    | limit s' =>
      rintro ⟨k', hk'⟩
      exact ⟨k' + k, fun n => by rw [← Nat.add_assoc, hk, hk']⟩
    | ub =>
      rintro ⟨k', hk'⟩
      exact ⟨k' + k, fun n => by rw [← Nat.add_assoc, hk, hk']⟩
    | more =>
      rintro ⟨n, u, hn, hu⟩
      exact ⟨n + k, u, by omega, by rw [hk, hu]⟩
  | err s => exact h
  | limit s => exact h
  | ub => exact h
  | more => exact h

/-- One more step. -/
theorem flat_step {fuel : Nat} {α : Type} {c d : Nat → Status W} {x : NR W α}
    {next : α → Nat → St W → Nat → Status W} (hc : ∀ n, c (n + 1) = d n)
    (h : Flat L cap stop fuel d x next) : Flat L cap stop (fuel + 1) c x next := by
  cases x with
  | ok a t s => obtain ⟨k, hk⟩ := h; exact ⟨k + 1, fun n => by rw [← Nat.add_assoc, hc, hk]⟩
  | err s => obtain ⟨k, hk⟩ := h; exact ⟨k + 1, fun n => by rw [← Nat.add_assoc, hc, hk]⟩
  | limit s => obtain ⟨k, hk⟩ := h; exact ⟨k + 1, fun n => by rw [← Nat.add_assoc, hc, hk]⟩
  | ub => obtain ⟨k, hk⟩ := h; exact ⟨k + 1, fun n => by rw [← Nat.add_assoc, hc, hk]⟩
  | more =>
    obtain ⟨n, u, hn, hu⟩ := h
    exact ⟨n + 1, u, by omega, by rw [hc, hu]⟩

/-- A frame of the language, its values, and what is below. -/
def Stack (f : NFrame) (fs : List Frame) (st : List Ref) (s : St W) : Prop :=
  s.frames = .normal f :: fs ∧ ∃ us, s.stack = us ++ st ∧ us.length = f.used

/-- What a loop does, and what it leaves. -/
structure LoopOk (L : Layer W) (cap : Nat) (stop : Nat → Bool) (fuel : Nat) (lp : Nat → St W → NR W Unit) : Prop where
  flat : ∀ t s f fs st, Stack f fs st s → Shape fs →
    Flat L cap stop fuel (fun n => exec L cap stop n t s) (lp t s) fun _ t s n => go L cap stop n t (leave L cap s)
  post : ∀ t s f fs st t' s', Stack f fs st s → Shape fs → lp t s = .ok () t' s' →
    L.pending s'.w = false ∧ ∃ f', f'.want = f.want ∧ Stack f' fs st s'

theorem popE_stack {n : Nat} {f : NFrame} {fs : List Frame} {st : List Ref} {s s' : St W} {vs : List Ref}
    (h : Stack f fs st s) (hp : s.popE n = some (vs, s')) :
    Stack { f with used := f.used - n } fs st s' := by
  obtain ⟨hf, us, hs, hu⟩ := h
  unfold St.popE at hp
  rw [hf] at hp
  dsimp only at hp
  by_cases q : f.used < n
  · rw [if_pos q] at hp; cases hp
  · rw [if_neg q] at hp
    cases hp
    refine ⟨rfl, us.drop n, ?_, by simp [hu]⟩
    show s.stack.drop n = _
    rw [hs, List.drop_append_of_le_length (by omega)]

theorem enter_stack {exe addr : Nat} {closure : Option Ref} {want : Nat} {args : List Ref} {s u : St W}
    (h : enter L cap exe addr closure want args s = .run u) :
    ∃ g : NFrame, g.want = want ∧ Stack g s.frames s.stack u := by
  have := enter_post (L := L) (cap := cap) (exe := exe) (addr := addr) (closure := closure) (want := want)
    (args := args) (s := s) (Q := fun u => ∃ g : NFrame, g.want = want ∧ Stack g s.frames s.stack u)
    (fun w locals vs hv => ⟨_, rfl, rfl, vs, rfl, hv⟩)
  rw [h] at this
  exact this

/-- The end of a callee whose caller is `fs`. -/
def back (L : Layer W) (cap : Nat) (want : Nat) (rets : List Ref) (s : St W) : Status W :=
  match s.frames with
  | [] => .done rets s
  | .normal _ :: _ => deliver L cap want rets s
  | .native k :: fs => deliver L cap k rets { s with frames := fs }

theorem runExe_flat {fuel : Nat} {lp : Nat → St W → NR W Unit} (hl : LoopOk L cap stop fuel lp)
    {exe addr : Nat} {closure : Option Ref} {want : Nat} {args : List Ref} {t : Nat} {s : St W}
    (hsh : Shape s.frames) :
    Flat L cap stop fuel (fun n => go L cap stop n t (enter L cap exe addr closure want args s))
      (runExe L cap lp exe addr closure want args t s)
      (fun rets t s n => go L cap stop n t (back L cap want rets s)) ∧
    ∀ rets t' s', runExe L cap lp exe addr closure want args t s = .ok rets t' s' →
      s'.frames = s.frames ∧ s'.stack = s.stack := by
  constructor
  · refine flat_of (enter_nd _ _ _ _ _ _) fun u hu => ?_
    obtain ⟨g, hg, hs⟩ := enter_stack hu
    refine flat_bind (hl.flat t u g _ _ hs hsh) fun _ t' u' hu' => ?_
    obtain ⟨hp, g', hg', hf', us', hs', hu''⟩ := hl.post _ _ _ _ _ _ _ hs hsh hu'
    simp only [hf']
    refine ⟨0, fun n => ?_⟩
    unfold leave back
    rw [hf']
    dsimp only
    rw [if_neg (by rw [hp]; simp), hg', hg]
    cases s.frames with
    | nil => rfl
    | cons f fs => cases f <;> rfl
  · intro rets t' s' h
    unfold runExe at h
    cases hu : enter L cap exe addr closure want args s with
    | run u =>
      rw [hu] at h
      obtain ⟨g, hg, hs⟩ := enter_stack hu
      simp only [NR.of, NR.bind] at h
      cases hlp : lp t u with
      | ok a t1 u1 =>
        rw [hlp] at h
        obtain ⟨hp, g', hg', hf', us', hs', hu''⟩ := hl.post _ _ _ _ _ _ _ hs hsh hlp
        simp only [hf'] at h
        cases h
        refine ⟨rfl, ?_⟩
        show u1.stack.drop g'.used = s.stack
        rw [hs', List.drop_append_of_le_length (by omega), List.drop_eq_nil_of_le (by omega), List.nil_append]
      | _ => rw [hlp] at h; cases h
    | _ => rw [hu] at h; cases h

theorem objectCall_flat {fuel : Nat} {lp : Nat → St W → NR W Unit} (hl : LoopOk L cap stop fuel lp)
    {r : Ref} {argv : List Ref} {want t : Nat} {s : St W} {f : NFrame} {fs : List Frame}
    (hf : s.frames = .normal f :: fs) (hsh : Shape fs) :
    Flat L cap stop fuel (fun n => go L cap stop n t (callObj L cap r argv want s))
      (objectCall L cap lp r argv want t s)
      (fun rets t s n => go L cap stop n t (deliver L cap want rets s)) ∧
    ∀ rets t' s', objectCall L cap lp r argv want t s = .ok rets t' s' →
      s'.frames = s.frames ∧ s'.stack = s.stack := by
  have hsh' : Shape s.frames := by rw [hf]; exact .normal hsh
  unfold callObj objectCall St.prim
  cases hc : L.callee r s.w with
  | err w => exact ⟨⟨0, fun n => rfl⟩, fun _ _ _ h => by cases h⟩
  | ub => exact ⟨⟨0, fun n => rfl⟩, fun _ _ _ h => by cases h⟩
  | ok w c =>
    cases c with
    | no => exact ⟨⟨0, fun n => rfl⟩, fun _ _ _ h => by cases h⟩
    | noja clo =>
      dsimp only
      cases hfn : s.funcs r with
      | none => exact ⟨⟨0, fun n => rfl⟩, fun _ _ _ h => by cases h⟩
      | some fn =>
        dsimp only
        have key := runExe_flat hl (exe := fn.exe) (addr := fn.addr) (closure := some clo) (want := want)
          (args := L.fit fn.argc argv) (t := t) (s := { s with w := w }) hsh'
        refine ⟨?_, key.2⟩
        have k1 := key.1
        have k2 := key.2
        revert k1 k2
        cases runExe L cap lp fn.exe fn.addr (some clo) want (L.fit fn.argc argv) t { s with w := w } with
        | ok rets t' s' =>
          rintro ⟨k, hk⟩ k2
          refine ⟨k, fun n => ?_⟩
          have hfr := (k2 rets t' s' rfl).1
          have hb : back L cap want rets s' = deliver L cap want rets s' := by
            unfold back
            rw [show s'.frames = .normal f :: fs from hfr.trans hf]
          show _ = go L cap stop n t' (deliver L cap want rets s')
          rw [← hb]
          exact hk n
        | err s' => exact fun h _ => h
        | limit s' => exact fun h _ => h
        | ub => exact fun h _ => h
        | more => exact fun h _ => h
    | native id argc =>
      dsimp only
      by_cases hm : maxFrames ≤ s.frames.length
      · rw [if_pos hm, if_pos hm]
        exact ⟨⟨0, fun n => rfl⟩, fun _ _ _ h => by cases h⟩
      · rw [if_neg hm, if_neg hm]
        cases hn : L.native id (L.adapt argc argv) w with
        | err w => exact ⟨⟨0, fun n => rfl⟩, fun _ _ _ h => by cases h⟩
        | ub => exact ⟨⟨0, fun n => rfl⟩, fun _ _ _ h => by cases h⟩
        | ok w' r' =>
          cases r' with
          | done rets =>
            refine ⟨⟨0, fun n => rfl⟩, ?_⟩
            intro _ _ _ h
            cases h
            exact ⟨rfl, rfl⟩
          | load p =>
            dsimp only
            by_cases hw : p.wf false = true
            · rw [if_pos hw, if_pos hw]
              have hsn : Shape (.native want :: s.frames) := by rw [hf]; exact .native (.normal hsh)
              have key := runExe_flat hl (exe := s.exes.length) (addr := 0) (closure := none) (want := 0)
                (args := []) (t := t)
                (s := { s with w := w', exes := s.exes ++ [compile p], frames := .native want :: s.frames }) hsn
              constructor
              · refine flat_bind key.1 fun rets t' u hu => ?_
                obtain ⟨h1, h2⟩ := key.2 _ _ _ hu
                have h1' : u.frames = .native want :: s.frames := h1
                refine ⟨0, fun n => ?_⟩
                unfold back
                rw [h1']
                rfl
              · intro rets t' s' h
                revert h
                have k2 := key.2
                revert k2
                cases runExe L cap lp s.exes.length 0 none 0 [] t
                  { s with w := w', exes := s.exes ++ [compile p], frames := .native want :: s.frames } with
                | ok a b u =>
                  intro k2 h
                  obtain ⟨h1, h2⟩ := k2 _ _ _ rfl
                  cases h
                  refine ⟨?_, h2⟩
                  show u.frames.tail = _
                  rw [h1]
                  rfl
                | _ => intro _ h; cases h
            · rw [if_neg hw, if_neg hw]
              exact ⟨⟨0, fun n => rfl⟩, fun _ _ _ h => by cases h⟩

theorem deliver_stack {want : Nat} {rets : List Ref} {s u : St W} {f : NFrame} {fs : List Frame} {st : List Ref}
    (hs : Stack f fs st s) (h : deliver L cap want rets s = .run u) :
    ∃ f', f'.want = f.want ∧ Stack f' fs st u := by
  obtain ⟨hf, us, hst, hu⟩ := hs
  have := deliver_post (L := L) (cap := cap) (want := want) (rets := rets) (s := s)
    (Q := fun u => ∃ f' : NFrame, f'.want = f.want ∧ Stack f' fs st u) hf
    (fun vs hv => ⟨{ f with used := f.used + want }, rfl, rfl, vs ++ us,
      by show vs ++ s.stack = _; rw [hst, List.append_assoc],
      by show (vs ++ us).length = f.used + want; rw [List.length_append, hv, hu]; omega⟩)
  rw [h] at this
  exact this

/-- What `CALL` does and what it leaves. -/
theorem callI_flat {fuel : Nat} {lp : Nat → St W → NR W Unit} (hl : LoopOk L cap stop fuel lp)
    {argc want t : Nat} {s : St W} {f : NFrame} {fs : List Frame} {st : List Ref}
    (hs : Stack f fs st s) (hsh : Shape fs) :
    Flat L cap stop fuel (fun n => go L cap stop n t (execI L cap (.call argc want) s))
      (callI L cap lp argc want t s) (fun _ t s n => exec L cap stop n t s) ∧
    ∀ b t' s', callI L cap lp argc want t s = .ok b t' s' →
      b = true ∧ ∃ f', f'.want = f.want ∧ Stack f' fs st s' := by
  simp only [execI, callI, pop_popE]
  cases hp : s.popE 1 with
  | none => exact ⟨⟨0, fun n => rfl⟩, fun _ _ _ h => by cases h⟩
  | some q =>
    obtain ⟨vs, s1⟩ := q
    have hs1 := popE_stack hs hp
    match vs with
    | [] => exact ⟨⟨0, fun n => rfl⟩, fun _ _ _ h => by cases h⟩
    | _ :: _ :: _ => exact ⟨⟨0, fun n => rfl⟩, fun _ _ _ h => by cases h⟩
    | [r] =>
      dsimp only
      by_cases hm : maxArgs < argc
      · rw [if_pos hm, if_pos hm]
        exact ⟨⟨0, fun n => rfl⟩, fun _ _ _ h => by cases h⟩
      · rw [if_neg hm, if_neg hm]
        cases hp2 : s1.popE argc with
        | none => exact ⟨⟨0, fun n => rfl⟩, fun _ _ _ h => by cases h⟩
        | some q2 =>
          obtain ⟨argv, s2⟩ := q2
          have hs2 := popE_stack hs1 hp2
          dsimp only
          have key := objectCall_flat hl (r := r) (argv := argv) (want := want) (t := t) hs2.1 hsh
          constructor
          · refine flat_bind key.1 fun rets t' u hu => ?_
            have hd := deliver_nd (L := L) (cap := cap) want rets u
            revert hd
            show _ → Flat L cap stop fuel (fun n => go L cap stop n t' (deliver L cap want rets u)) _ _
            cases deliver L cap want rets u with
            | run v => exact fun _ => ⟨0, fun n => rfl⟩
            | done _ _ => exact fun h => h.elim
            | err v => exact fun _ => ⟨0, fun n => rfl⟩
            | limit v => exact fun _ => ⟨0, fun n => rfl⟩
            | ub => exact fun _ => ⟨0, fun n => rfl⟩
          · intro b t' s' h
            have k2 := key.2
            revert h k2
            cases objectCall L cap lp r argv want t s2 with
            | ok rets t1 u =>
              intro h k2
              obtain ⟨h1, h2⟩ := k2 _ _ _ rfl
              have hsu : Stack { f with used := f.used - 1 - argc } fs st u := by
                obtain ⟨a, us, b, c⟩ := hs2
                exact ⟨h1.trans a, us, h2.trans b, c⟩
              simp only [NR.bind] at h
              cases hd : deliver L cap want rets u with
              | run v =>
                rw [hd] at h
                cases h
                exact ⟨rfl, deliver_stack (f := { f with used := f.used - 1 - argc }) hsu hd⟩
              | _ => rw [hd] at h; cases h
            | _ => intro h; cases h

theorem instr_plain {lp : Nat → St W → NR W Unit} {t : Nat} {s : St W} {f : NFrame} {fs : List Frame} {i : Instr}
    (hf : s.frames = .normal f :: fs) (hi : fetch s.exes f.exe f.idx = some i) (hp : i.plain = true) :
    instr L cap lp t s =
      NR.of true t (execI L cap i { s with frames := .normal { f with idx := f.idx + 1 } :: fs }) := by
  unfold instr
  rw [hf]
  dsimp only
  rw [hi]
  cases i <;> first | rfl | cases hp

theorem step_of {s : St W} {f : NFrame} {fs : List Frame} {i : Instr}
    (hf : s.frames = .normal f :: fs) (hi : fetch s.exes f.exe f.idx = some i) :
    step L cap s = execI L cap i { s with frames := .normal { f with idx := f.idx + 1 } :: fs } := by
  unfold step
  rw [hf]
  dsimp only
  rw [hi]

theorem plain_stack {i : Instr} (hp : i.plain = true) {s u : St W} {f : NFrame} {fs : List Frame} {st : List Ref}
    (hs : Stack f fs st s) (hi : 0 < f.idx) (hsh : Shape fs) (h : execI L cap i s = .run u) :
    ∃ f', f'.want = f.want ∧ Stack f' fs st u := by
  obtain ⟨hf, us, hst, hu⟩ := hs
  have := execI_trans (L := L) (cap := cap) i hf hst hu hi hsh
  rw [h] at this
  cases this with
  | stay us' idx _ _ _ _ hfr hstk _ _ => exact ⟨{ f with idx := idx, used := us'.length }, rfl, hfr, us', hstk, rfl⟩
  | call argc want args h nat e => subst e; cases hp
  | back k g gs vs e =>
    rcases e with e | ⟨n, e⟩ <;> subst e <;> cases hp

/-- What the fetched instruction may leave. -/
theorem instr_post {fuel : Nat} {lp : Nat → St W → NR W Unit} (hl : LoopOk L cap stop fuel lp)
    {t : Nat} {s : St W} {f : NFrame} {fs : List Frame} {st : List Ref} (hs : Stack f fs st s) (hsh : Shape fs)
    {b : Bool} {t' : Nat} {s' : St W} (h : instr L cap lp t s = .ok b t' s') :
    ∃ f', f'.want = f.want ∧ Stack f' fs st s' := by
  have hs0 := hs
  obtain ⟨hf, us, hst, hu⟩ := hs
  have hs1 : Stack { f with idx := f.idx + 1 } fs st { s with frames := .normal { f with idx := f.idx + 1 } :: fs } :=
    ⟨rfl, us, hst, hu⟩
  cases hi : fetch s.exes f.exe f.idx with
  | none =>
    unfold instr at h
    rw [hf] at h
    dsimp only at h
    rw [hi] at h
    cases h
  | some i =>
    by_cases hp : i.plain = true
    · rw [instr_plain hf hi hp] at h
      cases hx : execI L cap i { s with frames := .normal { f with idx := f.idx + 1 } :: fs } with
      | run u =>
        rw [hx] at h
        cases h
        exact plain_stack (f := { f with idx := f.idx + 1 }) hp hs1 (Nat.succ_pos _) hsh hx
      | _ => rw [hx] at h; cases h
    · unfold instr at h
      rw [hf] at h
      dsimp only at h
      rw [hi] at h
      cases i with
      | call argc want => exact ((callI_flat hl hs1 hsh).2 _ _ _ h).2
      | ret _ => cases h; exact ⟨{ f with idx := f.idx + 1 }, rfl, hs1⟩
      | exit =>
        dsimp only at h
        have := push_post (cap := cap) f.locals (s := { s with frames := .normal { f with idx := f.idx + 1 } :: fs })
          (Q := fun u => ∃ f' : NFrame, f'.want = f.want ∧ Stack f' fs st u) rfl
          ⟨{ f with idx := f.idx + 1, used := f.used + 1 }, rfl, rfl, f.locals :: us,
            by show f.locals :: s.stack = _; rw [hst]; rfl, by show us.length + 1 = f.used + 1; rw [hu]⟩
        revert h this
        cases ({ s with frames := .normal { f with idx := f.idx + 1 } :: fs } : St W).push cap f.locals with
        | run u => intro h this; cases h; exact this
        | _ => intro h; cases h
      | _ => exact absurd rfl hp

/-- Every loop runs as the flat machine does. -/
theorem loop_ok : ∀ fuel, LoopOk L cap stop fuel (loop L cap stop fuel)
  | 0 => ⟨fun t s f fs st hs hsh => ⟨0, s, Nat.le_refl 0, rfl⟩, fun _ _ _ _ _ _ _ _ _ h => by cases h⟩
  | fuel + 1 => by
    have hl := loop_ok fuel
    constructor
    · intro t s f fs st hs hsh
      have hs0 := hs
      obtain ⟨hf, us, hst, hu⟩ := hs
      simp only [loop]
      by_cases hstop : stop t = true
      · rw [if_pos hstop]
        exact ⟨1, fun n => by show exec L cap stop (n + 1) t s = _; rw [exec_succ, if_pos hstop]⟩
      · rw [if_neg hstop]
        refine flat_step (d := fun n => go L cap stop n (t + 1) (step L cap s))
          (fun n => by rw [exec_succ, if_neg hstop]) ?_
        have hs1 : Stack { f with idx := f.idx + 1 } fs st { s with frames := .normal { f with idx := f.idx + 1 } :: fs } :=
          ⟨rfl, us, hst, hu⟩
        cases hi : fetch s.exes f.exe f.idx with
        | none =>
          have e1 : step L cap s = .err s := by
            unfold step; rw [hf]; dsimp only; rw [hi]
          have e2 : instr L cap (loop L cap stop fuel) (t + 1) s = .err s := by
            unfold instr; rw [hf]; dsimp only; rw [hi]
          rw [e1, e2]
          exact ⟨0, fun n => rfl⟩
        | some i =>
          by_cases hp : i.plain = true
          · rw [instr_plain hf hi hp, step_of hf hi]
            refine flat_of (execI_nd i hp _) fun u hx => ?_
            obtain ⟨f', _, hs'⟩ := plain_stack (f := { f with idx := f.idx + 1 }) hp hs1 (Nat.succ_pos _) hsh hx
            exact hl.flat _ _ _ _ _ hs' hsh
          · rw [step_of hf hi]
            have ending : ∀ u : St W, Stack f fs st u ∨ True → (∃ g : NFrame, u.frames = .normal g :: fs) →
                Flat L cap stop fuel (fun n => go L cap stop n (t + 1) (leave L cap u))
                  (if L.pending u.w then (.err u : NR W Unit) else .ok () (t + 1) u)
                  (fun _ t s n => go L cap stop n t (leave L cap s)) := by
              intro u _ ⟨g, hg⟩
              by_cases hpe : L.pending u.w = true
              · rw [if_pos hpe]
                refine ⟨0, fun n => ?_⟩
                unfold leave
                rw [hg]
                dsimp only
                rw [if_pos hpe]
                rfl
              · rw [if_neg hpe]
                exact ⟨0, fun n => rfl⟩
            cases i with
            | call argc want =>
              have e2 : instr L cap (loop L cap stop fuel) (t + 1) s =
                  callI L cap (loop L cap stop fuel) argc want (t + 1)
                    { s with frames := .normal { f with idx := f.idx + 1 } :: fs } := by
                unfold instr; rw [hf]; dsimp only; rw [hi]
              rw [e2]
              have key := callI_flat hl (argc := argc) (want := want) (t := t + 1) hs1 hsh
              refine flat_bind key.1 fun b t' u hu => ?_
              obtain ⟨hb, f', _, hs'⟩ := key.2 _ _ _ hu
              subst hb
              exact hl.flat _ _ _ _ _ hs' hsh
            | ret k =>
              have e2 : instr L cap (loop L cap stop fuel) (t + 1) s =
                  .ok false (t + 1) { s with frames := .normal { f with idx := f.idx + 1 } :: fs } := by
                unfold instr; rw [hf]; dsimp only; rw [hi]
              rw [e2]
              exact ending _ (.inr trivial) ⟨_, rfl⟩
            | exit =>
              have e2 : instr L cap (loop L cap stop fuel) (t + 1) s =
                  NR.of false (t + 1)
                    (({ s with frames := .normal { f with idx := f.idx + 1 } :: fs } : St W).push cap f.locals) := by
                unfold instr; rw [hf]; dsimp only; rw [hi]
              rw [e2]
              simp only [execI]
              have h1 := push_nd (cap := cap) f.locals ({ s with frames := .normal { f with idx := f.idx + 1 } :: fs } : St W)
              have h2 := push_post (cap := cap) f.locals
                (s := { s with frames := .normal { f with idx := f.idx + 1 } :: fs })
                (Q := fun u => ∃ g : NFrame, u.frames = .normal g :: fs) rfl ⟨_, rfl⟩
              revert h1 h2
              cases ({ s with frames := .normal { f with idx := f.idx + 1 } :: fs } : St W).push cap f.locals with
              | run u => exact fun _ h2 => ending u (.inr trivial) h2
              | done _ _ => exact fun h => h.elim
              | err u => exact fun _ _ => ⟨0, fun n => rfl⟩
              | limit u => exact fun _ _ => ⟨0, fun n => rfl⟩
              | ub => exact fun _ _ => ⟨0, fun n => rfl⟩
            | _ => exact absurd rfl hp
    · intro t s f fs st t' s' hs hsh h
      simp only [loop] at h
      by_cases hstop : stop t = true
      · rw [if_pos hstop] at h; cases h
      · rw [if_neg hstop] at h
        cases hi : instr L cap (loop L cap stop fuel) (t + 1) s with
        | ok b t1 u =>
          rw [hi] at h
          obtain ⟨f1, hw1, hs1⟩ := instr_post hl hs hsh hi
          simp only [NR.bind] at h
          cases b with
          | true =>
            rw [if_pos rfl] at h
            obtain ⟨hp, f2, hw2, hs2⟩ := hl.post _ _ _ _ _ _ _ hs1 hsh h
            exact ⟨hp, f2, hw2.trans hw1, hs2⟩
          | false =>
            rw [if_neg (by simp)] at h
            by_cases hpe : L.pending u.w = true
            · rw [if_pos hpe] at h; cases h
            · rw [if_neg hpe] at h
              cases h
              exact ⟨by simpa using hpe, f1, hw1, hs1⟩
        | _ => rw [hi] at h; cases h

/-! ## The whole run -/

/-- What `runTop` says, as a status of the machine. -/
def NR.status : NR W (List Ref) → Option (Status W)
  | .ok rets _ s => some (.done rets s)
  | .err s => some (.err s)
  | .limit s => some (.limit s)
  | .ub => some .ub
  | .more => none

/-- The functions of `run.c`, calling each other, and the flat machine give the same outcome: if
the former end at all, the latter ends with the same results, the same state and the same kind of
failure; and if the former do not end within `fuel`, the latter has not ended after some number of
steps not smaller than `fuel`. (Example: `VM/Demo.lean`.) -/
theorem C37_nested (stop : Nat → Bool) (fuel e : Nat) (s : St W) (hs : s.frames = []) :
    (∀ x, (runTop L cap stop fuel e s).status = some x →
      ∃ k, ∀ n, go L cap stop (n + k) 0 (boot L cap e s) = x) ∧
    ((runTop L cap stop fuel e s).status = none →
      ∃ n u, fuel ≤ n ∧ go L cap stop n 0 (boot L cap e s) = .run u) := by
  have key := runExe_flat (L := L) (cap := cap) (stop := stop) (loop_ok fuel) (exe := e) (addr := 0) (closure := none)
    (want := 0) (args := []) (t := 0) (s := s) (by rw [hs]; exact .nil)
  have k1 := key.1
  have k2 := key.2
  unfold runTop boot
  revert k1 k2
  cases runExe L cap (loop L cap stop fuel) e 0 none 0 [] 0 s with
  | ok rets t u =>
    rintro ⟨k, hk⟩ k2
    refine ⟨fun x hx => ?_, fun h => by cases h⟩
    cases hx
    refine ⟨k, fun n => ?_⟩
    have hfr : u.frames = [] := (k2 _ _ _ rfl).1.trans hs
    have hb : back L cap 0 rets u = .done rets u := by
      unfold back; rw [hfr]
    have : go L cap stop (n + k) 0 (enter L cap e 0 none 0 [] s) = go L cap stop n t (back L cap 0 rets u) := hk n
    rw [hb] at this
    exact this
  | err u =>
    intro h _
    exact ⟨fun x hx => (by cases hx; exact h), fun h => (by cases h)⟩
  | limit u =>
    intro h _
    exact ⟨fun x hx => (by cases hx; exact h), fun h => (by cases h)⟩
  | ub =>
    intro h _
    exact ⟨fun x hx => (by cases hx; exact h), fun h => (by cases h)⟩
  | more =>
    intro h _
    exact ⟨fun x hx => (by simp [NR.status] at hx), fun _ => h⟩

/-- The converse: whatever the flat machine ends with, the functions of `run.c` end with, given
enough fuel. (Example: `VM/Demo.lean`.) -/
theorem C37_flat (stop : Nat → Bool) (n e : Nat) (s : St W) (hs : s.frames = []) {x : Status W}
    (hx : go L cap stop n 0 (boot L cap e s) = x) (hr : ∀ u, x ≠ .run u) :
    (runTop L cap stop (n + 1) e s).status = some x := by
  have key := C37_nested (L := L) (cap := cap) stop (n + 1) e s hs
  have mono : ∀ (m t : Nat) (y : Status W) (k : Nat), (∀ u, go L cap stop m t y ≠ .run u) →
      go L cap stop (m + k) t y = go L cap stop m t y := by
    intro m
    induction m with
    | zero =>
      intro t y k h
      cases y with
      | run u => exact absurd rfl (h u)
      | _ => rfl
    | succ m ih =>
      intro t y k h
      cases y with
      | run u =>
        have e : m + 1 + k = (m + k) + 1 := by omega
        show exec L cap stop (m + 1 + k) t u = exec L cap stop (m + 1) t u
        have h' : ∀ v, exec L cap stop (m + 1) t u ≠ .run v := h
        rw [e, exec_succ, exec_succ]
        rw [exec_succ] at h'
        by_cases hst : stop t = true
        · rw [if_pos hst, if_pos hst]
        · rw [if_neg hst, if_neg hst]
          rw [if_neg hst] at h'
          exact ih _ _ _ h'
      | _ => rfl
  have hne : ∀ u, go L cap stop n 0 (boot L cap e s) ≠ .run u := by rw [hx]; exact hr
  cases hst : (runTop L cap stop (n + 1) e s).status with
  | none =>
    obtain ⟨m, u, hm, hu⟩ := key.2 hst
    have := mono n 0 (boot L cap e s) (m - n) hne
    rw [show n + (m - n) = m by omega, hu] at this
    exact absurd this.symm (hne u)
  | some y =>
    obtain ⟨k, hk⟩ := key.1 y hst
    have := mono n 0 (boot L cap e s) k hne
    rw [hk n] at this
    rw [this, hx]

end Noja.VM
