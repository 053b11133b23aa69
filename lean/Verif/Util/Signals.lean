import Verif.Exec

/-!
# The handler of signals (C111)

`signalHandler` (main.c:73-78) looks at a pointer to the runtime, and sets a flag of the runtime if the pointer is not NULL
(`Runtime_Interrupt`, runtime.c:321-324).  The pointer is set when the runtime is made (main.c:209), the handlers are installed after that
(main.c:215-216), and the runtime is freed at the end (main.c:225, 246, 256).  Nobody sets the pointer back, or removes the handlers.

Simplifications: `signal` is the one of glibc, where handlers stay; without a handler the two signals kill the process; a signal comes
between two acts of the process, not in the middle of one; that the flag is a plain `bool` and no `volatile sig_atomic_t` is left out.
-/

namespace Noja.Cli.Signals

/-- What the pointer `runtime` (main.c:71) points to; a runtime is here its field `interrupt` (runtime.c:75). -/
inductive Ptr
  | null
  | live (interrupt : Bool)
  | freed
deriving DecidableEq, Repr

inductive Sig
  | int
  | term
deriving DecidableEq, Repr

/-- The process: the pointer, and which signals have the handler. -/
structure Proc where
  runtime : Ptr
  int : Bool
  term : Bool
deriving DecidableEq, Repr

def Proc.handles (p : Proc) : Sig → Bool
  | .int => p.int
  | .term => p.term

/-- main.c:71: before everything. -/
def initial : Proc := ⟨.null, false, false⟩

/-- What the process does: `Runtime_New` (runtime.c:356 for the flag), `signal`, `Runtime_Free`, and all the rest. -/
inductive Act
  | make
  | handle (s : Sig)
  | free
  | other
deriving DecidableEq, Repr

def Act.run (p : Proc) : Act → Exec Proc
  | .make => .ok { p with runtime := .live false }
  | .handle .int => .ok { p with int := true }
  | .handle .term => .ok { p with term := true }
  | .free => match p.runtime with
    | .live _ => .ok { p with runtime := .freed }
    | _ => .ub
  | .other => .ok p

/-- main.c:73-78 -/
def signalHandler (p : Proc) : Exec Proc :=
  match p.runtime with
  | .null => .ok p
  | .live _ => .ok { p with runtime := .live true }
  | .freed => .ub

/-- The acts of `noja [-a] …` (main.c:195-258): before the runtime is made, between, while it runs, and until the process is gone. -/
def script (before between running after : Nat) : List Act :=
  List.replicate before .other ++ .make :: List.replicate between .other ++ .handle .int :: .handle .term ::
    List.replicate running .other ++ .free :: List.replicate after .other

inductive Event
  | act (a : Act)
  | sig (s : Sig)
deriving DecidableEq, Repr

/-- `none`: a signal has killed the process. -/
def history : Proc → List Event → Exec (Option Proc)
  | p, [] => .ok (some p)
  | p, .act a :: es => (a.run p).bind fun q => history q es
  | p, .sig s :: es => if p.handles s = true then (signalHandler p).bind fun q => history q es else .ok none

/-- The acts among the events. -/
def acts : List Event → List Act
  | [] => []
  | .act a :: es => a :: acts es
  | .sig _ :: es => acts es

/-- **C111, for the handler**: whenever signals come, nothing undefined happens. -/
def C111_signalsStatement : Prop :=
  ∀ b c d e es, acts es <+: script b c d e → history initial es ≠ .ub

/-! ## What holds -/

theorem acts_append : ∀ a b, acts (a ++ b) = acts a ++ acts b
  | [], _ => rfl
  | .act x :: a, b => by show x :: acts (a ++ b) = _; rw [acts_append a b]; rfl
  | .sig _ :: a, b => by show acts (a ++ b) = _; rw [acts_append a b]; rfl

/-- One runtime is made at most, and freed only when it is there. -/
theorem history_fine : ∀ (es : List Event) (p : Proc), p.runtime ≠ .freed → Act.free ∉ acts es → ∃ r, history p es = .ok r
  | [], p, _, _ => ⟨_, rfl⟩
  | .sig s :: es, p, hp, hf => by
    unfold history
    by_cases h : p.handles s = true
    · rw [if_pos h]
      unfold signalHandler
      cases hr : p.runtime with
      | freed => exact absurd hr hp
      | null => exact history_fine es p hp hf
      | live f => exact history_fine es { p with runtime := .live true } nofun hf
    · rw [if_neg h]
      exact ⟨none, rfl⟩
  | .act a :: es, p, hp, hf => by
    have hf' : Act.free ∉ acts es := fun h => hf (List.mem_cons_of_mem _ h)
    cases a with
    | make => exact history_fine es { p with runtime := .live false } nofun hf'
    | handle s => cases s with
      | int => exact history_fine es { p with int := true } hp hf'
      | term => exact history_fine es { p with term := true } hp hf'
    | free => exact absurd List.mem_cons_self hf
    | other => exact history_fine es p hp hf'

/-- A history in two parts. -/
theorem history_append : ∀ (a b : List Event) (p : Proc),
    history p (a ++ b) = (history p a).bind fun r => match r with
      | some q => history q b
      | none => .ok none
  | [], b, p => rfl
  | .act x :: a, b, p => by
    show (x.run p).bind (fun q => history q (a ++ b)) = ((x.run p).bind fun q => history q a).bind _
    cases x.run p with
    | ok q => exact history_append a b q
    | _ => rfl
  | .sig s :: a, b, p => by
    show (if p.handles s = true then (signalHandler p).bind fun q => history q (a ++ b) else .ok none) =
      (if p.handles s = true then (signalHandler p).bind fun q => history q a else .ok none).bind _
    by_cases h : p.handles s = true
    · rw [if_pos h, if_pos h]
      cases signalHandler p with
      | ok q => exact history_append a b q
      | _ => rfl
    · rw [if_neg h, if_neg h]
      rfl

/-- Which signals have the handler after some events. -/
theorem history_handles : ∀ (es : List Event) (p q : Proc), history p es = .ok (some q) →
    ∀ s, q.handles s = true ↔ p.handles s = true ∨ Act.handle s ∈ acts es
  | [], p, q, h, s => by
    cases h
    exact ⟨.inl, fun h => h.elim id fun h => absurd h List.not_mem_nil⟩
  | .sig t :: es, p, q, h, s => by
    unfold history at h
    by_cases ht : p.handles t = true
    · rw [if_pos ht] at h
      unfold signalHandler at h
      cases hr : p.runtime with
      | freed => rw [hr] at h; cases h
      | null => rw [hr] at h; exact history_handles es p q h s
      | live f =>
        rw [hr] at h
        have := history_handles es { p with runtime := .live true } q h s
        cases s <;> exact this
    · rw [if_neg ht] at h
      cases h
  | .act a :: es, p, q, h, s => by
    have plain : ∀ p' : Proc, (∀ s, p'.handles s = p.handles s) → history p' es = .ok (some q) → a ≠ .handle s →
        (q.handles s = true ↔ p.handles s = true ∨ Act.handle s ∈ acts (.act a :: es)) := by
      intro p' h1 h2 h3
      rw [history_handles es p' q h2 s, h1]
      refine or_congr Iff.rfl ⟨List.mem_cons_of_mem _, fun h => ?_⟩
      cases h with
      | head => exact absurd rfl h3
      | tail _ h => exact h
    cases a with
    | make => exact plain { p with runtime := .live false } (fun s => by cases s <;> rfl) h nofun
    | free =>
      cases hr : p.runtime with
      | live f =>
        refine plain { p with runtime := .freed } (fun s => by cases s <;> rfl) ?_ nofun
        have h : (Act.run p .free).bind (fun q => history q es) = .ok (some q) := h
        unfold Act.run at h
        rw [hr] at h
        exact h
      | _ =>
        have h : (Act.run p .free).bind (fun q => history q es) = .ok (some q) := h
        unfold Act.run at h
        rw [hr] at h
        cases h
    | other => exact plain p (fun _ => rfl) h nofun
    | handle t =>
      cases t <;> cases s
      · exact ⟨fun _ => .inr List.mem_cons_self, fun _ => (history_handles es { p with int := true } q h .int).2 (.inl rfl)⟩
      · have := history_handles es { p with int := true } q h .term
        exact this.trans (or_congr Iff.rfl (by show _ ↔ Act.handle .term ∈ Act.handle .int :: acts es; simp))
      · have := history_handles es { p with term := true } q h .int
        exact this.trans (or_congr Iff.rfl (by show _ ↔ Act.handle .int ∈ Act.handle .term :: acts es; simp))
      · exact ⟨fun _ => .inr List.mem_cons_self, fun _ => (history_handles es { p with term := true } q h .term).2 (.inl rfl)⟩

/-- The flag of a runtime, after events that make and free none. -/
theorem history_flag : ∀ (es : List Event) (p q : Proc) (f : Bool), p.runtime = .live f → Act.make ∉ acts es → Act.free ∉ acts es →
    history p es = .ok (some q) → q.runtime = .live (f || es.any fun e => match e with
      | .sig _ => true
      | .act _ => false)
  | [], p, q, f, hp, _, _, h => by
    cases h
    rw [hp]
    simp
  | .sig t :: es, p, q, f, hp, hm, hf, h => by
    unfold history at h
    by_cases ht : p.handles t = true
    · rw [if_pos ht] at h
      unfold signalHandler at h
      rw [hp] at h
      have := history_flag es { p with runtime := .live true } q true rfl hm hf h
      rw [this]
      simp
    · rw [if_neg ht] at h
      cases h
  | .act a :: es, p, q, f, hp, hm, hf, h => by
    have hm' : Act.make ∉ acts es := fun h => hm (List.mem_cons_of_mem _ h)
    have hf' : Act.free ∉ acts es := fun h => hf (List.mem_cons_of_mem _ h)
    cases a with
    | make => exact absurd List.mem_cons_self hm
    | free => exact absurd List.mem_cons_self hf
    | other => exact (history_flag es p q f hp hm' hf' h).trans (by simp)
    | handle t => cases t with
      | int => exact (history_flag es { p with int := true } q f hp hm' hf' h).trans (by simp)
      | term => exact (history_flag es { p with term := true } q f hp hm' hf' h).trans (by simp)

theorem free_late {b c d e : Nat} {l : List Act} (h : l <+: script b c d e) (hl : l.length ≤ b + c + d + 3) : Act.free ∉ l := by
  have : l = (script b c d e).take l.length := List.prefix_iff_eq_take.1 h
  rw [this]
  unfold script
  have e : List.replicate b Act.other ++ .make :: List.replicate c .other ++ .handle .int :: .handle .term ::
      List.replicate d .other ++ .free :: List.replicate e .other =
      (List.replicate b Act.other ++ .make :: List.replicate c .other ++ .handle .int :: .handle .term :: List.replicate d .other) ++
        .free :: List.replicate e .other := by simp
  rw [e, List.take_append_of_le_length (by simp; omega)]
  intro hx
  have := List.mem_of_mem_take hx
  simp at this

/-- C111, for the handler: as long as the runtime has not been freed, nothing undefined happens, however many signals come and whenever. -/
theorem C111_signals_partial (b c d e : Nat) (es : List Event) (h : acts es <+: script b c d e) (hl : (acts es).length ≤ b + c + d + 3) :
    ∃ r, history initial es = .ok r :=
  history_fine es initial nofun (free_late h hl)

/-- C111, for the flag: once both handlers are there, a signal does not kill the process; it sets the flag, which stays set as long as the
runtime is there, and nothing but a signal sets it. -/
theorem C111_flag (d : Nat) (p : Proc) (hi : p.int = true) (ht : p.term = true) (hr : p.runtime = .live false) (es : List Event)
    (ha : acts es = List.replicate d .other) :
    ∃ q, history p es = .ok (some q) ∧ (q.runtime = .live true ∨ q.runtime = .live false) ∧
      (q.runtime = .live true ↔ ∃ s, Event.sig s ∈ es) := by
  have hm : Act.make ∉ acts es := by rw [ha]; simp
  have hf : Act.free ∉ acts es := by rw [ha]; simp
  obtain ⟨r, hr'⟩ := history_fine es p (by rw [hr]; nofun) hf
  have alive : ∀ (es : List Event) (p : Proc), p.int = true → p.term = true → Act.free ∉ acts es → history p es ≠ .ok none := by
    intro es
    induction es with
    | nil => intro p _ _ _ h; cases h
    | cons x es ih =>
      intro p hi ht hf h
      cases x with
      | sig s =>
        unfold history at h
        rw [if_pos (by cases s <;> assumption)] at h
        unfold signalHandler at h
        cases hr : p.runtime with
        | freed => rw [hr] at h; cases h
        | null => rw [hr] at h; exact ih p hi ht hf h
        | live f => rw [hr] at h; exact ih { p with runtime := .live true } hi ht hf h
      | act a =>
        have hf' : Act.free ∉ acts es := fun h => hf (List.mem_cons_of_mem _ h)
        cases a with
        | make => exact ih { p with runtime := .live false } hi ht hf' h
        | handle s => cases s with
          | int => exact ih { p with int := true } rfl ht hf' h
          | term => exact ih { p with term := true } hi rfl hf' h
        | free => exact hf List.mem_cons_self
        | other => exact ih p hi ht hf' h
  cases r with
  | none => exact absurd hr' (alive es p hi ht hf)
  | some q =>
    have hq := history_flag es p q false hr hm hf hr'
    refine ⟨q, hr', ?_, ?_⟩
    · rw [hq]
      cases (false || _) <;> simp
    · rw [hq]
      constructor
      · intro h
        injection h with h
        rw [Bool.false_or, List.any_eq_true] at h
        obtain ⟨x, hx, hb⟩ := h
        cases x with
        | sig s => exact ⟨s, hx⟩
        | act a => cases hb
      · rintro ⟨s, hs⟩
        rw [Bool.false_or, List.any_eq_true.2 ⟨_, hs, rfl⟩]

/-! ## What does not hold -/

/-- Every signal that comes after `Runtime_Free` is undefined: the handler writes into memory that has been freed. -/
theorem C111_late {a : List Event} {q : Proc} (s : Sig) (es : List Event) (ha : history initial a = .ok (some q))
    (hs : Act.handle s ∈ acts a) (hf : q.runtime = .freed) : history initial (a ++ .sig s :: es) = .ub := by
  rw [history_append, ha]
  show (if q.handles s = true then (signalHandler q).bind fun q => history q es else .ok none) = .ub
  rw [if_pos ((history_handles a initial q ha s).2 (.inr hs))]
  unfold signalHandler
  rw [hf]
  rfl

/-- And there is such a moment in every run of the command that comes to its end. -/
theorem C111_always (b c d e : Nat) (s : Sig) : ∃ es, acts es = script b c d e ∧ history initial es = .ub := by
  have others : ∀ (n : Nat) (p : Proc) (es : List Event), history p (List.replicate n (.act .other) ++ es) = history p es := by
    intro n p es
    induction n with
    | zero => rfl
    | succ n ih => exact ih
  have ahas : ∀ n, acts (List.replicate n (.act .other)) = List.replicate n .other := by
    intro n
    induction n with
    | zero => rfl
    | succ n ih =>
      show Act.other :: acts (List.replicate n (.act .other)) = _
      rw [ih]
      rfl
  refine ⟨List.replicate b (.act .other) ++ .act .make :: (List.replicate c (.act .other) ++ .act (.handle .int) :: .act (.handle .term) ::
    (List.replicate d (.act .other) ++ .act .free :: .sig s :: List.replicate e (.act .other))), ?_, ?_⟩
  · rw [acts_append, ahas]
    show _ ++ Act.make :: acts _ = _
    rw [acts_append, ahas]
    show _ ++ Act.make :: (_ ++ Act.handle .int :: Act.handle .term :: acts _) = _
    rw [acts_append, ahas]
    show _ ++ Act.make :: (_ ++ Act.handle .int :: Act.handle .term :: (_ ++ Act.free :: acts _)) = _
    rw [show acts (Event.sig s :: List.replicate e (Event.act Act.other)) = acts (List.replicate e (.act .other)) from rfl, ahas]
    simp [script]
  · rw [others]
    show history ⟨.live false, false, false⟩ _ = _
    rw [others]
    show history ⟨.live false, true, true⟩ _ = _
    rw [others]
    cases s <;> rfl

/-- **C111 does not hold** for the handler. -/
theorem C111_signals_violated : ¬ C111_signalsStatement := fun h => by
  obtain ⟨es, h1, h2⟩ := C111_always 0 0 0 0 .int
  exact h 0 0 0 0 es (by rw [h1]; exact List.prefix_rfl) h2

/-! ## Examples -/

/-- A signal while the program runs, and another; the second changes nothing. -/
example : ∃ r, history initial [.act .make, .act (.handle .int), .act (.handle .term), .act .other, .sig .int, .act .other, .sig .term] = .ok r :=
  C111_signals_partial 0 0 2 0 _ (by decide) (by decide)

example : ∃ q, history ⟨.live false, true, true⟩ [.act .other, .sig .int, .act .other] = .ok (some q) ∧
    (q.runtime = .live true ∨ q.runtime = .live false) ∧
    (q.runtime = .live true ↔ ∃ s, Event.sig s ∈ [.act .other, .sig .int, .act .other]) :=
  C111_flag 2 _ rfl rfl rfl _ rfl

example : history initial ([.act .make, .act (.handle .int), .act .free] ++ [.sig .int]) = .ub :=
  C111_late (q := ⟨.freed, true, false⟩) .int [] rfl (by decide) rfl

end Noja.Cli.Signals
