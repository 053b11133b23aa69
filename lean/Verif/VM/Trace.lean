import Verif.VM.Lines
import Verif.Asm.RoundTrip

/-!
# Stack traces (C109)

The text that `Runtime_PrintStackTrace` writes about a machine that has stopped, and what it says about the calls that were being
performed.  `Verif.VM.Lines` has the line that is shown for a position (C55) and for an instruction that has failed (C82),
`Verif.VM.Failed` the list of frames in memory (C39).

Simplification: frames of texts that do not compile (`FrameType_FAILED`) are those of C39 and not in the machine; what is written arrives.
-/

set_option linter.unusedVariables false
set_option linter.unusedSimpArgs false

namespace Noja.VM.Trace

open Noja Noja.Exe Noja.VM
open Noja.Asm (decimal isDigit dec_digits)

/-! ## Model -/

/-- `Stack trace:\n` -/
def header : List UInt8 := [83, 116, 97, 99, 107, 32, 116, 114, 97, 99, 101, 58, 10]

/-- `\t(No active frames)\n` -/
def noFrames : List UInt8 := [9, 40, 78, 111, 32, 97, 99, 116, 105, 118, 101, 32, 102, 114, 97, 109, 101, 115, 41, 10]

/-- `(no source)` -/
def noSource : List UInt8 := [40, 110, 111, 32, 115, 111, 117, 114, 99, 101, 41]

/-- `(unnamed)` -/
def unnamed : List UInt8 := [40, 117, 110, 110, 97, 109, 101, 100, 41]

/-- runtime.c:143-152 and 179-188: the name that is shown; `names` is `Source_GetName`. -/
def frameName (names : Nat → Option (List UInt8)) (es : List (List UInt8 × Executable)) : Frame → List UInt8
  | .normal f =>
    match es[f.exe]? with
    | none => noSource
    | some _ => (names f.exe).getD unnamed
  | .native _ => noSource

/-- runtime.c:170-212 `printFrame`. -/
def printFrame (names : Nat → Option (List UInt8)) (es : List (List UInt8 × Executable)) (depth : Nat) (F : Frame) : Exec (List UInt8) := do
  let line ← frameLine es F
  if line = 0 then .ok ([9, 35] ++ Asm.dec depth ++ [32] ++ frameName names es F ++ [10])
  else .ok ([9, 35] ++ Asm.dec depth ++ [32] ++ frameName names es F ++ [58] ++ Asm.dec line ++ [10])

/-- runtime.c:221-226 -/
def printFrames (names : Nat → Option (List UInt8)) (es : List (List UInt8 × Executable)) : Nat → List Frame → Exec (List UInt8)
  | _, [] => .ok []
  | depth, F :: fs => do
    let a ← printFrame names es depth F
    let b ← printFrames names es (depth + 1) fs
    .ok (a ++ b)

/-- runtime.c:214-228 `Runtime_PrintStackTrace`: what is written to the stream, and what to `stderr` whatever the stream is. -/
def printTrace (names : Nat → Option (List UInt8)) (es : List (List UInt8 × Executable)) (frames : List Frame) :
    Exec (List UInt8 × List UInt8) :=
  match frames with
  | [] => .ok (header, noFrames)
  | frames => do
    let a ← printFrames names es 0 frames
    .ok (header ++ a, [])

/-! ## What a trace says -/

/-- A line of a trace: the name of a source and a line of it, if one is known. -/
structure Entry where
  name : List UInt8
  line : Option Nat
  deriving DecidableEq, Repr

/-- A number as it is written. -/
def Digits (n : Nat) (ds : List UInt8) : Prop := (∀ c ∈ ds, isDigit c = true) ∧ ds ≠ [] ∧ decimal ds = n

/-- The lines of a trace, counted from `d`: `\t#d name:line` or `\t#d name`. -/
inductive Reads : Nat → List Entry → List UInt8 → Prop
  | nil {d : Nat} : Reads d [] []
  | bare {d : Nat} {name ds t : List UInt8} {es : List Entry} : Digits d ds → Reads (d + 1) es t →
      Reads d (⟨name, none⟩ :: es) (9 :: 35 :: (ds ++ 32 :: (name ++ 10 :: t)))
  | line {d n : Nat} {name ds ns t : List UInt8} {es : List Entry} : Digits d ds → Digits n ns → Reads (d + 1) es t →
      Reads d (⟨name, some n⟩ :: es) (9 :: 35 :: (ds ++ 32 :: (name ++ 58 :: (ns ++ 10 :: t))))

theorem append_cons_inj {α : Type} {c : α} : ∀ {a a' b b' : List α}, c ∉ a → c ∉ a' → a ++ c :: b = a' ++ c :: b' → a = a' ∧ b = b'
  | [], [], _, _, _, _, h => by cases h; exact ⟨rfl, rfl⟩
  | [], x :: _, _, _, _, h', h => by
    injection h with h1
    exact absurd (h1 ▸ List.mem_cons_self ..) h'
  | x :: _, [], _, _, h', _, h => by
    injection h with h1
    exact absurd (h1 ▸ List.mem_cons_self ..) h'
  | x :: a, y :: a', b, b', h1, h2, h => by
    injection h with hx h
    obtain ⟨h3, h4⟩ := append_cons_inj (fun q => h1 (List.mem_cons_of_mem _ q)) (fun q => h2 (List.mem_cons_of_mem _ q)) h
    exact ⟨by rw [hx, h3], h4⟩

theorem Digits.not_mem {n : Nat} {ds : List UInt8} (h : Digits n ds) {c : UInt8} (hc : isDigit c = false) : c ∉ ds := fun q => by
  rw [h.1 c q] at hc
  cases hc

/-- A trace can be read in one way only, if there are no line breaks and colons in the names. -/
theorem C109_unique {d : Nat} {es es' : List Entry} {t : List UInt8} (h : Reads d es t) (h' : Reads d es' t)
    (hn : ∀ e ∈ es, 10 ∉ e.name ∧ 58 ∉ e.name) (hn' : ∀ e ∈ es', 10 ∉ e.name ∧ 58 ∉ e.name) : es = es' := by
  induction h generalizing es' with
  | nil => cases h'; rfl
  | @bare d name ds t es hd hr ih =>
    obtain ⟨h1, h2⟩ := hn _ (List.mem_cons_self ..)
    have h1 : 10 ∉ name := h1
    have h2 : 58 ∉ name := h2
    generalize hq : 9 :: 35 :: (ds ++ 32 :: (name ++ 10 :: t)) = q at h'
    cases h' with
    | nil => cases hq
    | @bare _ name' ds' t' es' hd' hr' =>
      obtain ⟨h1', h2'⟩ := hn' _ (List.mem_cons_self ..)
      injection hq with _ hq
      injection hq with _ hq
      obtain ⟨-, hq⟩ := append_cons_inj (hd.not_mem rfl) (hd'.not_mem rfl) hq
      obtain ⟨hq1, hq3⟩ := append_cons_inj h1 h1' hq
      subst hq1
      subst hq3
      rw [ih hr' (fun e he => hn e (List.mem_cons_of_mem _ he)) fun e he => hn' e (List.mem_cons_of_mem _ he)]
    | @line _ n name' ds' ns t' es' hd' hns hr' =>
      obtain ⟨h1', h2'⟩ := hn' _ (List.mem_cons_self ..)
      injection hq with _ hq
      injection hq with _ hq
      obtain ⟨-, hq⟩ := append_cons_inj (hd.not_mem rfl) (hd'.not_mem rfl) hq
      rw [show name' ++ 58 :: (ns ++ 10 :: t') = (name' ++ 58 :: ns) ++ 10 :: t' by simp] at hq
      obtain ⟨hq1, hq⟩ := append_cons_inj h1 (by
        intro q
        rcases List.mem_append.1 q with q | q
        · exact h1' q
        · rcases List.mem_cons.1 q with q | q
          · cases q
          · exact hns.not_mem rfl q) hq
      exact absurd (by rw [hq1]; exact List.mem_append_right _ (List.mem_cons_self ..)) h2
  | @line d n name ds ns t es hd hns hr ih =>
    obtain ⟨h1, h2⟩ := hn _ (List.mem_cons_self ..)
    have h1 : 10 ∉ name := h1
    have h2 : 58 ∉ name := h2
    generalize hq : 9 :: 35 :: (ds ++ 32 :: (name ++ 58 :: (ns ++ 10 :: t))) = q at h'
    cases h' with
    | nil => cases hq
    | @bare _ name' ds' t' es' hd' hr' =>
      obtain ⟨h1', h2'⟩ := hn' _ (List.mem_cons_self ..)
      have h1' : 10 ∉ name' := h1'
      have h2' : 58 ∉ name' := h2'
      injection hq with _ hq
      injection hq with _ hq
      obtain ⟨-, hq⟩ := append_cons_inj (hd.not_mem rfl) (hd'.not_mem rfl) hq
      rw [show name ++ 58 :: (ns ++ 10 :: t) = (name ++ 58 :: ns) ++ 10 :: t by simp] at hq
      obtain ⟨hq1, hq⟩ := append_cons_inj (by
        intro q
        rcases List.mem_append.1 q with q | q
        · exact h1 q
        · rcases List.mem_cons.1 q with q | q
          · cases q
          · exact hns.not_mem rfl q) h1' hq
      exact absurd (by rw [← hq1]; exact List.mem_append_right _ (List.mem_cons_self ..)) h2'
    | @line _ n' name' ds' ns' t' es' hd' hns' hr' =>
      obtain ⟨h1', h2'⟩ := hn' _ (List.mem_cons_self ..)
      injection hq with _ hq
      injection hq with _ hq
      obtain ⟨-, hq⟩ := append_cons_inj (hd.not_mem rfl) (hd'.not_mem rfl) hq
      obtain ⟨hq1, hq⟩ := append_cons_inj h2 h2' hq
      obtain ⟨hq2, hq3⟩ := append_cons_inj (hns.not_mem rfl) (hns'.not_mem rfl) hq
      subst hq1
      subst hq2
      subst hq3
      obtain rfl := hns.2.2.symm.trans hns'.2.2
      rw [ih hr' (fun e he => hn e (List.mem_cons_of_mem _ he)) fun e he => hn' e (List.mem_cons_of_mem _ he)]

/-! ## The calls that are being performed -/

/-- Below the innermost frame, everything is at a call: the instruction before the next one to be performed is a `CALL`. -/
def Calling (exes : List (List Instr)) (F : Frame) : Prop :=
  ∀ g, F = .normal g → 0 < g.idx ∧ ∃ argc want, fetch exes g.exe (g.idx - 1) = some (.call argc want)

/-- What holds between two instructions and after a failed one. -/
structure Fit (b : Nat) {W : Type} (s : St W) : Prop where
  calls : ∀ F ∈ s.frames.tail, Calling s.exes F
  depth : s.frames.length ≤ maxFrames
  /-- The outermost frame is that of the text that was started. -/
  bottom : ∃ f, s.frames.getLast? = some (.normal f) ∧ f.exe = b

/-- Whatever comes of it, `P` holds. -/
def Hold {W : Type} (P : St W → Prop) : Status W → Prop
  | .run s => P s
  | .err s => P s
  | .limit s => P s
  | .done _ s => P s
  | .ub => True

/-- What holds after any number of steps. -/
def Keeps (b : Nat) {W : Type} : Status W → Prop
  | .run s => Fit b s
  | .err s => Fit b s
  | .limit s => Fit b s
  | .done _ s => s.frames = []
  | .ub => True

section
variable {W : Type} {L : Layer W} {cap b : Nat}

theorem Fit.head {s : St W} {f g : NFrame} {fs : List Frame} (h : Fit b s) (hf : s.frames = .normal f :: fs) (stack : List Ref)
    (hg : g.exe = f.exe) : Fit b { s with stack := stack, frames := .normal g :: fs } := by
  obtain ⟨h1, h2, f0, h3, h4⟩ := h
  rw [hf] at h1 h2 h3
  refine ⟨h1, h2, ?_⟩
  cases fs with
  | nil =>
    cases h3
    exact ⟨g, rfl, hg.trans h4⟩
  | cons F fs => exact ⟨f0, h3, h4⟩

/-- Another frame above. -/
theorem bottom_cons {F G : Frame} {fs : List Frame} (h : fs.getLast? = some F) : (G :: fs).getLast? = some F := by
  cases fs with
  | nil => cases h
  | cons H fs => exact h

theorem Fit.w {s : St W} (h : Fit b s) (w : W) : Fit b { s with w := w } := ⟨h.calls, h.depth, h.bottom⟩

theorem fit_push {s : St W} (h : Fit b s) (v : Ref) : Keeps b (s.push cap v) := by
  unfold St.push
  split
  · rename_i f fs hf
    by_cases h1 : f.used = maxFrameStack
    · rw [if_pos h1]; exact h
    · rw [if_neg h1]
      by_cases h2 : cap ≤ s.stack.length
      · rw [if_pos h2]; exact h
      · rw [if_neg h2]; exact h.head hf _ rfl
  · exact h

theorem fit_pushAll : ∀ (vs : List Ref) {s : St W}, Fit b s → Keeps b (s.pushAll cap vs)
  | [], s, h => h
  | v :: vs, s, h => by
    unfold St.pushAll
    have := fit_push (cap := cap) h v
    cases hx : s.push cap v with
    | run t => rw [hx] at this; exact fit_pushAll vs this
    | err t => rw [hx] at this; exact this
    | limit t => rw [hx] at this; exact this
    | done r t => rw [hx] at this; exact this
    | ub => trivial

theorem fit_pop {s : St W} (h : Fit b s) (n : Nat) {k : List Ref → St W → Status W} (hk : ∀ vs t, Fit b t → Keeps b (k vs t)) :
    Keeps b (s.pop n k) := by
  unfold St.pop
  split
  · rename_i f fs hf
    by_cases h1 : f.used < n
    · rw [if_pos h1]; exact h
    · rw [if_neg h1]; exact hk _ _ (h.head hf _ rfl)
  · exact h

theorem fit_peek {s : St W} (h : Fit b s) (n : Nat) {k : List Ref → Status W} (hk : ∀ vs, Keeps b (k vs)) : Keeps b (s.peek n k) := by
  unfold St.peek
  split
  · rename_i f fs hf
    by_cases h1 : f.used < n
    · rw [if_pos h1]; exact h
    · rw [if_neg h1]; exact hk _
  · exact h

theorem fit_prim {α : Type} {s : St W} (h : Fit b s) (o : Out W α) {k : α → St W → Status W} (hk : ∀ a w, Keeps b (k a { s with w := w })) :
    Keeps b (s.prim o k) := by
  unfold St.prim
  cases o with
  | ok w a => exact hk a w
  | err w => exact h.w w
  | ub => trivial

theorem fit_goto {s : St W} (h : Fit b s) (a : Nat) : Keeps b (s.goto a) := by
  unfold St.goto
  split
  · rename_i f fs hf
    exact h.head hf s.stack rfl
  · exact h

theorem fit_deliver {s : St W} (h : Fit b s) (want : Nat) (rets : List Ref) : Keeps b (deliver L cap want rets s) := by
  unfold deliver
  by_cases h1 : maxRets < min rets.length want
  · rw [if_pos h1]; trivial
  · rw [if_neg h1]; exact fit_pushAll _ h

theorem fit_enter {s : St W} (h : Fit b s) (hc : ∀ F ∈ s.frames, Calling s.exes F) (exe addr : Nat) (clo : Option Ref) (want : Nat)
    (args : List Ref) : Keeps b (enter L cap exe addr clo want args s) := by
  unfold enter
  refine fit_prim h _ fun locals w => ?_
  by_cases h1 : maxFrames ≤ s.frames.length
  · dsimp only
    rw [if_pos h1]; exact h.w w
  · dsimp only
    rw [if_neg h1]
    obtain ⟨f, hb, he⟩ := h.bottom
    refine fit_pushAll _ ⟨hc, ?_, f, bottom_cons hb, he⟩
    show s.frames.length + 1 ≤ maxFrames
    omega

theorem fit_leave {s : St W} (h : Fit b s) : Keeps b (leave L cap s) := by
  unfold leave
  split
  · rename_i f fs hf
    by_cases h1 : L.pending s.w = true
    · rw [if_pos h1]; exact h
    · rw [if_neg h1]
      obtain ⟨h2, h3, f0, h4, h5⟩ := h
      rw [hf] at h2 h3 h4
      cases fs with
      | nil => rfl
      | cons g fs =>
        cases g with
        | normal g =>
          exact fit_deliver (s := { s with stack := s.stack.drop f.used, frames := .normal g :: fs })
            ⟨fun F hF => h2 F (List.mem_cons_of_mem _ hF), Nat.le_of_succ_le h3, f0, h4, h5⟩ _ _
        | native k =>
          refine fit_deliver (s := { s with stack := s.stack.drop f.used, frames := fs })
            ⟨fun F hF => h2 F (List.mem_cons_of_mem _ (List.mem_of_mem_tail hF)), ?_, f0, ?_, h5⟩ _ _
          rotate_left
          · cases fs with
            | nil => cases h4
            | cons F fs => exact h4
          simp only [List.length_cons] at h3
          show fs.length ≤ maxFrames
          omega
  · exact h

theorem fetch_append {exes : List (List Instr)} {e i : Nat} {x : Instr} (h : fetch exes e i = some x) (c : List Instr) :
    fetch (exes ++ [c]) e i = some x := by
  unfold fetch at h ⊢
  cases he : exes[e]? with
  | none => rw [he] at h; cases h
  | some code =>
    rw [he] at h
    have hl : e < exes.length := by
      rcases List.getElem?_eq_some_iff.1 he with ⟨hl, -⟩
      exact hl
    rw [List.getElem?_append_left hl, he]
    exact h

theorem Calling.append {exes : List (List Instr)} {F : Frame} (h : Calling exes F) (c : List Instr) : Calling (exes ++ [c]) F := fun g hg => by
  obtain ⟨h1, a, b, h2⟩ := h g hg
  exact ⟨h1, a, b, fetch_append h2 c⟩

theorem fit_call {s : St W} (h : Fit b s) (hc : ∀ F ∈ s.frames, Calling s.exes F) (f : Ref) (argv : List Ref) (want : Nat) :
    Keeps b (callObj L cap f argv want s) := by
  unfold callObj
  refine fit_prim h _ fun c w => ?_
  cases c with
  | no => exact h.w w
  | noja clo =>
    dsimp only
    cases s.funcs f with
    | none => trivial
    | some fn => exact fit_enter (h.w w) hc _ _ _ _ _
  | native id argc =>
    dsimp only
    by_cases h1 : maxFrames ≤ s.frames.length
    · rw [if_pos h1]; exact h.w w
    · rw [if_neg h1]
      have hn : Fit b ({ s with w := w, frames := .native want :: s.frames } : St W) :=
        ⟨hc, by show s.frames.length + 1 ≤ maxFrames; omega, by
          obtain ⟨f, hb, he⟩ := h.bottom
          exact ⟨f, bottom_cons hb, he⟩⟩
      refine fit_prim hn _ fun r w' => ?_
      cases r with
      | done rets => exact fit_deliver (h.w w') _ _
      | load p =>
        dsimp only
        by_cases h2 : p.wf false = true
        · rw [if_pos h2]
          have hn' : Fit b ({ w := w', funcs := s.funcs, exes := s.exes ++ [compile p], stack := s.stack, frames := .native want :: s.frames } : St W) :=
            ⟨fun F hF => (hc F hF).append _, hn.depth, hn.bottom⟩
          refine fit_enter hn' (fun F hF => ?_) _ _ _ _ _
          rcases List.mem_cons.1 hF with rfl | hF
          · exact nofun
          · exact (hc F hF).append _
        · rw [if_neg h2]; trivial

/-- The two values of a call are popped from the frame of the call. -/
theorem fit_popCall {s : St W} {f : NFrame} {fs : List Frame} (hf : s.frames = .normal f :: fs) (h : Fit b s)
    (hc : ∀ F ∈ s.frames, Calling s.exes F) (n : Nat) {k : List Ref → St W → Status W}
    (hk : ∀ vs t g, t.frames = .normal g :: fs → Fit b t → (∀ F ∈ t.frames, Calling t.exes F) → Keeps b (k vs t)) : Keeps b (s.pop n k) := by
  unfold St.pop
  rw [hf]
  dsimp only
  by_cases h1 : f.used < n
  · rw [if_pos h1]; exact h
  · rw [if_neg h1]
    refine hk _ _ _ rfl (h.head hf _ rfl) fun F hF => ?_
    rw [hf] at hc
    rcases List.mem_cons.1 hF with rfl | hF
    · intro g hg
      cases hg
      exact hc _ (List.mem_cons_self ..) f rfl
    · exact hc F (List.mem_cons_of_mem _ hF)

theorem fit_ite {p : Prop} [Decidable p] {x y : Status W} (hx : Keeps b x) (hy : Keeps b y) : Keeps b (if p then x else y) := by
  by_cases h : p
  · rw [if_pos h]; exact hx
  · rw [if_neg h]; exact hy

/-- Every instruction but `CALL`. -/
theorem fit_exec (i : Instr) (hi : ∀ a b, i ≠ .call a b) {s : St W} (h : Fit b s) : Keeps b (execI L cap i s) := by
  cases i with
  | nope => unfold execI; exact h
  | un op =>
    have key : ∀ op, Keeps b (s.pop 1 fun vs s =>
        match vs with
        | [a] => s.prim (L.un op a s.w) fun r s => s.push cap r
        | _ => .ub) := fun op => by
      refine fit_pop h 1 fun vs t ht => ?_
      split
      · exact fit_prim ht _ fun r w => fit_push (ht.w w) r
      · trivial
    cases op with
    | pos => unfold execI; exact fit_peek h 1 fun _ => h
    | _ => unfold execI; exact key _
  | bin op =>
    unfold execI
    refine fit_pop h 2 fun vs t ht => ?_
    split
    · exact fit_prim ht _ fun r w => fit_push (ht.w w) r
    · trivial
  | ass n =>
    unfold execI
    refine fit_peek h 1 fun vs => ?_
    split
    · exact fit_prim h _ fun r w => h.w w
    · trivial
  | pop n => unfold execI; exact fit_pop h n fun vs t ht => ht
  | checkType a b =>
    unfold execI
    refine fit_peek h 2 fun vs => ?_
    split
    · refine fit_pop h 1 fun _ t ht => ?_
      exact fit_prim ht _ fun r w => fit_ite (ht.w w) (ht.w w)
    · trivial
  | call a b => exact absurd rfl (hi a b)
  | select =>
    unfold execI
    refine fit_peek h 2 fun vs => ?_
    split
    · refine fit_pop h 2 fun _ t ht => ?_
      exact fit_prim ht _ fun r w => fit_push (ht.w w) r
    · trivial
  | select2 =>
    unfold execI
    refine fit_peek h 2 fun vs => ?_
    split
    · refine fit_pop h 1 fun _ t ht => ?_
      exact fit_prim ht _ fun r w => fit_push (ht.w w) r
    · trivial
  | insert =>
    unfold execI
    refine fit_peek h 3 fun vs => ?_
    split
    · refine fit_pop h 2 fun _ t ht => ?_
      exact fit_prim ht _ fun r w => ht.w w
    · trivial
  | insert2 =>
    unfold execI
    refine fit_peek h 3 fun vs => ?_
    split
    · refine fit_pop h 2 fun _ t ht => ?_
      exact fit_prim ht _ fun r w => ht.w w
    · trivial
  | pushInt v => unfold execI; exact fit_prim h _ fun r w => fit_push (h.w w) r
  | pushFlt v => unfold execI; exact fit_prim h _ fun r w => fit_push (h.w w) r
  | pushStr v => unfold execI; exact fit_prim h _ fun r w => fit_push (h.w w) r
  | pushVar n =>
    unfold execI
    dsimp only
    split
    · exact fit_prim h _ fun r w => fit_push (h.w w) r
    · exact h
  | pushNne => unfold execI; exact fit_push h _
  | pushTru => unfold execI; exact fit_push h _
  | pushFls => unfold execI; exact fit_push h _
  | pushFun a argc n =>
    unfold execI
    dsimp only
    split
    · refine fit_prim h _ fun r w => ?_
      have hn : ∀ funcs : Ref → Option Func, Fit b ({ s with w := w, funcs := funcs } : St W) := fun _ => ⟨h.calls, h.depth, h.bottom⟩
      exact fit_push (hn _) r
    · exact h
  | pushLst n => unfold execI; exact fit_prim h _ fun r w => fit_push (h.w w) r
  | pushMap n => unfold execI; exact fit_prim h _ fun r w => fit_push (h.w w) r
  | pushNneTyp => unfold execI; exact fit_push h _
  | pushTyp =>
    unfold execI
    refine fit_peek h 1 fun vs => ?_
    split
    · exact fit_prim h _ fun r w => fit_push (h.w w) r
    · trivial
  | exit =>
    unfold execI
    dsimp only
    split
    · rename_i f fs hf
      have := fit_push (cap := cap) h f.locals
      cases hx : s.push cap f.locals with
      | run t => rw [hx] at this; exact fit_leave this
      | err t => rw [hx] at this; exact this
      | limit t => rw [hx] at this; exact this
      | done r t => rw [hx] at this; exact this
      | ub => trivial
    · exact h
  | ret n => unfold execI; exact fit_leave h
  | jump a => unfold execI; exact fit_goto h a
  | jumpIf a =>
    unfold execI
    refine fit_pop h 1 fun vs t ht => ?_
    split
    · exact fit_prim ht _ fun r w => fit_ite (fit_goto (ht.w w) a) (ht.w w)
    · trivial
  | jumpIfNot a =>
    unfold execI
    refine fit_pop h 1 fun vs t ht => ?_
    split
    · exact fit_prim ht _ fun r w => fit_ite (ht.w w) (fit_goto (ht.w w) a)
    · trivial

/-- Between two steps, and after the last one. -/
theorem fit_step {s : St W} (h : Fit b s) : Keeps b (step L cap s) := by
  unfold step
  split
  · rename_i f fs hf
    split
    · exact h
    · rename_i i hi
      have h' : Fit b { s with frames := .normal { f with idx := f.idx + 1 } :: fs } := h.head hf s.stack rfl
      by_cases hc : ∃ a b, i = .call a b
      · obtain ⟨argc, want, rfl⟩ := hc
        have hall : ∀ F ∈ Frame.normal { f with idx := f.idx + 1 } :: fs, Calling s.exes F := fun F hF => by
          rcases List.mem_cons.1 hF with rfl | hF
          · intro g hg
            cases hg
            exact ⟨Nat.succ_pos _, argc, want, hi⟩
          · have := h.calls
            rw [hf] at this
            exact this F hF
        unfold execI
        dsimp only
        refine fit_popCall (fs := fs) rfl h' hall 1 fun vs t g hg ht hct => ?_
        split
        · refine fit_ite ht ?_
          exact fit_popCall hg ht hct argc fun argv t' g' hg' ht' hct' => fit_call ht' hct' _ argv want
        · trivial
      · exact fit_exec i (fun a b e => hc ⟨a, b, e⟩) h'
  · exact h

/-- Any number of steps, with interrupts. -/
theorem fit_run (stop : Nat → Bool) : ∀ (n t : Nat) {s : St W}, Fit b s → Keeps b (exec L cap stop n t s)
  | 0, t, s, h => h
  | n + 1, t, s, h => by
    unfold exec
    refine fit_ite h ?_
    have := fit_step (L := L) (cap := cap) h
    cases hx : step L cap s with
    | run t' => rw [hx] at this; exact fit_run stop n _ this
    | err t => rw [hx] at this; exact this
    | limit t => rw [hx] at this; exact this
    | done r t => rw [hx] at this; exact this
    | ub => trivial

theorem fit_boot {s t : St W} (h : s.frames = []) (hb : boot L cap b s = .run t) : Fit b t := by
  unfold boot enter St.prim at hb
  cases hn : L.newScope s.w with
  | ok w locals =>
    rw [hn] at hb
    dsimp only at hb
    rw [h, if_neg (by decide)] at hb
    cases hb
    exact ⟨nofun, by show 1 ≤ maxFrames; decide, _, rfl, rfl⟩
  | err w => rw [hn] at hb; cases hb
  | ub => rw [hn] at hb; cases hb

end

/-! ## The text -/

/-- The line of an instruction, if it is known: one more than there are line breaks before it. -/
def lineOf (es : List (List UInt8 × Executable)) (exe idx : Nat) : Option Nat :=
  match es[exe]? with
  | none => none
  | some (src, e) => if idx < e.body.length then some (1 + (src.take (instrOffset e idx).toNat).count 10) else none

/-- What the text of a frame is called: builtins have none, and not every text has a name. -/
def called (names : Nat → Option (List UInt8)) (es : List (List UInt8 × Executable)) : Frame → List UInt8
  | .native _ => "(no source)".toUTF8.toList
  | .normal f =>
    if f.exe < es.length then
      match names f.exe with
      | some n => n
      | none => "(unnamed)".toUTF8.toList
    else "(no source)".toUTF8.toList

/-- What is shown for a frame: its name, and the line of the instruction that follows. -/
def shown (names : Nat → Option (List UInt8)) (es : List (List UInt8 × Executable)) (F : Frame) : Entry :=
  ⟨called names es F, match F with | .normal f => lineOf es f.exe f.idx | .native _ => none⟩

/-- What is to be shown for a frame: its name, and the line of the instruction that is being performed. -/
def meant (names : Nat → Option (List UInt8)) (es : List (List UInt8 × Executable)) (F : Frame) : Entry :=
  ⟨called names es F, match F with | .normal f => lineOf es f.exe (f.idx - 1) | .native _ => none⟩

/-- **C109**: when a program fails, the trace is one line for each call that is being performed, from the innermost to the outermost, counted
from 0, with the name of the text that the call is in and the line of the instruction that failed or waits for the result of the call. -/
def C109Statement : Prop :=
  ∀ (W : Type) (L : Layer W) (cap e : Nat) (stop : Nat → Bool) (n : Nat) (s₀ s s' : St W) (flt : List UInt8 → Option (BitVec 64))
    (names : Nat → Option (List UInt8)) (es : List (List UInt8 × Executable)), s₀.frames = [] → boot L cap e s₀ = .run s →
    exec L cap stop n 0 s = .err s' → Loaded flt es s'.exes →
    ∃ t, printTrace names es s'.frames = .ok (header ++ t, []) ∧ Reads 0 (s'.frames.map (meant names es)) t

theorem frameName_eq (names : Nat → Option (List UInt8)) (es : List (List UInt8 × Executable)) (F : Frame) :
    frameName names es F = called names es F := by
  have h1 : noSource = "(no source)".toUTF8.toList := by decide +kernel
  have h2 : unnamed = "(unnamed)".toUTF8.toList := by decide +kernel
  cases F with
  | native w => exact h1
  | normal f =>
    unfold frameName called
    dsimp only
    by_cases hf : f.exe < es.length
    · rw [if_pos hf, List.getElem?_eq_getElem hf]
      dsimp only
      cases names f.exe with
      | some n => rfl
      | none => exact h2
    · rw [if_neg hf, List.getElem?_eq_none (Nat.le_of_not_lt hf)]
      exact h1

theorem shown_normal (names : Nat → Option (List UInt8)) (es : List (List UInt8 × Executable)) (f : NFrame) :
    shown names es (.normal f) = ⟨frameName names es (.normal f), lineOf es f.exe f.idx⟩ ∧
    meant names es (.normal f) = ⟨frameName names es (.normal f), lineOf es f.exe (f.idx - 1)⟩ := by
  rw [frameName_eq]
  exact ⟨rfl, rfl⟩

theorem digits_dec (n : Nat) : Digits n (Asm.dec n) := dec_digits n

/-- The line of a frame is that of `lineOf`. -/
theorem frameLine_eq {flt : List UInt8 → Option (BitVec 64)} {es : List (List UInt8 × Executable)} {exes : List (List Instr)}
    (hl : Loaded flt es exes) (f : NFrame) : frameLine es (.normal f) = .ok ((lineOf es f.exe f.idx).getD 0) ∧ lineOf es f.exe f.idx ≠ some 0 := by
  have hf : frameLine es (.normal f) =
      match es[f.exe]? with
      | some (src, e) => shownLine (some src) (instrOffset e f.idx)
      | none => shownLine none 0 := rfl
  rw [hf]
  unfold lineOf
  cases he : es[f.exe]? with
  | none => exact ⟨rfl, nofun⟩
  | some x =>
    obtain ⟨src, e⟩ := x
    obtain ⟨⟨past, hc⟩, -⟩ := hl _ _ _ he
    dsimp only
    obtain ⟨h1, h2⟩ := C55_compiled flt past src e hc f.idx
    by_cases hi : f.idx < e.body.length
    · rw [if_pos hi]
      obtain ⟨off, -, ho, h⟩ := h1 hi
      rw [h, ho]
      refine ⟨rfl, fun q => ?_⟩
      injection q with q
      omega
    · rw [if_neg hi, h2 (by omega)]
      exact ⟨rfl, nofun⟩

theorem printFrames_reads {flt : List UInt8 → Option (BitVec 64)} {es : List (List UInt8 × Executable)} {exes : List (List Instr)}
    (hl : Loaded flt es exes) (names : Nat → Option (List UInt8)) : ∀ (fs : List Frame) (d : Nat),
    ∃ t, printFrames names es d fs = .ok t ∧ Reads d (fs.map (shown names es)) t
  | [], d => ⟨[], rfl, .nil⟩
  | F :: fs, d => by
    obtain ⟨t, h1, h2⟩ := printFrames_reads hl names fs (d + 1)
    have bare : ∀ name : List UInt8, [9, 35] ++ Asm.dec d ++ [32] ++ name ++ [10] ++ t = 9 :: 35 :: (Asm.dec d ++ 32 :: (name ++ 10 :: t)) :=
      fun name => by simp
    have line : ∀ (name : List UInt8) (k : Nat), [9, 35] ++ Asm.dec d ++ [32] ++ name ++ [58] ++ Asm.dec k ++ [10] ++ t =
        9 :: 35 :: (Asm.dec d ++ 32 :: (name ++ 58 :: (Asm.dec k ++ 10 :: t))) := fun name k => by simp
    unfold printFrames printFrame
    cases F with
    | native w =>
      rw [show frameLine es (.native w) = .ok 0 from rfl, Exec.bind_ok, if_pos rfl, Exec.bind_ok, h1, Exec.bind_ok, bare]
      rw [frameName_eq]
      exact ⟨_, rfl, .bare (digits_dec d) h2⟩
    | normal f =>
      obtain ⟨h3, h4⟩ := frameLine_eq hl f
      rw [h3, Exec.bind_ok]
      have hs : shown names es (.normal f) = ⟨called names es (.normal f), lineOf es f.exe f.idx⟩ := rfl
      rw [List.map_cons, hs, frameName_eq]
      cases hk : lineOf es f.exe f.idx with
      | none =>
        rw [Option.getD_none, if_pos rfl, Exec.bind_ok, h1, Exec.bind_ok, bare]
        exact ⟨_, rfl, .bare (digits_dec d) h2⟩
      | some k =>
        rw [Option.getD_some, if_neg (fun q => h4 (by rw [hk, q])), Exec.bind_ok, h1, Exec.bind_ok, line]
        exact ⟨_, rfl, .line (digits_dec d) (digits_dec k) h2⟩

/-- **C109, partial**: whatever happens to a program, in all its states (and so when it fails, or a limit is met) there is a trace; it has one
line for each frame, at most 16, and every frame but the innermost waits for a call; but the line shown is that of the instruction after
the one that is being performed. -/
theorem C109_partial {W : Type} {L : Layer W} {cap e : Nat} {stop : Nat → Bool} {n t₀ : Nat} {s₀ s : St W} (h0 : s₀.frames = [])
    (hb : boot L cap e s₀ = .run s) {flt : List UInt8 → Option (BitVec 64)} (names : Nat → Option (List UInt8))
    {es : List (List UInt8 × Executable)} :
    Hold (fun s' => Loaded flt es s'.exes →
      (∃ t, printFrames names es 0 s'.frames = .ok t ∧ Reads 0 (s'.frames.map (shown names es)) t ∧
        (s'.frames ≠ [] → printTrace names es s'.frames = .ok (header ++ t, []))) ∧
      s'.frames.length ≤ 16 ∧ ∀ g, Frame.normal g ∈ s'.frames.tail →
        0 < g.idx ∧ ∃ argc want, fetch s'.exes g.exe (g.idx - 1) = some (.call argc want)) (exec L cap stop n t₀ s) := by
  have key : ∀ s' : St W, (∀ F ∈ s'.frames.tail, Calling s'.exes F) → s'.frames.length ≤ maxFrames → Loaded flt es s'.exes →
      (∃ t, printFrames names es 0 s'.frames = .ok t ∧ Reads 0 (s'.frames.map (shown names es)) t ∧
        (s'.frames ≠ [] → printTrace names es s'.frames = .ok (header ++ t, []))) ∧
      s'.frames.length ≤ 16 ∧ ∀ g, Frame.normal g ∈ s'.frames.tail →
        0 < g.idx ∧ ∃ argc want, fetch s'.exes g.exe (g.idx - 1) = some (.call argc want) := fun s' hc hd hl => by
    obtain ⟨t, h1, h2⟩ := printFrames_reads hl names s'.frames 0
    refine ⟨⟨t, h1, h2, fun hne => ?_⟩, hd, fun g hg => hc _ hg g rfl⟩
    unfold printTrace
    split
    · exact absurd (by assumption) hne
    · rw [h1, Exec.bind_ok]
  have := fit_run (L := L) (cap := cap) stop n t₀ (fit_boot h0 hb)
  cases hx : exec L cap stop n t₀ s with
  | ub => trivial
  | run t => rw [hx] at this; exact key t this.calls this.depth
  | err t => rw [hx] at this; exact key t this.calls this.depth
  | limit t => rw [hx] at this; exact key t this.calls this.depth
  | done r t =>
    rw [hx] at this
    have this : t.frames = [] := this
    exact key t (by rw [this]; exact nofun) (by rw [this]; exact Nat.zero_le _)

/-- While a program runs, and when it has failed or met a limit, there is always a line, and the last one is about the text that was started. -/
theorem C109_bottom {W : Type} {L : Layer W} {cap e : Nat} {stop : Nat → Bool} {n t₀ : Nat} {s₀ s s' : St W} (h0 : s₀.frames = [])
    (hb : boot L cap e s₀ = .run s) {flt : List UInt8 → Option (BitVec 64)} (names : Nat → Option (List UInt8))
    {es : List (List UInt8 × Executable)}
    (hx : exec L cap stop n t₀ s = .run s' ∨ exec L cap stop n t₀ s = .err s' ∨ exec L cap stop n t₀ s = .limit s')
    (hl : Loaded flt es s'.exes) :
    ∃ t front f, s'.frames = front ++ [.normal f] ∧ f.exe = e ∧ printTrace names es s'.frames = .ok (header ++ t, []) ∧
      Reads 0 (front.map (shown names es) ++ [⟨called names es (.normal f), lineOf es e f.idx⟩]) t := by
  have hk := fit_run (L := L) (cap := cap) stop n t₀ (fit_boot h0 hb)
  have hp := C109_partial (n := n) (t₀ := t₀) (stop := stop) h0 hb (flt := flt) names (es := es)
  obtain ⟨hfit, ht⟩ : Fit e s' ∧ ∃ t, printFrames names es 0 s'.frames = .ok t ∧ Reads 0 (s'.frames.map (shown names es)) t ∧
      (s'.frames ≠ [] → printTrace names es s'.frames = .ok (header ++ t, [])) := by
    rcases hx with h | h | h
    · rw [h] at hk hp; exact ⟨hk, (hp hl).1⟩
    · rw [h] at hk hp; exact ⟨hk, (hp hl).1⟩
    · rw [h] at hk hp; exact ⟨hk, (hp hl).1⟩
  obtain ⟨t, -, h1, h2⟩ := ht
  obtain ⟨f, h3, rfl⟩ := hfit.bottom
  obtain ⟨front, h4⟩ := List.getLast?_eq_some_iff.1 h3
  refine ⟨t, front, f, h4, rfl, h2 (by rw [h4]; simp), ?_⟩
  rw [h4, List.map_append] at h1
  exact h1

/-! ## Example and violation

    fun f(){x;}
    f(
    f());

fails in the call of `f` in the third line. -/

open Demo

def text : List UInt8 := "fun f(){x;}\nf(\nf());".toUTF8.toList

def prog : Stmts :=
  .cons (.func [102] (.mk .nil (.comp (.cons (.expr (.ident [120])) .nil))))
    (.cons (.expr (.call (.fn (.ident [102]) (.cons (.call (.fn (.ident [102]) .nil)) .nil)))) .nil)

def first : St World := get (boot L 100 0 ⟨world, fun _ => none, [compile prog], [], []⟩)

def last : St World := getErr (exec L 100 (fun _ => false) 50 0 first)

theorem first_run : boot L 100 0 ⟨world, fun _ => none, [compile prog], [], []⟩ = .run first := run_get (by decide +kernel)

theorem last_err : exec L 100 (fun _ => false) 50 0 first = .err last := err_get (by decide +kernel)

theorem last_frames : last.frames = [.normal ⟨0, 3, 26, some 22, 0, 1⟩, .normal ⟨0, 9, 21, none, 0, 0⟩] := by decide +kernel

theorem last_exes : last.exes = [compile prog] := by decide +kernel

theorem compiled : ∃ e, compileText (fun _ => none) 0 text = .ok e ∧ (∀ i, Exe.fetch e i = ((compile prog)[i]?).map Instr.encode) ∧
    [lineOf [(text, e)] 0 2, lineOf [(text, e)] 0 3, lineOf [(text, e)] 0 8, lineOf [(text, e)] 0 9] = [some 1, some 1, some 3, some 2] := by
  have hl : (compileText (fun _ => none) 0 text >>= fun e => .ok [lineOf [(text, e)] 0 2, lineOf [(text, e)] 0 3, lineOf [(text, e)] 0 8,
      lineOf [(text, e)] 0 9]) = .ok [some 1, some 1, some 3, some 2] := by decide +kernel
  cases he : compileText (fun _ => none) 0 text with
  | ok e =>
    obtain ⟨ts, root, p, h1, h2, h3, -, h4⟩ := C84_only _ _ _ _ he
    have hp : Parse.parse (fun _ => none) 0 text = .ok root := (Parse.C80_parse _ _ _ _).mpr ⟨ts, h1, h2⟩
    have h5 : (Parse.parse (fun _ => none) 0 text >>= fun root => .ok ((root.elab false).map compile)) = .ok (some (compile prog)) := by
      decide +kernel
    rw [hp, Exec.bind_ok, h3] at h5
    have h6 : compile p = compile prog := by
      injection h5 with h5
      injection h5
    rw [he, Exec.bind_ok] at hl
    injection hl with hl
    exact ⟨e, rfl, by rw [← h6]; exact h4, hl⟩
  | err => rw [he] at hl; cases hl
  | ub => rw [he] at hl; cases hl
  | diverge => rw [he] at hl; cases hl

theorem loaded {e : Executable} (he : compileText (fun _ => none) 0 text = .ok e)
    (hf : ∀ i, Exe.fetch e i = ((compile prog)[i]?).map Instr.encode) : Loaded (fun _ => none) [(text, e)] last.exes := by
  intro k src e' hk
  cases k with
  | zero =>
    simp only [List.getElem?_cons_zero, Option.some.injEq, Prod.mk.injEq] at hk
    obtain ⟨rfl, rfl⟩ := hk
    exact ⟨⟨0, he⟩, compile prog, by rw [last_exes]; rfl, hf⟩
  | succ k => simp at hk

/-- The program above meets the conditions; its trace is

    Stack trace:
    	#0 (unnamed):1
    	#1 (unnamed):2
-/
example : ∃ e, Loaded (fun _ => none) [(text, e)] last.exes ∧ exec L 100 (fun _ => false) 50 0 first = .err last ∧
    ∃ t, printTrace (fun _ => none) [(text, e)] last.frames = .ok (header ++ t, []) ∧ Reads 0 [⟨unnamed, some 1⟩, ⟨unnamed, some 2⟩] t := by
  obtain ⟨e, he, hf, hl⟩ := compiled
  injection hl with _ hl
  injection hl with h3 hl
  injection hl with _ hl
  injection hl with h9 _
  have := C109_partial (L := L) (cap := 100) (stop := fun _ => false) (n := 50) (t₀ := 0) rfl first_run (fun _ => none)
    (flt := fun _ => none) (es := [(text, e)])
  rw [last_err] at this
  obtain ⟨⟨t, -, h1, h2⟩, -⟩ := this (loaded he hf)
  refine ⟨e, loaded he hf, last_err, t, h2 (by rw [last_frames]; exact nofun), ?_⟩
  rw [last_frames] at h1
  have hm : [Frame.normal ⟨0, 3, 26, some 22, 0, 1⟩, .normal ⟨0, 9, 21, none, 0, 0⟩].map (shown (fun _ => none) [(text, e)]) =
      [⟨unnamed, lineOf [(text, e)] 0 3⟩, ⟨unnamed, lineOf [(text, e)] 0 9⟩] := by
    rw [List.map_cons, List.map_cons, (shown_normal ..).1, (shown_normal ..).1]
    rfl
  rw [hm, h3, h9] at h1
  exact h1

/-- The last line is about the text that was started, which is the 0th one. -/
example : ∃ e t front f, Loaded (fun _ => none) [(text, e)] last.exes ∧ last.frames = front ++ [.normal f] ∧ f.exe = 0 ∧
    printTrace (fun _ => none) [(text, e)] last.frames = .ok (header ++ t, []) := by
  obtain ⟨e, he, hf, -⟩ := compiled
  obtain ⟨t, front, f, h1, h2, h3, -⟩ := C109_bottom (L := L) (cap := 100) (stop := fun _ => false) (n := 50) (t₀ := 0) rfl first_run
    (fun _ => none) (.inr (.inl last_err)) (loaded he hf)
  exact ⟨e, t, front, f, loaded he hf, h1, h2, h3⟩

/-- The second line of this trace is that of the call of `f` that has not begun. -/
theorem C109_violated : ¬ C109Statement := by
  intro h
  obtain ⟨e, he, hf, hl⟩ := compiled
  injection hl with h2 hl
  injection hl with h3 hl
  injection hl with h8 hl
  injection hl with h9 _
  obtain ⟨t, ht, hr⟩ := h World L 100 0 (fun _ => false) 50 _ _ _ (fun _ => none) (fun _ => none) _ rfl first_run last_err (loaded he hf)
  have := C109_partial (L := L) (cap := 100) (stop := fun _ => false) (n := 50) (t₀ := 0) rfl first_run (fun _ => none)
    (flt := fun _ => none) (es := [(text, e)])
  rw [last_err] at this
  obtain ⟨⟨t', -, hr', ht'⟩, -⟩ := this (loaded he hf)
  rw [ht' (by rw [last_frames]; exact nofun)] at ht
  injection ht with ht
  injection ht with ht
  have ht := List.append_cancel_left ht
  subst ht
  rw [last_frames] at hr hr'
  have hm : [Frame.normal ⟨0, 3, 26, some 22, 0, 1⟩, .normal ⟨0, 9, 21, none, 0, 0⟩].map (meant (fun _ => none) [(text, e)]) =
      [⟨unnamed, lineOf [(text, e)] 0 2⟩, ⟨unnamed, lineOf [(text, e)] 0 8⟩] := by
    rw [List.map_cons, List.map_cons, (shown_normal ..).2, (shown_normal ..).2]
    rfl
  have hm' : [Frame.normal ⟨0, 3, 26, some 22, 0, 1⟩, .normal ⟨0, 9, 21, none, 0, 0⟩].map (shown (fun _ => none) [(text, e)]) =
      [⟨unnamed, lineOf [(text, e)] 0 3⟩, ⟨unnamed, lineOf [(text, e)] 0 9⟩] := by
    rw [List.map_cons, List.map_cons, (shown_normal ..).1, (shown_normal ..).1]
    rfl
  rw [hm, h2, h8] at hr
  rw [hm', h3, h9] at hr'
  have := C109_unique hr hr' (by decide) (by decide)
  revert this
  decide

end Noja.VM.Trace
