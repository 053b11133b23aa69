import Verif.VM.Machine

/-!
# Frames and the shared stack (C35)

Whatever code is run: no frame holds more values than it may, there are never too many frames, and
the values on the shared stack are those of the live frames, on top of what was there before.
-/

set_option linter.unusedVariables false

namespace Noja.VM

variable {W : Type} {L : Layer W}

def Frame.used : Frame → Nat
  | .normal f => f.used
  | .native _ => 0

/-- Values that belong to frames. -/
def held (fs : List Frame) : Nat := (fs.map Frame.used).sum

/-- `base` values were on the stack before the outermost frame. -/
structure Good (cap base : Nat) (s : St W) : Prop where
  stack : s.stack.length = base + held s.frames
  cap : s.stack.length ≤ cap
  used : ∀ f ∈ s.frames, f.used ≤ maxFrameStack
  frames : s.frames.length ≤ maxFrames

/-- The state of the machine, whether it goes on or not. -/
def Status.all (Q : St W → Prop) : Status W → Prop
  | .run s => Q s
  | .done _ s => Q s
  | .err s => Q s
  | .limit s => Q s
  | .ub => True

variable {cap base : Nat}

theorem held_cons (f : Frame) (fs : List Frame) : held (f :: fs) = f.used + held fs := by
  simp [held]

theorem push_good (v : Ref) {s : St W} (h : Good cap base s) :
    (s.push cap v).all (Good cap base) := by
  obtain ⟨w, fn, ex, st, fr⟩ := s
  cases fr with
  | nil => exact h
  | cons f fs =>
    cases f with
    | native k => exact h
    | normal f =>
      obtain ⟨h1, h2, h3, h4⟩ := h
      simp only [held_cons, Frame.used] at h1
      have hu := h3 (.normal f) (by simp)
      simp only [Frame.used] at hu
      simp only [St.push]
      by_cases hf : f.used = maxFrameStack
      · rw [if_pos hf]
        exact ⟨by simpa [held_cons, Frame.used] using h1, h2, h3, h4⟩
      · rw [if_neg hf]
        by_cases hc : cap ≤ st.length
        · rw [if_pos hc]
          exact ⟨by simpa [held_cons, Frame.used] using h1, h2, h3, h4⟩
        · rw [if_neg hc]
          refine ⟨?_, ?_, ?_, ?_⟩
          · simp only [held_cons, Frame.used, List.length_cons]; omega
          · simp only [List.length_cons]; omega
          · intro g hg
            simp only [List.mem_cons] at hg
            rcases hg with rfl | hg
            · simp only [Frame.used]; omega
            · exact h3 g (List.mem_cons_of_mem _ hg)
          · simpa using h4

theorem pushAll_good : ∀ (vs : List Ref) {s : St W}, Good cap base s →
    (s.pushAll cap vs).all (Good cap base)
  | [], s, h => h
  | v :: vs, s, h => by
    have := push_good v h
    simp only [St.pushAll]
    revert this
    cases s.push cap v with
    | run t => exact fun h => pushAll_good vs h
    | _ => exact fun h => h

theorem pop_good (n : Nat) {s : St W} (k : List Ref → St W → Status W) (h : Good cap base s)
    (hk : ∀ vs t, Good cap base t → (k vs t).all (Good cap base)) :
    (s.pop n k).all (Good cap base) := by
  obtain ⟨w, fn, ex, st, fr⟩ := s
  cases fr with
  | nil => exact h
  | cons f fs =>
    cases f with
    | native k => exact h
    | normal f =>
      simp only [St.pop]
      by_cases hf : f.used < n
      · rw [if_pos hf]; exact h
      · rw [if_neg hf]
        obtain ⟨h1, h2, h3, h4⟩ := h
        simp only [held_cons, Frame.used] at h1
        have hu := h3 (.normal f) (by simp)
        simp only [Frame.used] at hu
        refine hk _ _ ⟨?_, ?_, ?_, ?_⟩
        · simp only [held_cons, Frame.used, List.length_drop]; omega
        · simp only [List.length_drop]; dsimp only at h2; omega
        · intro g hg
          simp only [List.mem_cons] at hg
          rcases hg with rfl | hg
          · simp only [Frame.used]; omega
          · exact h3 g (List.mem_cons_of_mem _ hg)
        · simpa using h4

theorem peek_good (n : Nat) {s : St W} (k : List Ref → Status W) (h : Good cap base s)
    (hk : ∀ vs, (k vs).all (Good cap base)) : (s.peek n k).all (Good cap base) := by
  unfold St.peek
  split
  · split
    · exact h
    · exact hk _
  · exact h

theorem good_w {s : St W} (h : Good cap base s) (w : W) : Good cap base { s with w := w } :=
  ⟨h.1, h.2, h.3, h.4⟩

theorem prim_good {α : Type} {s : St W} (o : Out W α) (k : α → St W → Status W)
    (h : Good cap base s) (hk : ∀ a t, Good cap base t → t.frames = s.frames → (k a t).all (Good cap base)) :
    (s.prim o k).all (Good cap base) := by
  unfold St.prim
  split
  · exact hk _ _ (good_w h _) rfl
  · exact good_w h _
  · trivial

theorem goto_good (a : Nat) {s : St W} (h : Good cap base s) : (s.goto a).all (Good cap base) := by
  obtain ⟨w, fn, ex, st, fr⟩ := s
  cases fr with
  | nil => exact h
  | cons f fs =>
    cases f with
    | native k => exact h
    | normal f =>
      obtain ⟨h1, h2, h3, h4⟩ := h
      refine ⟨h1, h2, ?_, h4⟩
      intro g hg
      simp only [List.mem_cons] at hg
      rcases hg with rfl | hg
      · exact h3 (.normal f) (by simp)
      · exact h3 g (List.mem_cons_of_mem _ hg)

theorem deliver_good (want : Nat) (rets : List Ref) {s : St W} (h : Good cap base s) :
    (deliver L cap want rets s).all (Good cap base) := by
  unfold deliver
  split
  · trivial
  · exact pushAll_good _ h

theorem good_frame {s : St W} (h : Good cap base s) (f : Frame) (hf : f.used = 0)
    (hl : ¬ maxFrames ≤ s.frames.length) : Good cap base { s with frames := f :: s.frames } := by
  obtain ⟨h1, h2, h3, h4⟩ := h
  refine ⟨?_, h2, ?_, ?_⟩
  · simp only [held_cons, hf]; omega
  · intro g hg
    simp only [List.mem_cons] at hg
    rcases hg with rfl | hg
    · rw [hf]; exact Nat.zero_le _
    · exact h3 g hg
  · simp only [List.length_cons]; omega

theorem enter_good (exe addr : Nat) (closure : Option Ref) (want : Nat) (args : List Ref)
    {s : St W} (h : Good cap base s) :
    (enter L cap exe addr closure want args s).all (Good cap base) := by
  unfold enter
  refine prim_good _ _ h fun a t ht hfr => ?_
  by_cases hl : maxFrames ≤ t.frames.length
  · rw [if_pos hl]; exact ht
  · rw [if_neg hl]
    exact pushAll_good _ (good_frame ht _ rfl hl)

theorem leave_good {s : St W} (h : Good cap base s) : (leave L cap s).all (Good cap base) := by
  obtain ⟨w, fn, ex, st, fr⟩ := s
  unfold leave
  cases fr with
  | nil => exact h
  | cons f fs =>
    cases f with
    | native k => exact h
    | normal f =>
      dsimp only
      split
      · exact h
      · obtain ⟨h1, h2, h3, h4⟩ := h
        simp only [held_cons, Frame.used] at h1
        dsimp only at h2
        have h3' : ∀ g ∈ fs, g.used ≤ maxFrameStack := fun g hg => h3 g (List.mem_cons_of_mem _ hg)
        simp only [List.length_cons] at h4
        have hlen : (st.drop f.used).length = base + held fs := by simp only [List.length_drop]; omega
        cases fs with
        | nil => exact ⟨hlen, by dsimp only; rw [hlen]; simp [held] at *; omega, h3', by simp⟩
        | cons g fs =>
          cases g with
          | normal g => exact deliver_good _ _ ⟨hlen, by simp only [List.length_drop]; omega, h3', by simp only [List.length_cons] at h4 ⊢; omega⟩
          | native k =>
            refine deliver_good _ _ ⟨?_, by simp only [List.length_drop]; omega, fun g hg => h3' g (List.mem_cons_of_mem _ hg), ?_⟩
            · simpa [held_cons, Frame.used] using hlen
            · simp only [List.length_cons] at h4 ⊢; omega

theorem callObj_good (f : Ref) (argv : List Ref) (want : Nat) {s : St W} (h : Good cap base s) :
    (callObj L cap f argv want s).all (Good cap base) := by
  unfold callObj
  refine prim_good _ _ h fun c s h _ => ?_
  cases c with
  | no => exact h
  | noja clo =>
    dsimp only
    cases s.funcs f with
    | none => trivial
    | some fn => exact enter_good _ _ _ _ _ h
  | native id argc =>
    dsimp only
    by_cases hl : maxFrames ≤ s.frames.length
    · rw [if_pos hl]; exact h
    · rw [if_neg hl]
      refine prim_good _ _ (good_frame h _ rfl hl) fun r t ht hfr => ?_
      cases r with
      | done rets =>
        refine deliver_good _ _ ?_
        obtain ⟨h1, h2, -, -⟩ := ht
        rw [hfr] at h1
        refine ⟨?_, h2, h.used, h.frames⟩
        simpa [held_cons, Frame.used] using h1
      | load p =>
        dsimp only
        split
        · exact enter_good _ _ _ _ _ ⟨ht.1, ht.2, ht.3, ht.4⟩
        · trivial

theorem execI_good (i : Instr) {s : St W} (h : Good cap base s) :
    (execI L cap i s).all (Good cap base) := by
  have pu : ∀ v (t : St W), Good cap base t → (t.push cap v).all (Good cap base) :=
    fun v t ht => push_good v ht
  have pr : ∀ (o : Out W Ref) (t : St W), Good cap base t →
      (t.prim o fun r s => s.push cap r).all (Good cap base) :=
    fun o t ht => prim_good _ _ ht fun a u hu _ => push_good a hu
  have pk : ∀ (o : Out W Unit) (t : St W), Good cap base t →
      (t.prim o fun _ s => .run s).all (Good cap base) :=
    fun o t ht => prim_good _ _ ht fun a u hu _ => hu
  cases i with
  | nope => simp only [execI]; exact h
  | un op =>
    have hp : (s.pop 1 fun vs s => match vs with
        | [a] => s.prim (L.un op a s.w) fun r s => s.push cap r
        | _ => .ub).all (Good cap base) := by
      refine pop_good _ _ h fun vs t ht => ?_
      split
      · exact pr _ _ ht
      · trivial
    cases op with
    | pos => simp only [execI]; exact peek_good _ _ h fun _ => h
    | _ => simp only [execI]; exact hp
  | bin op =>
    simp only [execI]
    refine pop_good _ _ h fun vs t ht => ?_
    split
    · exact pr _ _ ht
    · trivial
  | ass n =>
    simp only [execI]
    refine peek_good _ _ h fun vs => ?_
    split
    · exact pk _ _ h
    · trivial
  | pop n => simp only [execI]; exact pop_good _ _ h fun _ t ht => ht
  | checkType i n =>
    simp only [execI]
    refine peek_good _ _ h fun vs => ?_
    split
    · refine pop_good _ _ h fun _ t ht => prim_good _ _ ht fun a u hu _ => ?_
      cases a <;> exact hu
    · trivial
  | call argc want =>
    simp only [execI]
    refine pop_good _ _ h fun vs t ht => ?_
    split
    · split
      · exact ht
      · exact pop_good _ _ ht fun _ u hu => callObj_good _ _ _ hu
    · trivial
  | select =>
    simp only [execI]
    refine peek_good _ _ h fun vs => ?_
    split
    · exact pop_good _ _ h fun _ t ht => pr _ _ ht
    · trivial
  | select2 =>
    simp only [execI]
    refine peek_good _ _ h fun vs => ?_
    split
    · exact pop_good _ _ h fun _ t ht => pr _ _ ht
    · trivial
  | insert =>
    simp only [execI]
    refine peek_good _ _ h fun vs => ?_
    split
    · exact pop_good _ _ h fun _ t ht => pk _ _ ht
    · trivial
  | insert2 =>
    simp only [execI]
    refine peek_good _ _ h fun vs => ?_
    split
    · exact pop_good _ _ h fun _ t ht => pk _ _ ht
    · trivial
  | pushInt v => simp only [execI]; exact pr _ _ h
  | pushFlt v => simp only [execI]; exact pr _ _ h
  | pushStr v => simp only [execI]; exact pr _ _ h
  | pushVar n =>
    simp only [execI]
    split
    · exact pr _ _ h
    · exact h
  | pushNne => simp only [execI]; exact pu _ _ h
  | pushTru => simp only [execI]; exact pu _ _ h
  | pushFls => simp only [execI]; exact pu _ _ h
  | pushFun a n name =>
    simp only [execI]
    split
    · exact prim_good _ _ h fun r t ht _ => pu _ _ ⟨ht.1, ht.2, ht.3, ht.4⟩
    · exact h
  | pushLst n => simp only [execI]; exact pr _ _ h
  | pushMap n => simp only [execI]; exact pr _ _ h
  | pushNneTyp => simp only [execI]; exact pu _ _ h
  | pushTyp =>
    simp only [execI]
    refine peek_good _ _ h fun vs => ?_
    split
    · exact pr _ _ h
    · trivial
  | exit =>
    simp only [execI]
    split
    · rename_i f _ _
      have := push_good f.locals h
      revert this
      cases s.push cap f.locals with
      | run t => exact fun ht => leave_good ht
      | _ => exact fun ht => ht
    · exact h
  | ret n => simp only [execI]; exact leave_good h
  | jump a => simp only [execI]; exact goto_good a h
  | jumpIf a =>
    simp only [execI]
    refine pop_good _ _ h fun vs t ht => ?_
    split
    · refine prim_good _ _ ht fun b u hu _ => ?_
      cases b with
      | true => exact goto_good a hu
      | false => exact hu
    · trivial
  | jumpIfNot a =>
    simp only [execI]
    refine pop_good _ _ h fun vs t ht => ?_
    split
    · refine prim_good _ _ ht fun b u hu _ => ?_
      cases b with
      | true => exact hu
      | false => exact goto_good a hu
    · trivial

theorem step_good {s : St W} (h : Good cap base s) : (step L cap s).all (Good cap base) := by
  obtain ⟨w, fn, ex, st, fr⟩ := s
  cases fr with
  | nil => exact h
  | cons f fs =>
    cases f with
    | native k => exact h
    | normal f =>
      simp only [step]
      split
      · exact h
      · refine execI_good _ ?_
        obtain ⟨h1, h2, h3, h4⟩ := h
        refine ⟨h1, h2, ?_, h4⟩
        intro g hg
        simp only [List.mem_cons] at hg
        rcases hg with rfl | hg
        · exact h3 (.normal f) (by simp)
        · exact h3 g (List.mem_cons_of_mem _ hg)

theorem exec_good (stop : Nat → Bool) : ∀ (n t : Nat) {s : St W}, Good cap base s →
    (exec L cap stop n t s).all (Good cap base)
  | 0, t, s, h => h
  | n + 1, t, s, h => by
    simp only [exec]
    split
    · exact h
    · have := step_good (L := L) h
      revert this
      cases step L cap s with
      | run u => exact fun h => exec_good stop n (t + 1) h
      | _ => exact fun h => h

/-- At every moment of every execution, of any code and with any answers of the interrupt check:
no frame holds more than `MAX_FRAME_STACK` values, there are at most `MAX_FRAMES` frames, the stack
does not exceed its capacity, and what is on it belongs to the live frames or was there before. (Example: `VM/Demo.lean`.) -/
theorem C35_frames (e : Nat) (s : St W) (hs : s.frames = []) (hc : s.stack.length ≤ cap)
    (stop : Nat → Bool) (n : Nat) :
    (match boot L cap e s with
      | .run t => exec L cap stop n 0 t
      | x => x).all fun t =>
        t.stack.length = s.stack.length + (t.frames.map Frame.used).sum ∧ t.stack.length ≤ cap ∧
        (∀ f ∈ t.frames, f.used ≤ 16) ∧ t.frames.length ≤ 16 := by
  have h0 : Good cap s.stack.length s := by
    refine ⟨by rw [hs]; rfl, hc, by rw [hs]; simp, by rw [hs]; simp⟩
  have hb : (boot L cap e s).all (Good cap s.stack.length) := enter_good _ _ _ _ _ h0
  have key : (match boot L cap e s with
      | .run t => exec L cap stop n 0 t
      | x => x).all (Good cap s.stack.length) := by
    revert hb
    cases boot L cap e s with
    | run t => exact fun h => exec_good stop n 0 h
    | _ => exact fun h => h
  revert key
  generalize (match boot L cap e s with
      | .run t => exec L cap stop n 0 t
      | x => x) = r
  have cv : ∀ t : St W, Good cap s.stack.length t → t.stack.length = s.stack.length + (t.frames.map Frame.used).sum ∧ t.stack.length ≤ cap ∧
        (∀ f ∈ t.frames, f.used ≤ 16) ∧ t.frames.length ≤ 16 := fun t h => ⟨h.1, h.2, h.3, h.4⟩
  cases r with
  | ub => exact fun _ => trivial
  | run t => exact cv t
  | done _ t => exact cv t
  | err t => exact cv t
  | limit t => exact cv t

end Noja.VM
