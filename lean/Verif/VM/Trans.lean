import Verif.VM.Frames
import Verif.VM.Balance

/-!
# What one instruction does to the frames and the stack

Every instruction that succeeds does one of three things: it changes only the values of the
innermost frame (`Trans.stay`), it starts a callee on top of it (`Trans.call`), or it ends the
innermost frame and gives its results to the caller (`Trans.back`).
-/

set_option linter.unusedVariables false
set_option linter.unusedSimpArgs false

namespace Noja.VM

variable {W : Type} {L : Layer W} {cap : Nat}

/-- The innermost frame is of the language, and the caller of a native function too. -/
inductive Shape : List Frame → Prop
  | nil : Shape []
  | normal {f fs} : Shape fs → Shape (.normal f :: fs)
  | native {k f fs} : Shape (.normal f :: fs) → Shape (.native k :: .normal f :: fs)

/-- The frame below `fs` that waits, with what it waits for: number of results, frame, the frames
below it. -/
inductive Waits : (want : Nat) → List Frame → (k : Nat) → NFrame → List Frame → Prop
  | normal {k g fs} : Waits k (.normal g :: fs) k g fs
  | native {want k g fs} : Waits want (.native k :: .normal g :: fs) k g fs

/-- The frame of a callee. -/
inductive Callees (s t : St W) (want : Nat) : (h : NFrame) → List Frame → Prop
  | noja {h r fn} : s.funcs r = some fn → h.exe = fn.exe → h.idx = fn.addr → h.used = fn.argc →
      h.want = want → t.exes = s.exes → Callees s t want h []
  | load {h p} : p.wf false = true → h.exe = s.exes.length → h.idx = 0 → h.used = 0 →
      h.want = 0 → t.exes = s.exes ++ [compile p] → Callees s t want h [.native want]

/-- `f` is the innermost frame with its index already moved on, `us` its values, `st` and `fs` the
rest of the stack and of the frames. -/
inductive Trans (ins : Instr) (f : NFrame) (us st : List Ref) (fs : List Frame) (s t : St W) : Prop
  | stay (us' : List Ref) (idx : Nat) :
      ins.needs ≤ f.used → idx ∈ ins.next (f.idx - 1) →
      us'.length = f.used - ins.takes + ins.gives → us'.drop ins.gives = us.drop ins.takes →
      t.frames = .normal { f with idx := idx, used := us'.length } :: fs → t.stack = us' ++ st →
      t.exes = s.exes →
      (t.funcs = s.funcs ∨ ∃ a n nm r, ins = .pushFun a n nm ∧
        t.funcs = fun x => if x = r then some ⟨f.exe, a, n⟩ else s.funcs x) →
      Trans ins f us st fs s t
  | call (argc want : Nat) (args : List Ref) (h : NFrame) (nat : List Frame) :
      ins = .call argc want → argc + 1 ≤ f.used → Callees s t want h nat →
      args.length = h.used →
      t.frames = .normal h :: (nat ++ .normal { f with used := f.used - (argc + 1) } :: fs) →
      t.stack = args ++ (us.drop (argc + 1) ++ st) → t.funcs = s.funcs →
      Trans ins f us st fs s t
  | back (k : Nat) (g : NFrame) (gs : List Frame) (vs : List Ref) :
      (ins = .exit ∨ ∃ n, ins = .ret n) → Waits f.want fs k g gs → vs.length = k →
      t.frames = .normal { g with used := g.used + k } :: gs → t.stack = vs ++ st →
      t.exes = s.exes → t.funcs = s.funcs →
      Trans ins f us st fs s t

/-- What a continued run satisfies. -/
def Status.post (Q : St W → Prop) : Status W → Prop
  | .run s => Q s
  | _ => True

theorem push_post (v : Ref) {s : St W} {f : NFrame} {fs : List Frame} {Q : St W → Prop}
    (hf : s.frames = .normal f :: fs)
    (hq : Q { s with stack := v :: s.stack, frames := .normal { f with used := f.used + 1 } :: fs }) :
    (s.push cap v).post Q := by
  unfold St.push
  rw [hf]
  dsimp only
  split
  · trivial
  · split
    · trivial
    · exact hq

theorem pushAll_post {Q : St W → Prop} : ∀ (vs : List Ref) {s : St W} {f : NFrame} {fs : List Frame},
    s.frames = .normal f :: fs →
    (Q { s with stack := vs.reverse ++ s.stack, frames := .normal { f with used := f.used + vs.length } :: fs }) →
    (s.pushAll cap vs).post Q
  | [], s, f, fs, hf, hq => by
    obtain ⟨w, fn, ex, st, fr⟩ := s
    simp only at hf
    subst hf
    exact hq
  | v :: vs, s, f, fs, hf, hq => by
    simp only [St.pushAll]
    unfold St.push
    rw [hf]
    dsimp only
    by_cases h1 : f.used = maxFrameStack
    · rw [if_pos h1]; trivial
    · rw [if_neg h1]
      by_cases h2 : cap ≤ s.stack.length
      · rw [if_pos h2]; trivial
      · rw [if_neg h2]
        refine pushAll_post vs (f := { f with used := f.used + 1 }) (fs := fs) rfl ?_
        have e : f.used + (v :: vs).length = f.used + 1 + vs.length := by simp; omega
        rw [e] at hq
        simpa using hq

theorem pop_post (n : Nat) {s : St W} {f : NFrame} {fs : List Frame} {us st : List Ref}
    {k : List Ref → St W → Status W} {Q : St W → Prop}
    (hf : s.frames = .normal f :: fs) (hs : s.stack = us ++ st) (hu : us.length = f.used)
    (hq : n ≤ f.used → (k (us.take n) { s with stack := us.drop n ++ st, frames := .normal { f with used := f.used - n } :: fs }).post Q) :
    (s.pop n k).post Q := by
  unfold St.pop
  rw [hf]
  dsimp only
  by_cases h : f.used < n
  · rw [if_pos h]; trivial
  · rw [if_neg h, hs, List.take_append_of_le_length (by omega), List.drop_append_of_le_length (by omega)]
    exact hq (by omega)

theorem peek_post (n : Nat) {s : St W} {f : NFrame} {fs : List Frame} {us st : List Ref}
    {k : List Ref → Status W} {Q : St W → Prop}
    (hf : s.frames = .normal f :: fs) (hs : s.stack = us ++ st) (hu : us.length = f.used)
    (hq : n ≤ f.used → (k (us.take n)).post Q) :
    (s.peek n k).post Q := by
  unfold St.peek
  rw [hf]
  dsimp only
  by_cases h : f.used < n
  · rw [if_pos h]; trivial
  · rw [if_neg h, hs, List.take_append_of_le_length (by omega)]
    exact hq (by omega)

theorem prim_post {α : Type} {s : St W} {o : Out W α} {k : α → St W → Status W} {Q : St W → Prop}
    (hq : ∀ w a, (k a { s with w := w }).post Q) : (s.prim o k).post Q := by
  unfold St.prim
  split
  · exact hq _ _
  · trivial
  · trivial

theorem deliver_post {want : Nat} {rets : List Ref} {s : St W} {f : NFrame} {fs : List Frame}
    {Q : St W → Prop} (hf : s.frames = .normal f :: fs)
    (hq : ∀ vs : List Ref, vs.length = want →
      Q { s with stack := vs ++ s.stack, frames := .normal { f with used := f.used + want } :: fs }) :
    (deliver L cap want rets s).post Q := by
  unfold deliver
  split
  · trivial
  · have e : (rets.take want ++ List.replicate (want - rets.length) L.none).length = want := by
      simp; omega
    refine pushAll_post _ hf ?_
    have := hq (rets.take want ++ List.replicate (want - rets.length) L.none).reverse (by rw [List.length_reverse]; exact e)
    rw [e]
    exact this

theorem enter_post {exe addr : Nat} {closure : Option Ref} {want : Nat} {args : List Ref} {s : St W}
    {Q : St W → Prop}
    (hq : ∀ w locals (vs : List Ref), vs.length = args.length →
      Q { s with w := w, stack := vs ++ s.stack, frames := .normal { exe := exe, idx := addr, locals := locals, closure := closure, used := args.length, want := want } :: s.frames }) :
    (enter L cap exe addr closure want args s).post Q := by
  unfold enter
  refine prim_post fun w locals => ?_
  by_cases h : maxFrames ≤ ({ s with w := w } : St W).frames.length
  · rw [if_pos h]; trivial
  · rw [if_neg h]
    refine pushAll_post _ rfl ?_
    have := hq w locals args.reverse (by simp)
    simpa using this

theorem fit_length (n : Nat) (args : List Ref) : (L.fit n args).length = n := by
  simp [Layer.fit]; omega

theorem callObj_post {r : Ref} {argv : List Ref} {want : Nat} {s : St W} {f : NFrame}
    {fs : List Frame} {Q : St W → Prop} (hf : s.frames = .normal f :: fs)
    (hback : ∀ w (vs : List Ref), vs.length = want →
      Q { s with w := w, stack := vs ++ s.stack, frames := .normal { f with used := f.used + want } :: fs })
    (hcall : ∀ (t : St W) (vs : List Ref) h nat, vs.length = h.used → Callees s t want h nat →
      t.frames = .normal h :: (nat ++ s.frames) → t.stack = vs ++ s.stack → t.funcs = s.funcs → Q t) :
    (callObj L cap r argv want s).post Q := by
  unfold callObj
  refine prim_post fun w c => ?_
  cases c with
  | no => trivial
  | noja clo =>
    dsimp only
    cases hfn : s.funcs r with
    | none => trivial
    | some fn =>
      dsimp only
      refine enter_post fun w' locals vs hl => ?_
      rw [fit_length] at hl
      refine hcall _ vs _ [] ?_ (.noja hfn rfl rfl ?_ rfl rfl) rfl rfl rfl
      · simp [fit_length, hl]
      · simp [fit_length]
  | native id argc =>
    dsimp only
    by_cases hl : maxFrames ≤ s.frames.length
    · rw [if_pos hl]; trivial
    · rw [if_neg hl]
      refine prim_post fun w' res => ?_
      cases res with
      | done rets => exact deliver_post (f := f) (fs := fs) hf fun vs hvs => hback w' vs hvs
      | load p =>
        dsimp only
        by_cases hp : p.wf false = true
        · rw [if_pos hp]
          refine enter_post fun w'' locals vs hvs => ?_
          refine hcall _ vs _ [.native want] ?_ (.load hp rfl rfl rfl rfl rfl) rfl rfl rfl
          simpa using hvs
        · rw [if_neg hp]; trivial

theorem leave_post {s : St W} {f : NFrame} {fs : List Frame} {us st : List Ref} {Q : St W → Prop}
    (hf : s.frames = .normal f :: fs) (hs : s.stack = us ++ st) (hu : us.length = f.used)
    (hsh : Shape fs)
    (hq : ∀ k g gs (vs : List Ref), Waits f.want fs k g gs → vs.length = k →
      Q { s with stack := vs ++ st, frames := .normal { g with used := g.used + k } :: gs }) :
    (leave L cap s).post Q := by
  unfold leave
  rw [hf]
  dsimp only
  split
  · trivial
  · have hd : s.stack.drop f.used = st := by rw [hs, ← hu, List.drop_left]
    rw [hd]
    cases hsh with
    | nil => trivial
    | normal h =>
      dsimp only
      exact deliver_post rfl fun vs hvs => hq _ _ _ vs .normal hvs
    | native h =>
      dsimp only
      exact deliver_post rfl fun vs hvs => hq _ _ _ vs .native hvs

/-- Changes of the innermost frame only. -/
theorem Trans.stay' {ins : Instr} {f : NFrame} {us st : List Ref} {fs : List Frame} {s t : St W}
    (us' : List Ref) (used idx : Nat) (hu : us'.length = used) (hn : ins.needs ≤ f.used)
    (hi : idx ∈ ins.next (f.idx - 1)) (hl : used = f.used - ins.takes + ins.gives)
    (hf : t.frames = .normal { f with idx := idx, used := used } :: fs) (hs : t.stack = us' ++ st)
    (he : t.exes = s.exes) (hfn : t.funcs = s.funcs)
    (hd : us'.drop ins.gives = us.drop ins.takes := by rfl) : Trans ins f us st fs s t := by
  subst hu
  exact .stay us' idx hn hi hl hd hf hs he (.inl hfn)

theorem execI_trans (ins : Instr) {s : St W} {f : NFrame} {fs : List Frame} {us st : List Ref}
    (hf : s.frames = .normal f :: fs) (hs : s.stack = us ++ st) (hu : us.length = f.used)
    (hi : 0 < f.idx) (hsh : Shape fs) :
    (execI L cap ins s).post (Trans ins f us st fs s) := by
  have hnx : f.idx = f.idx - 1 + 1 := by omega
  cases ins with
  | nope =>
    simp only [execI]
    exact .stay' us f.used f.idx hu (Nat.zero_le _) (by simp [Instr.next]; omega) rfl hf hs rfl rfl
  | un op =>
    have hp : op ≠ .pos → (s.pop 1 fun vs s => match vs with
        | [a] => s.prim (L.un op a s.w) fun r s => s.push cap r
        | _ => .ub).post (Trans (.un op) f us st fs s) := by
      intro _
      refine pop_post 1 hf hs hu fun h1 => ?_
      split
      · refine prim_post fun w r => push_post _ rfl ?_
        exact .stay' (r :: us.drop 1) (f.used - 1 + 1) f.idx (by simp; omega) h1 (by simp [Instr.next]; omega) rfl rfl rfl rfl rfl
      · trivial
    cases op with
    | pos =>
      simp only [execI]
      refine peek_post 1 hf hs hu fun h1 => ?_
      exact .stay' us f.used f.idx hu h1 (by simp [Instr.next]; omega) (by show f.used = f.used - 1 + 1; omega) hf hs rfl rfl
    | neg => simp only [execI]; exact hp (by simp)
    | not => simp only [execI]; exact hp (by simp)
    | nlb => simp only [execI]; exact hp (by simp)
  | bin op =>
    simp only [execI]
    refine pop_post 2 hf hs hu fun h1 => ?_
    split
    · refine prim_post fun w r => push_post _ rfl ?_
      exact .stay' (r :: us.drop 2) (f.used - 2 + 1) f.idx (by simp; omega) h1 (by simp [Instr.next]; omega) rfl rfl rfl rfl rfl
    · trivial
  | ass n =>
    simp only [execI]
    refine peek_post 1 hf hs hu fun h1 => ?_
    split
    · refine prim_post fun w r => ?_
      exact .stay' us f.used f.idx hu h1 (by simp [Instr.next]; omega) rfl hf hs rfl rfl
    · trivial
  | pop n =>
    simp only [execI]
    refine pop_post n hf hs hu fun h1 => ?_
    exact .stay' (us.drop n) (f.used - n) f.idx (by simp; omega) h1 (by simp [Instr.next]; omega) rfl rfl rfl rfl rfl
  | checkType a b =>
    simp only [execI]
    refine peek_post 2 hf hs hu fun h1 => ?_
    split
    · refine pop_post 1 hf hs hu fun h2 => prim_post fun w r => ?_
      cases r with
      | false => trivial
      | true =>
        exact .stay' (us.drop 1) (f.used - 1) f.idx (by simp; omega) h1 (by simp [Instr.next]; omega) rfl rfl rfl rfl rfl
    · trivial
  | call argc want =>
    simp only [execI]
    refine pop_post 1 hf hs hu fun h1 => ?_
    split
    · split
      · trivial
      · refine pop_post argc (us := us.drop 1) rfl rfl (by simp; omega) fun h2 => ?_
        dsimp only at h2
        refine callObj_post rfl (fun w vs hvs => ?_) (fun t vs h nat hvs hc hfr hst hfn => ?_)
        · exact .stay' (vs ++ (us.drop 1).drop argc) (f.used - 1 - argc + want) f.idx (by simp; omega)
            (by show argc + 1 ≤ f.used; omega) (by simp [Instr.next]; omega)
            (by show _ = f.used - (argc + 1) + want; omega) rfl (by simp) rfl rfl
            (by
              show (vs ++ (us.drop 1).drop argc).drop want = us.drop (argc + 1)
              rw [← hvs, List.drop_left, List.drop_drop, Nat.add_comm])
        · refine .call argc want vs h nat rfl (by omega) ?_ hvs ?_ ?_ ?_
          · cases hc with
            | noja a b c d e g => exact .noja a b c d e g
            | load a b c d e g => exact .load a b c d e g
          · rw [hfr]
            have e : f.used - 1 - argc = f.used - (argc + 1) := by omega
            simp [e]
          · rw [hst]
            simp [Nat.add_comm]
          · exact hfn
    · trivial
  | select =>
    simp only [execI]
    refine peek_post 2 hf hs hu fun h1 => ?_
    split
    · refine pop_post 2 hf hs hu fun h2 => prim_post fun w r => push_post _ rfl ?_
      exact .stay' (r :: us.drop 2) (f.used - 2 + 1) f.idx (by simp; omega) h1 (by simp [Instr.next]; omega) rfl rfl rfl rfl rfl
    · trivial
  | select2 =>
    simp only [execI]
    refine peek_post 2 hf hs hu fun h1 => ?_
    split
    · refine pop_post 1 hf hs hu fun h2 => prim_post fun w r => push_post _ rfl ?_
      exact .stay' (r :: us.drop 1) (f.used - 1 + 1) f.idx (by simp; omega) h1 (by simp [Instr.next]; omega) rfl rfl rfl rfl rfl
    · trivial
  | insert =>
    simp only [execI]
    refine peek_post 3 hf hs hu fun h1 => ?_
    split
    · refine pop_post 2 hf hs hu fun h2 => prim_post fun w r => ?_
      exact .stay' (us.drop 2) (f.used - 2) f.idx (by simp; omega) h1 (by simp [Instr.next]; omega) rfl rfl rfl rfl rfl
    · trivial
  | insert2 =>
    simp only [execI]
    refine peek_post 3 hf hs hu fun h1 => ?_
    split
    · refine pop_post 2 hf hs hu fun h2 => prim_post fun w r => ?_
      exact .stay' (us.drop 2) (f.used - 2) f.idx (by simp; omega) h1 (by simp [Instr.next]; omega) rfl rfl rfl rfl rfl
    · trivial
  | pushInt v =>
    simp only [execI]
    refine prim_post fun w r => push_post _ hf ?_
    exact .stay' (r :: us) (f.used + 1) f.idx (by simp; omega) (Nat.zero_le _) (by simp [Instr.next]; omega) rfl rfl (by simp [hs]) rfl rfl
  | pushFlt v =>
    simp only [execI]
    refine prim_post fun w r => push_post _ hf ?_
    exact .stay' (r :: us) (f.used + 1) f.idx (by simp; omega) (Nat.zero_le _) (by simp [Instr.next]; omega) rfl rfl (by simp [hs]) rfl rfl
  | pushStr v =>
    simp only [execI]
    refine prim_post fun w r => push_post _ hf ?_
    exact .stay' (r :: us) (f.used + 1) f.idx (by simp; omega) (Nat.zero_le _) (by simp [Instr.next]; omega) rfl rfl (by simp [hs]) rfl rfl
  | pushVar n =>
    simp only [execI]
    rw [hf]
    dsimp only
    refine prim_post fun w r => push_post _ hf ?_
    exact .stay' (r :: us) (f.used + 1) f.idx (by simp; omega) (Nat.zero_le _) (by simp [Instr.next]; omega) rfl rfl (by simp [hs]) rfl rfl
  | pushNne =>
    simp only [execI]
    refine push_post _ hf ?_
    exact .stay' (_ :: us) (f.used + 1) f.idx (by simp; omega) (Nat.zero_le _) (by simp [Instr.next]; omega) rfl rfl (by simp [hs]; rfl) rfl rfl
  | pushTru =>
    simp only [execI]
    refine push_post _ hf ?_
    exact .stay' (_ :: us) (f.used + 1) f.idx (by simp; omega) (Nat.zero_le _) (by simp [Instr.next]; omega) rfl rfl (by simp [hs]; rfl) rfl rfl
  | pushFls =>
    simp only [execI]
    refine push_post _ hf ?_
    exact .stay' (_ :: us) (f.used + 1) f.idx (by simp; omega) (Nat.zero_le _) (by simp [Instr.next]; omega) rfl rfl (by simp [hs]; rfl) rfl rfl
  | pushFun a n nm =>
    simp only [execI]
    rw [hf]
    dsimp only
    refine prim_post fun w r => push_post _ hf ?_
    refine .stay (r :: us) f.idx (Nat.zero_le _) (by simp [Instr.next]; omega) ?_ rfl ?_ (by simp [hs]) rfl
      (.inr ⟨a, n, nm, r, rfl, rfl⟩)
    · show us.length + 1 = f.used - 0 + 1
      omega
    · simp [hu]
  | pushLst n =>
    simp only [execI]
    refine prim_post fun w r => push_post _ hf ?_
    exact .stay' (r :: us) (f.used + 1) f.idx (by simp; omega) (Nat.zero_le _) (by simp [Instr.next]; omega) rfl rfl (by simp [hs]) rfl rfl
  | pushMap n =>
    simp only [execI]
    refine prim_post fun w r => push_post _ hf ?_
    exact .stay' (r :: us) (f.used + 1) f.idx (by simp; omega) (Nat.zero_le _) (by simp [Instr.next]; omega) rfl rfl (by simp [hs]) rfl rfl
  | pushNneTyp =>
    simp only [execI]
    refine push_post _ hf ?_
    exact .stay' (_ :: us) (f.used + 1) f.idx (by simp; omega) (Nat.zero_le _) (by simp [Instr.next]; omega) rfl rfl (by simp [hs]; rfl) rfl rfl
  | pushTyp =>
    simp only [execI]
    refine peek_post 1 hf hs hu fun h1 => ?_
    split
    · refine prim_post fun w r => push_post _ hf ?_
      exact .stay' (r :: us) (f.used + 1) f.idx (by simp; omega) h1 (by simp [Instr.next]; omega) rfl rfl (by simp [hs]) rfl rfl
    · trivial
  | exit =>
    simp only [execI]
    rw [hf]
    dsimp only
    unfold St.push
    rw [hf]
    dsimp only
    by_cases h1 : f.used = maxFrameStack
    · rw [if_pos h1]; trivial
    · rw [if_neg h1]
      by_cases h2 : cap ≤ s.stack.length
      · rw [if_pos h2]; trivial
      · rw [if_neg h2]
        dsimp only
        refine leave_post (us := f.locals :: us) (st := st) rfl (by simp [hs]) (by simp [hu]) hsh ?_
        intro k g gs vs hw hv
        exact .back k g gs vs (.inl rfl) hw hv rfl rfl rfl rfl
  | ret n =>
    simp only [execI]
    refine leave_post hf hs hu hsh ?_
    intro k g gs vs hw hv
    exact .back k g gs vs (.inr ⟨n, rfl⟩) hw hv rfl rfl rfl rfl
  | jump a =>
    simp only [execI, St.goto]
    rw [hf]
    exact .stay' us f.used a hu (Nat.zero_le _) (by simp [Instr.next]) rfl rfl hs rfl rfl
  | jumpIf a =>
    simp only [execI]
    refine pop_post 1 hf hs hu fun h1 => ?_
    split
    · refine prim_post fun w b => ?_
      cases b with
      | true =>
        exact .stay' (us.drop 1) (f.used - 1) a (by simp; omega) h1 (by simp [Instr.next]) rfl rfl rfl rfl rfl
      | false =>
        exact .stay' (us.drop 1) (f.used - 1) f.idx (by simp; omega) h1 (by simp [Instr.next]; omega) rfl rfl rfl rfl rfl
    · trivial
  | jumpIfNot a =>
    simp only [execI]
    refine pop_post 1 hf hs hu fun h1 => ?_
    split
    · refine prim_post fun w b => ?_
      cases b with
      | false =>
        exact .stay' (us.drop 1) (f.used - 1) a (by simp; omega) h1 (by simp [Instr.next]) rfl rfl rfl rfl rfl
      | true =>
        exact .stay' (us.drop 1) (f.used - 1) f.idx (by simp; omega) h1 (by simp [Instr.next]; omega) rfl rfl rfl rfl rfl
    · trivial

end Noja.VM
