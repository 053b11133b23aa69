import Verif.VM.Move.World
import Verif.VM.Machine

/-!
# The machine does not depend on where objects are
-/

set_option linter.unusedVariables false
set_option linter.unusedSimpArgs false

namespace Noja.VM.Move

open Noja.VM.Book (All2)

variable {α β : Type} {W V : Type} {R : W → V → Prop} {ρ : Ref → Ref → Prop} {N : Nat}

structure NFrR (ρ : Ref → Ref → Prop) (f g : NFrame) : Prop where
  exe : f.exe = g.exe
  idx : f.idx = g.idx
  locals : ρ f.locals g.locals
  closure : Opt2 ρ f.closure g.closure
  used : f.used = g.used
  want : f.want = g.want

def FrR (ρ : Ref → Ref → Prop) : Frame → Frame → Prop
  | .normal f, .normal g => NFrR ρ f g
  | .native k, .native l => k = l
  | _, _ => False

/-- The same state under other names. -/
structure StR (R : W → V → Prop) (ρ : Ref → Ref → Prop) (s : St W) (t : St V) : Prop where
  w : R s.w t.w
  funcs : ∀ a b, ρ a b → s.funcs a = t.funcs b
  exes : s.exes = t.exes
  stack : All2 ρ s.stack t.stack
  frames : All2 (FrR ρ) s.frames t.frames

def StatusR (R : W → V → Prop) (ρ : Ref → Ref → Prop) : Status W → Status V → Prop
  | .run s, .run t => StR R ρ s t
  | .done l s, .done k t => All2 ρ l k ∧ StR R ρ s t
  | .err s, .err t => StR R ρ s t
  | .limit s, .limit t => StR R ρ s t
  | .ub, .ub => True
  | _, _ => False

variable {s : St W} {t : St V}

theorem all2_take : ∀ {S : α → β → Prop} {l : List α} {k : List β}, All2 S l k → ∀ n, All2 S (l.take n) (k.take n)
  | S, [], [], h, n => by simp; trivial
  | S, a :: l, b :: k, h, 0 => trivial
  | S, a :: l, b :: k, h, n + 1 => ⟨h.1, all2_take h.2 n⟩

theorem all2_reverse : ∀ {S : α → β → Prop} {l : List α} {k : List β}, All2 S l k → All2 S l.reverse k.reverse
  | S, [], [], h => trivial
  | S, a :: l, b :: k, h => by
    rw [List.reverse_cons, List.reverse_cons]
    exact (all2_reverse h.2).append (all2_one h.1)

theorem all2_replicate {S : α → β → Prop} {a : α} {b : β} (h : S a b) : ∀ n, All2 S (List.replicate n a) (List.replicate n b)
  | 0 => trivial
  | n + 1 => ⟨h, all2_replicate h n⟩

/-- What the innermost frame of one state says of that of the other. -/
theorem StR.top (h : StR R ρ s t) :
    (∃ f fs g gs, s.frames = .normal f :: fs ∧ t.frames = .normal g :: gs ∧ NFrR ρ f g ∧ All2 (FrR ρ) fs gs) ∨
      (s.frames = [] ∧ t.frames = []) ∨ ∃ k fs gs, s.frames = .native k :: fs ∧ t.frames = .native k :: gs ∧ All2 (FrR ρ) fs gs := by
  have hf := h.frames
  revert hf
  cases s.frames with
  | nil =>
    cases t.frames with
    | nil => exact fun _ => .inr (.inl ⟨rfl, rfl⟩)
    | cons g gs => exact fun q => q.elim
  | cons f fs =>
    cases t.frames with
    | nil => exact fun q => q.elim
    | cons g gs =>
      intro q
      cases f with
      | normal f =>
        cases g with
        | normal g => exact .inl ⟨f, fs, g, gs, rfl, rfl, q.1, q.2⟩
        | native k => exact q.1.elim
      | native k =>
        cases g with
        | normal g => exact q.1.elim
        | native k' =>
          have e : k = k' := q.1
          subst e
          exact .inr (.inr ⟨k, fs, gs, rfl, rfl, q.2⟩)

theorem StR.framesLen (h : StR R ρ s t) : s.frames.length = t.frames.length := All2.length h.frames

theorem push_rel (cap : Nat) {a b : Ref} (r : ρ a b) (h : StR R ρ s t) : StatusR R ρ (s.push cap a) (t.push cap b) := by
  unfold St.push
  rcases h.top with ⟨f, fs, g, gs, e1, e2, hf, hfs⟩ | ⟨e1, e2⟩ | ⟨k, fs, gs, e1, e2, hfs⟩
  · rw [e1, e2]
    dsimp only
    rw [hf.used, All2.length h.stack]
    split
    · exact h
    · split
      · exact h
      · exact ⟨h.w, h.funcs, h.exes, ⟨r, h.stack⟩, ⟨⟨hf.exe, hf.idx, hf.locals, hf.closure, rfl, hf.want⟩, hfs⟩⟩
  · rw [e1, e2]; exact h
  · rw [e1, e2]; exact h

theorem pushAll_rel (cap : Nat) : ∀ {l k : List Ref}, All2 ρ l k → ∀ {s : St W} {t : St V}, StR R ρ s t →
    StatusR R ρ (s.pushAll cap l) (t.pushAll cap k)
  | [], [], _, s, t, h => h
  | a :: l, b :: k, hl, s, t, h => by
    unfold St.pushAll
    have hp := push_rel cap hl.1 h
    revert hp
    cases s.push cap a <;> cases t.push cap b <;>
      first | exact fun q => q.elim | exact fun q => pushAll_rel cap hl.2 q | exact fun q => q

theorem pop_rel (n : Nat) (h : StR R ρ s t) {k : List Ref → St W → Status W} {j : List Ref → St V → Status V}
    (hk : ∀ l m s t, All2 ρ l m → StR R ρ s t → StatusR R ρ (k l s) (j m t)) : StatusR R ρ (s.pop n k) (t.pop n j) := by
  unfold St.pop
  rcases h.top with ⟨f, fs, g, gs, e1, e2, hf, hfs⟩ | ⟨e1, e2⟩ | ⟨k, fs, gs, e1, e2, hfs⟩
  · rw [e1, e2]
    dsimp only
    rw [hf.used]
    split
    · exact h
    · exact hk _ _ _ _ (all2_take h.stack n)
        ⟨h.w, h.funcs, h.exes, all2_drop h.stack n, ⟨⟨hf.exe, hf.idx, hf.locals, hf.closure, rfl, hf.want⟩, hfs⟩⟩
  · rw [e1, e2]; exact h
  · rw [e1, e2]; exact h

theorem peek_rel (n : Nat) (h : StR R ρ s t) {k : List Ref → Status W} {j : List Ref → Status V}
    (hk : ∀ l m, All2 ρ l m → StatusR R ρ (k l) (j m)) : StatusR R ρ (s.peek n k) (t.peek n j) := by
  unfold St.peek
  rcases h.top with ⟨f, fs, g, gs, e1, e2, hf, hfs⟩ | ⟨e1, e2⟩ | ⟨k, fs, gs, e1, e2, hfs⟩
  · rw [e1, e2]
    dsimp only
    rw [hf.used]
    split
    · exact h
    · exact hk _ _ (all2_take h.stack n)
  · rw [e1, e2]; exact h
  · rw [e1, e2]; exact h

theorem prim_rel (h : StR R ρ s t) {Q : α → β → Prop} {x : Out W α} {y : Out V β} (hx : OutR R Q x y) {k : α → St W → Status W}
    {j : β → St V → Status V} (hk : ∀ a b s t, Q a b → StR R ρ s t → StatusR R ρ (k a s) (j b t)) :
    StatusR R ρ (s.prim x k) (t.prim y j) := by
  cases x <;> cases y <;> first | exact hx.elim | trivial | skip
  · exact hk _ _ _ _ hx.2 ⟨hx.1, h.funcs, h.exes, h.stack, h.frames⟩
  · exact ⟨hx, h.funcs, h.exes, h.stack, h.frames⟩

theorem goto_rel (a : Nat) (h : StR R ρ s t) : StatusR R ρ (s.goto a) (t.goto a) := by
  unfold St.goto
  rcases h.top with ⟨f, fs, g, gs, e1, e2, hf, hfs⟩ | ⟨e1, e2⟩ | ⟨k, fs, gs, e1, e2, hfs⟩
  · rw [e1, e2]
    exact ⟨h.w, h.funcs, h.exes, h.stack, ⟨⟨hf.exe, rfl, hf.locals, hf.closure, hf.used, hf.want⟩, hfs⟩⟩
  · rw [e1, e2]; exact h
  · rw [e1, e2]; exact h

variable {L : Layer W} {K : Layer V}

theorem deliver_rel (hL : LayR R ρ L K) (cap want : Nat) {l k : List Ref} (hl : All2 ρ l k) (h : StR R ρ s t) :
    StatusR R ρ (deliver L cap want l s) (deliver K cap want k t) := by
  unfold deliver
  rw [hl.length]
  split
  · trivial
  · exact pushAll_rel cap ((all2_take hl want).append (all2_replicate hL.none _)) h

theorem enter_rel (hL : LayR R ρ L K) (cap exe addr : Nat) {c d : Option Ref} (hc : Opt2 ρ c d) (want : Nat) {l k : List Ref} (hl : All2 ρ l k)
    (h : StR R ρ s t) : StatusR R ρ (enter L cap exe addr c want l s) (enter K cap exe addr d want k t) := by
  unfold enter
  refine prim_rel h (hL.newScope _ _ h.w) fun a b s t r h => ?_
  rw [h.framesLen]
  split
  · exact h
  · exact pushAll_rel cap hl ⟨h.w, h.funcs, h.exes, h.stack, ⟨⟨rfl, rfl, r, hc, rfl, rfl⟩, h.frames⟩⟩

theorem leave_rel (hL : LayR R ρ L K) (cap : Nat) (h : StR R ρ s t) : StatusR R ρ (leave L cap s) (leave K cap t) := by
  unfold leave
  rcases h.top with ⟨f, fs, g, gs, e1, e2, hf, hfs⟩ | ⟨e1, e2⟩ | ⟨k, fs, gs, e1, e2, hfs⟩
  · rw [e1, e2]
    dsimp only
    rw [hL.pending _ _ h.w, hf.used, hf.want]
    have hr := all2_reverse (all2_take h.stack g.used)
    have hd := all2_drop h.stack g.used
    split
    · exact h
    · match fs, gs, hfs with
      | [], [], _ => exact ⟨hr, h.w, h.funcs, h.exes, hd, trivial⟩
      | .normal a :: fs, .normal b :: gs, q => exact deliver_rel hL cap _ hr ⟨h.w, h.funcs, h.exes, hd, q⟩
      | .native a :: fs, .native b :: gs, q =>
        have e : a = b := q.1
        subst e
        exact deliver_rel hL cap _ hr ⟨h.w, h.funcs, h.exes, hd, q.2⟩
      | .normal a :: fs, .native b :: gs, q => exact q.1.elim
      | .native a :: fs, .normal b :: gs, q => exact q.1.elim
  · rw [e1, e2]; exact h
  · rw [e1, e2]; exact h

theorem fit_rel (hL : LayR R ρ L K) (n : Nat) {l k : List Ref} (hl : All2 ρ l k) : All2 ρ (L.fit n l) (K.fit n k) := by
  unfold Layer.fit
  rw [hl.length]
  exact (all2_take hl n).append (all2_replicate hL.none _)

theorem adapt_rel (hL : LayR R ρ L K) (n : Option Nat) {l k : List Ref} (hl : All2 ρ l k) : All2 ρ (L.adapt n l) (K.adapt n k) := by
  cases n with
  | none => exact hl
  | some n => exact fit_rel hL n hl

theorem callObj_rel (hL : LayR R ρ L K) (cap : Nat) {f g : Ref} (hf : ρ f g) {l k : List Ref} (hl : All2 ρ l k) (want : Nat)
    (h : StR R ρ s t) : StatusR R ρ (callObj L cap f l want s) (callObj K cap g k want t) := by
  unfold callObj
  refine prim_rel h (hL.callee _ _ _ _ h.w hf) fun a b s t r h => ?_
  cases a <;> cases b <;> first | exact r.elim | skip
  · exact h
  · dsimp only
    rw [h.funcs f g hf]
    cases t.funcs g with
    | none => trivial
    | some fn => exact enter_rel hL cap _ _ (c := some _) (d := some _) r want (fit_rel hL _ hl) h
  · rename_i id argc id' argc'
    have e1 : id = id' := r.1
    have e2 : argc = argc' := r.2
    subst e1 e2
    dsimp only
    rw [h.framesLen]
    split
    · exact h
    · have h2 : StR R ρ { s with frames := .native want :: s.frames } { t with frames := .native want :: t.frames } :=
        ⟨h.w, h.funcs, h.exes, h.stack, ⟨rfl, h.frames⟩⟩
      refine prim_rel h2 (hL.native id _ _ _ _ h.w (adapt_rel hL argc hl)) fun a b s' t' r h' => ?_
      cases a <;> cases b <;> first | exact r.elim | skip
      · exact deliver_rel hL cap want r ⟨h'.w, h'.funcs, h'.exes, h'.stack, h.frames⟩
      · rename_i p q
        have e : p = q := r
        subst e
        dsimp only
        rw [h'.exes]
        split
        · exact enter_rel hL cap _ 0 (c := none) (d := none) trivial 0 (l := []) (k := []) trivial
            ⟨h'.w, h'.funcs, rfl, h'.stack, h'.frames⟩
        · trivial

theorem execI_rel (H : Ren ρ N) (hL : LayR R ρ L K) (cap : Nat) (i : Instr) (h : StR R ρ s t) :
    StatusR R ρ (execI L cap i s) (execI K cap i t) := by
  have hpush : ∀ (a b : Ref) (s : St W) (t : St V), ρ a b → StR R ρ s t → StatusR R ρ (s.push cap a) (t.push cap b) :=
    fun a b s t r h => push_rel cap r h
  have hun : ∀ op, StatusR R ρ
      (s.pop 1 fun vs s => match vs with | [a] => s.prim (L.un op a s.w) fun r s => s.push cap r | _ => .ub)
      (t.pop 1 fun vs s => match vs with | [a] => s.prim (K.un op a s.w) fun r s => s.push cap r | _ => .ub) := by
    intro op
    refine pop_rel 1 h fun l m s t hl h => ?_
    match l, m, hl with
    | [], [], _ => trivial
    | [a], [b], q => exact prim_rel h (hL.un op _ _ _ _ h.w q.1) hpush
    | _ :: _ :: _, _ :: _ :: _, _ => trivial
  cases i with
  | nope => exact h
  | un op =>
    cases op with
    | pos =>
      unfold execI
      refine peek_rel 1 h ?_
      intro _ _ _
      exact h
    | _ => exact hun _
  | bin op =>
    unfold execI
    refine pop_rel 2 h fun l m s t hl h => ?_
    match l, m, hl with
    | [], [], _ => trivial
    | [_], [_], _ => trivial
    | [b, a], [b', a'], q => exact prim_rel h (hL.bin op _ _ _ _ _ _ h.w q.2.1 q.1) hpush
    | _ :: _ :: _ :: _, _ :: _ :: _ :: _, _ => trivial
  | ass n =>
    unfold execI
    refine peek_rel 1 h fun l m hl => ?_
    match l, m, hl with
    | [], [], _ => trivial
    | [a], [b], q =>
      rcases h.top with ⟨f, fs, g, gs, e1, e2, hf, hfs⟩ | ⟨e1, e2⟩ | ⟨k, fs, gs, e1, e2, hfs⟩
      · rw [e1, e2]
        exact prim_rel h (hL.setVar _ n _ _ _ _ _ h.w hf.locals q.1) fun _ _ s t _ h => h
      · rw [e1, e2]; trivial
      · rw [e1, e2]; trivial
    | _ :: _ :: _, _ :: _ :: _, _ => trivial
  | pop n =>
    unfold execI
    refine pop_rel n h ?_
    intro _ _ s t _ h
    exact h
  | checkType _ _ =>
    unfold execI
    refine peek_rel 2 h fun l m hl => ?_
    match l, m, hl with
    | [], [], _ => trivial
    | [_], [_], _ => trivial
    | [b, a], [b', a'], q =>
      refine pop_rel 1 h fun _ _ s t _ h => ?_
      refine prim_rel h (hL.isType _ _ _ _ _ _ h.w q.1 q.2.1) fun r r' s t e h => ?_
      subst e
      cases r <;> exact h
    | _ :: _ :: _ :: _, _ :: _ :: _ :: _, _ => trivial
  | call argc want =>
    unfold execI
    refine pop_rel 1 h fun l m s t hl h => ?_
    match l, m, hl with
    | [], [], _ => trivial
    | [a], [b], q =>
      dsimp only
      split
      · exact h
      · exact pop_rel argc h fun l m s t hl h => callObj_rel hL cap q.1 hl want h
    | _ :: _ :: _, _ :: _ :: _, _ => trivial
  | select =>
    unfold execI
    refine peek_rel 2 h fun l m hl => ?_
    match l, m, hl with
    | [], [], _ => trivial
    | [_], [_], _ => trivial
    | [b, a], [b', a'], q =>
      refine pop_rel 2 h fun _ _ s t _ h => ?_
      exact prim_rel h (hL.select _ _ _ _ _ _ h.w q.2.1 q.1) hpush
    | _ :: _ :: _ :: _, _ :: _ :: _ :: _, _ => trivial
  | select2 =>
    unfold execI
    refine peek_rel 2 h fun l m hl => ?_
    match l, m, hl with
    | [], [], _ => trivial
    | [_], [_], _ => trivial
    | [b, a], [b', a'], q =>
      refine pop_rel 1 h fun _ _ s t _ h => ?_
      exact prim_rel h (hL.select _ _ _ _ _ _ h.w q.2.1 q.1) hpush
    | _ :: _ :: _ :: _, _ :: _ :: _ :: _, _ => trivial
  | insert =>
    unfold execI
    refine peek_rel 3 h fun l m hl => ?_
    match l, m, hl with
    | [], [], _ => trivial
    | [_], [_], _ => trivial
    | [_, _], [_, _], _ => trivial
    | [c, b, a], [c', b', a'], q =>
      refine pop_rel 2 h fun _ _ s t _ h => ?_
      exact prim_rel h (hL.insert _ _ _ _ _ _ _ _ h.w q.2.2.1 q.2.1 q.1) fun _ _ s t _ h => h
    | _ :: _ :: _ :: _ :: _, _ :: _ :: _ :: _ :: _, _ => trivial
  | insert2 =>
    unfold execI
    refine peek_rel 3 h fun l m hl => ?_
    match l, m, hl with
    | [], [], _ => trivial
    | [_], [_], _ => trivial
    | [_, _], [_, _], _ => trivial
    | [c, b, a], [c', b', a'], q =>
      refine pop_rel 2 h fun _ _ s t _ h => ?_
      exact prim_rel h (hL.insert _ _ _ _ _ _ _ _ h.w q.2.1 q.1 q.2.2.1) fun _ _ s t _ h => h
    | _ :: _ :: _ :: _ :: _, _ :: _ :: _ :: _ :: _, _ => trivial
  | pushInt v => exact prim_rel h (hL.int v _ _ h.w) hpush
  | pushFlt x => exact prim_rel h (hL.float x _ _ h.w) hpush
  | pushStr x => exact prim_rel h (hL.str x _ _ h.w) hpush
  | pushVar n =>
    unfold execI
    rcases h.top with ⟨f, fs, g, gs, e1, e2, hf, hfs⟩ | ⟨e1, e2⟩ | ⟨k, fs, gs, e1, e2, hfs⟩
    · rw [e1, e2]
      exact prim_rel h (hL.getVar _ _ n _ _ _ _ h.w hf.locals hf.closure) hpush
    · rw [e1, e2]; exact h
    · rw [e1, e2]; exact h
  | pushNne => exact push_rel cap hL.none h
  | pushTru => exact push_rel cap hL.tru h
  | pushFls => exact push_rel cap hL.fls h
  | pushFun a argc _ =>
    unfold execI
    rcases h.top with ⟨f, fs, g, gs, e1, e2, hf, hfs⟩ | ⟨e1, e2⟩ | ⟨k, fs, gs, e1, e2, hfs⟩
    · rw [e1, e2]
      refine prim_rel h (hL.newFunc _ _ _ _ _ _ h.w hf.closure hf.locals) fun x y s t r h => ?_
      refine push_rel cap r ⟨h.w, ?_, h.exes, h.stack, h.frames⟩
      dsimp only
      rw [hf.exe]
      exact update_rel (S := Eq) (x := some ⟨g.exe, a, argc⟩) (y := some ⟨g.exe, a, argc⟩) H r h.funcs rfl
    · rw [e1, e2]; exact h
    · rw [e1, e2]; exact h
  | pushLst n => exact prim_rel h (hL.newList n _ _ h.w) hpush
  | pushMap n => exact prim_rel h (hL.newMap n _ _ h.w) hpush
  | pushNneTyp => exact push_rel cap hL.noneType h
  | pushTyp =>
    unfold execI
    refine peek_rel 1 h fun l m hl => ?_
    match l, m, hl with
    | [], [], _ => trivial
    | [a], [b], q => exact prim_rel h (hL.typeOf _ _ _ _ h.w q.1) hpush
    | _ :: _ :: _, _ :: _ :: _, _ => trivial
  | exit =>
    unfold execI
    rcases h.top with ⟨f, fs, g, gs, e1, e2, hf, hfs⟩ | ⟨e1, e2⟩ | ⟨k, fs, gs, e1, e2, hfs⟩
    · rw [e1, e2]
      dsimp only
      have hp := push_rel cap hf.locals h
      revert hp
      cases s.push cap f.locals <;> cases t.push cap g.locals <;>
        first | exact fun q => q.elim | exact fun q => leave_rel hL cap q | exact fun q => q
    · rw [e1, e2]; exact h
    · rw [e1, e2]; exact h
  | ret _ => exact leave_rel hL cap h
  | jump a => exact goto_rel a h
  | jumpIf a =>
    unfold execI
    refine pop_rel 1 h fun l m s t hl h => ?_
    match l, m, hl with
    | [], [], _ => trivial
    | [_], [_], q =>
      refine prim_rel h (hL.asBool _ _ _ _ h.w q.1) fun r r' s t e h => ?_
      subst e
      cases r
      · exact h
      · exact goto_rel a h
    | _ :: _ :: _, _ :: _ :: _, _ => trivial
  | jumpIfNot a =>
    unfold execI
    refine pop_rel 1 h fun l m s t hl h => ?_
    match l, m, hl with
    | [], [], _ => trivial
    | [_], [_], q =>
      refine prim_rel h (hL.asBool _ _ _ _ h.w q.1) fun r r' s t e h => ?_
      subst e
      cases r
      · exact goto_rel a h
      · exact h
    | _ :: _ :: _, _ :: _ :: _, _ => trivial

theorem step_rel (H : Ren ρ N) (hL : LayR R ρ L K) (cap : Nat) (h : StR R ρ s t) : StatusR R ρ (step L cap s) (step K cap t) := by
  unfold step
  rcases h.top with ⟨f, fs, g, gs, e1, e2, hf, hfs⟩ | ⟨e1, e2⟩ | ⟨k, fs, gs, e1, e2, hfs⟩
  · rw [e1, e2]
    dsimp only
    rw [h.exes, hf.exe, hf.idx]
    cases fetch t.exes g.exe g.idx with
    | none => exact h
    | some i =>
      exact execI_rel H hL cap i ⟨h.w, h.funcs, rfl, h.stack, ⟨⟨rfl, rfl, hf.locals, hf.closure, hf.used, hf.want⟩, hfs⟩⟩
  · rw [e1, e2]; exact h
  · rw [e1, e2]; exact h

/-- Two machines that run at the same time. -/
theorem runN_rel (H : Ren ρ N) (hL : LayR R ρ L K) (cap : Nat) : ∀ (n : Nat) {s : St W} {t : St V}, StR R ρ s t →
    StatusR R ρ (runN L cap n s) (runN K cap n t)
  | 0, _, _, h => h
  | n + 1, s, t, h => by
    unfold runN
    have hp := step_rel H hL cap h
    revert hp
    cases step L cap s <;> cases step K cap t <;>
      first | exact fun q => q.elim | exact fun q => runN_rel H hL cap n q | exact fun q => q

end Noja.VM.Move
