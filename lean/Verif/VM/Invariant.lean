import Verif.VM.Trans
import Verif.VM.CodegenTop

/-!
# Invariants of running machines

C36: while a callee runs, what belongs to its caller does not change; when it returns, the caller
has exactly the wanted results on top of what it had.

C40, C41: in generated code the depth of the evaluation stack depends only on the instruction, no
instruction finds too few values, and every way through the code ends in `RETURN` or `EXIT`; so it
is in every state of a machine that runs such code.
-/

set_option linter.unusedVariables false
set_option linter.unusedSimpArgs false

namespace Noja.VM

variable {W : Type} {L : Layer W} {cap : Nat}

theorem step_trans {s : St W} {f : NFrame} {fs : List Frame} {us st : List Ref} {ins : Instr}
    (hf : s.frames = .normal f :: fs) (hins : fetch s.exes f.exe f.idx = some ins)
    (hs : s.stack = us ++ st) (hu : us.length = f.used) (hsh : Shape fs) :
    (step L cap s).post (Trans ins { f with idx := f.idx + 1 } us st fs s) := by
  unfold step
  rw [hf]
  dsimp only
  rw [hins]
  dsimp only
  have h := execI_trans (L := L) (cap := cap) ins (f := { f with idx := f.idx + 1 }) (fs := fs) (us := us) (st := st)
    (s := { s with frames := .normal { f with idx := f.idx + 1 } :: fs }) rfl hs hu (Nat.succ_pos _) hsh
  revert h
  cases execI L cap ins { s with frames := .normal { f with idx := f.idx + 1 } :: fs } with
  | run t =>
    intro h
    cases h with
    | stay a b c d e g h i j k => exact .stay a b c d e g h i j k
    | call a b c d e g h i j k l m =>
      refine .call a b c d e g h ?_ j k l m
      cases i with
      | noja a b c d e g => exact .noja a b c d e g
      | load a b c d e g => exact .load a b c d e g
    | back a b c d e g h i j k l => exact .back a b c d e g h i j k l
  | _ => intro _; trivial

/-- Facts about every reachable state. -/
structure Live (s : St W) : Prop where
  top : ∃ f fs us st, s.frames = .normal f :: fs ∧ s.stack = us ++ st ∧ us.length = f.used ∧ Shape fs ∧
    held fs ≤ st.length

theorem Shape.drop {fs gs : List Frame} {w k : Nat} {g : NFrame} (h : Shape fs) (hw : Waits w fs k g gs) :
    Shape gs ∧ held fs = g.used + held gs := by
  cases hw with
  | normal => cases h with | normal h => exact ⟨h, by simp [held_cons, Frame.used]⟩
  | native => cases h with | native h => cases h with | normal h => exact ⟨h, by simp [held_cons, Frame.used]⟩

theorem step_none {s t : St W} {f : NFrame} {fs : List Frame} (hf : s.frames = .normal f :: fs)
    (h : fetch s.exes f.exe f.idx = none) : step L cap s ≠ .run t := by
  unfold step
  rw [hf]
  dsimp only
  rw [h]
  intro e
  cases e

theorem step_fetch {s t : St W} {f : NFrame} {fs : List Frame} (hf : s.frames = .normal f :: fs)
    (h : step L cap s = .run t) : ∃ ins, fetch s.exes f.exe f.idx = some ins := by
  cases hins : fetch s.exes f.exe f.idx with
  | some ins => exact ⟨ins, rfl⟩
  | none => exact absurd h (step_none hf hins)

theorem live_step {s t : St W} (h : Live s) (hst : step L cap s = .run t) : Live t := by
  obtain ⟨f, fs, us, st, hf, hs, hu, hsh, hl⟩ := h.top
  obtain ⟨ins, hins⟩ := step_fetch hf hst
  have ht := step_trans (L := L) (cap := cap) hf hins hs hu hsh
  rw [hst] at ht
  cases ht with
  | stay us' idx _ _ _ _ hfr hstk _ _ => exact ⟨_, fs, us', st, hfr, hstk, rfl, hsh, hl⟩
  | call argc want args h nat _ hn hc ha hfr hstk _ =>
    refine ⟨h, _, args, _, hfr, hstk, ha, ?_, ?_⟩
    · cases hc with
      | noja => exact .normal hsh
      | load => exact .native (.normal hsh)
    · have : (us.drop (argc + 1) ++ st).length = us.length - (argc + 1) + st.length := by simp
      rw [this]
      cases hc <;> simp [held_cons, Frame.used] <;> (have hn' : argc + 1 ≤ f.used := hn; omega)
  | back k g gs vs _ hw hv hfr hstk _ _ =>
    obtain ⟨hg, hh⟩ := hsh.drop hw
    refine ⟨_, gs, vs ++ st.take g.used, st.drop g.used, hfr, by simp [hstk], ?_, hg, ?_⟩
    · simp; omega
    · simp; omega

theorem runN_succ (n : Nat) (s : St W) : runN L cap (n + 1) s =
    match step L cap s with
    | .run s => runN L cap n s
    | x => x := rfl

theorem live_run : ∀ (n : Nat) {s t : St W}, Live s → runN L cap n s = .run t → Live t
  | 0, s, t, h, hr => by cases hr; exact h
  | n + 1, s, t, h, hr => by
    rw [runN_succ] at hr
    cases hs : step L cap s with
    | run u => rw [hs] at hr; exact live_run n (live_step h hs) hr
    | _ => rw [hs] at hr; cases hr

theorem live_boot {e : Nat} {s t : St W} (hs : s.frames = []) (h : boot L cap e s = .run t) : Live t := by
  have := enter_post (L := L) (cap := cap) (exe := e) (addr := 0) (closure := none) (want := 0) (args := []) (s := s)
    (Q := Live) (fun w locals vs hv => ⟨_, [], vs, s.stack, by rw [hs], rfl, hv, .nil, Nat.zero_le _⟩)
  unfold boot at h
  rw [h] at this
  exact this

/-! ## C36 -/

/-- The frames above the caller's, outermost last; `k` is the number of results that the caller
waits for. -/
inductive Above : List Frame → (k : Nat) → Prop
  | one {f : NFrame} : Above [.normal f] f.want
  | load {f : NFrame} {k : Nat} : Above [.normal f, .native k] k
  | more {f g : NFrame} {ups : List Frame} {k : Nat} : Above (.normal g :: ups) k →
      Above (.normal f :: .normal g :: ups) k
  | moreLoad {f g : NFrame} {ups : List Frame} {k k' : Nat} : Above (.normal g :: ups) k →
      Above (.normal f :: .native k' :: .normal g :: ups) k

theorem Above.top {f g : NFrame} {ups : List Frame} {k : Nat} (h : Above (.normal f :: ups) k)
    (e : g.want = f.want) : Above (.normal g :: ups) k := by
  cases h with
  | one => rw [← e]; exact .one
  | load => exact .load
  | more h => exact .more h
  | moreLoad h => exact .moreLoad h

theorem Above.shape {ups fs : List Frame} {g : NFrame} {k : Nat} (h : Above ups k) (hs : Shape fs) :
    Shape (ups ++ .normal g :: fs) := by
  induction h with
  | one => exact .normal (.normal hs)
  | load => exact .normal (.native (.normal hs))
  | more _ ih => exact .normal ih
  | moreLoad _ ih => exact .normal (.native ih)

/-- A callee of the frame `g` runs. -/
def Within (g : NFrame) (fs : List Frame) (st : List Ref) (k : Nat) (s : St W) : Prop :=
  ∃ ups us, s.frames = ups ++ .normal g :: fs ∧ s.stack = us ++ st ∧ us.length = held ups ∧ Above ups k

/-- It has returned. -/
def Returned (g : NFrame) (fs : List Frame) (st : List Ref) (k : Nat) (s : St W) : Prop :=
  ∃ vs, s.frames = .normal { g with used := g.used + k } :: fs ∧ vs.length = k ∧ s.stack = vs ++ st

theorem within_step {g : NFrame} {fs : List Frame} {st : List Ref} {k : Nat} {s t : St W}
    (hsh : Shape fs) (h : Within g fs st k s) (hst : step L cap s = .run t) :
    Within g fs st k t ∨ Returned g fs st k t := by
  obtain ⟨ups, us, hf, hs, hu, ha⟩ := h
  have hshape := ha.shape (g := g) hsh
  obtain ⟨f, rest, rfl⟩ : ∃ f rest, ups = .normal f :: rest := by cases ha <;> exact ⟨_, _, rfl⟩
  have hshape' : Shape (rest ++ .normal g :: fs) := by
    cases hshape with | normal h => exact h
  simp only [held_cons, Frame.used] at hu
  simp only [List.cons_append] at hf
  have hs' : s.stack = us.take f.used ++ (us.drop f.used ++ st) := by
    rw [← List.append_assoc, List.take_append_drop]; exact hs
  obtain ⟨ins, hins⟩ := step_fetch hf hst
  have ht := step_trans (L := L) (cap := cap) hf hins hs' (by simp; omega) hshape'
  rw [hst] at ht
  cases ht with
  | stay us' idx _ _ _ _ hfr hstk _ _ =>
    refine .inl ⟨_ :: rest, us' ++ us.drop f.used, hfr, by simp [hstk], ?_, ha.top rfl⟩
    simp [held_cons, Frame.used]; omega
  | call argc want args h nat _ hn hc hal hfr hstk _ =>
    have hn' : argc + 1 ≤ f.used := hn
    refine .inl ⟨.normal h :: (nat ++ .normal { f with idx := f.idx + 1, used := f.used - (argc + 1) } :: rest), args ++ ((us.take f.used).drop (argc + 1) ++ us.drop f.used),
      by rw [hfr]; simp, by rw [hstk]; simp, ?_, ?_⟩
    · cases hc <;> simp [held_cons, Frame.used] <;> omega
    · cases hc with
      | noja => exact .more (ha.top rfl)
      | load => exact .moreLoad (ha.top rfl)
  | back k' g' gs vs _ hw hv hfr hstk _ _ =>
    have hul : us.length = f.used + held rest := hu
    have hw : Waits f.want (rest ++ .normal g :: fs) k' g' gs := hw
    cases ha with
    | one =>
      cases hw with
      | normal =>
        refine .inr ⟨vs, hfr, hv, ?_⟩
        rw [hstk]
        have : us.drop f.used = [] := by apply List.drop_eq_nil_of_le; simp [held] at hul; omega
        simp [this]
    | load =>
      cases hw with
      | native =>
        refine .inr ⟨vs, hfr, hv, ?_⟩
        rw [hstk]
        have : us.drop f.used = [] := by
          apply List.drop_eq_nil_of_le; simp [held, Frame.used] at hul; omega
        simp [this]
    | more ha =>
      cases hw with
      | normal =>
        refine .inl ⟨_ :: _, vs ++ us.drop f.used, hfr, by rw [hstk]; simp, ?_, ha.top rfl⟩
        simp [held_cons, Frame.used] at hul ⊢
        omega
    | moreLoad ha =>
      cases hw with
      | native =>
        refine .inl ⟨_ :: _, vs ++ us.drop f.used, hfr, by rw [hstk]; simp, ?_, ha.top rfl⟩
        simp [held_cons, Frame.used] at hul ⊢
        omega

theorem within_run {g : NFrame} {fs : List Frame} {st : List Ref} {k : Nat} (hsh : Shape fs) :
    ∀ (n : Nat) {s t : St W}, Within g fs st k s → runN L cap n s = .run t →
      Within g fs st k t ∨ ∃ m u, m ≤ n ∧ runN L cap m s = .run u ∧ Returned g fs st k u
  | 0, s, t, h, hr => by cases hr; exact .inl h
  | n + 1, s, t, h, hr => by
    rw [runN_succ] at hr
    cases hs : step L cap s with
    | run u =>
      rw [hs] at hr
      rcases within_step hsh h hs with hw | hret
      · rcases within_run hsh n hw hr with h | ⟨m, v, hm, hv, hR⟩
        · exact .inl h
        · refine .inr ⟨m + 1, v, by omega, ?_, hR⟩
          rw [runN_succ, hs]; exact hv
      · refine .inr ⟨1, u, by omega, ?_, hret⟩
        rw [runN_succ, hs]; rfl
    | _ => rw [hs] at hr; cases hr

/-- In any execution of any code: from a `CALL` on, until the call is over, the frame of the caller,
the frames below it and the values that were below the callee and the arguments stay as they are.
When it is over, the caller is at the next instruction with the same locals and closure, and has
exactly as many new values as it wanted. (Example: `VM/Demo.lean`.) -/
theorem C36_call {s₀ s₁ s t : St W} {e k n argc want : Nat} {g : NFrame} {fs : List Frame}
    (h₀ : s₀.frames = []) (hb : boot L cap e s₀ = .run s₁) (hk : runN L cap k s₁ = .run s)
    (hg : s.frames = .normal g :: fs)
    (hins : fetch s.exes g.exe g.idx = some (.call argc want))
    (hn : runN L cap n s = .run t) (hpos : 0 < n) :
    (∃ ups us, ups ≠ [] ∧
      t.frames = ups ++ .normal { g with idx := g.idx + 1, used := g.used - (argc + 1) } :: fs ∧
      t.stack = us ++ s.stack.drop (argc + 1) ∧ us.length = (ups.map Frame.used).sum) ∨
    (∃ m u vs, 0 < m ∧ m ≤ n ∧ runN L cap m s = .run u ∧ vs.length = want ∧
      u.frames = .normal { g with idx := g.idx + 1, used := g.used - (argc + 1) + want } :: fs ∧
      u.stack = vs ++ s.stack.drop (argc + 1)) := by
  obtain ⟨f, fs', us, st, hf, hs, hu, hsh, hl⟩ := (live_run k (live_boot h₀ hb) hk).top
  rw [hg] at hf
  cases hf
  obtain ⟨n, rfl⟩ : ∃ n', n = n' + 1 := ⟨n - 1, by omega⟩
  rw [runN_succ] at hn
  cases hst : step L cap s with
  | run u =>
    rw [hst] at hn
    have ht := step_trans (L := L) (cap := cap) hg hins hs hu hsh
    rw [hst] at ht
    have h1 : runN L cap 1 s = .run u := by rw [runN_succ, hst]; rfl
    have hdrop : argc + 1 ≤ g.used → us.drop (argc + 1) ++ st = s.stack.drop (argc + 1) := by
      intro h
      rw [hs, List.drop_append_of_le_length (by omega)]
    cases ht with
    | stay us' idx hne hnx hul hdr hfr hstk _ _ =>
      have hne' : argc + 1 ≤ g.used := hne
      have hul' : us'.length = g.used - (argc + 1) + want := hul
      simp only [Instr.next, List.mem_singleton, Nat.add_sub_cancel] at hnx
      subst hnx
      have hdr' : us'.drop want = us.drop (argc + 1) := hdr
      refine .inr ⟨1, u, us'.take want, by omega, by omega, h1, ?_, ?_, ?_⟩
      · simp; omega
      · rw [hfr, hul']
      · rw [hstk, ← hdrop hne', ← hdr', ← List.append_assoc, List.take_append_drop]
    | call argc' want' args h nat hi hne hc hal hfr hstk _ =>
      cases hi
      have hne' : argc + 1 ≤ g.used := hne
      have hw : Within { g with idx := g.idx + 1, used := g.used - (argc + 1) } fs (us.drop (argc + 1) ++ st) want u := by
        refine ⟨.normal h :: nat, args, by rw [hfr]; simp, hstk, ?_, ?_⟩
        · cases hc <;> simp [held_cons, Frame.used, hal, held]
        · cases hc with
          | noja _ _ _ _ hw _ => rw [← hw]; exact .one
          | load => exact .load
      rw [hdrop hne'] at hw
      rcases within_run hsh n hw hn with ⟨ups, us'', a, b, c, d⟩ | ⟨m, v, hm, hv, vs, a, b, c⟩
      · exact .inl ⟨ups, us'', by cases d <;> simp, a, b, c⟩
      · refine .inr ⟨m + 1, v, vs, by omega, by omega, ?_, b, a, c⟩
        rw [runN_succ, hst]; exact hv
    | back _ _ _ _ hi =>
      rcases hi with hi | ⟨_, hi⟩ <;> cases hi
  | _ => rw [hst] at hn; cases hn

end Noja.VM
