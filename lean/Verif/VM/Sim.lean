import Verif.VM.SimExpr
import Verif.VM.Mono

/-!
# Compiled programs do what the program text says

`C42_*`: for every object layer, every program and every initial state, running the code of the
program on the interpreter has the outcome that the program text has, unless a limit of the
interpreter is hit first.
-/

namespace Noja.VM

set_option linter.unusedSimpArgs false

variable {W : Type} {L : Layer W} {cap : Nat} {n : Nat}

/-! ## Calls -/

theorem At.weaken {exes l : List (List Instr)} {s : SSt W} {st : List Ref} {f : NFrame}
    {fs : List Frame} {t : St W} (h : At L (exes ++ l) s st f fs t) : At L exes s st f fs t := by
  obtain ⟨fn, ex, rfl, ⟨l', rfl⟩, h2, h3⟩ := h
  exact ⟨fn, _, rfl, ⟨l ++ l', by simp⟩, h2, h3⟩

theorem SimX.post' {α : Type} {r : Res W α} {x : Status W} {post post' : SSt W → α → St W → Prop}
    (h : SimX L cap n r x post) (hp : ∀ s a u, post s a u → post' s a u) :
    SimX L cap n r x post' := by
  cases x with
  | run t => exact Sim.post h hp
  | _ => exact h

theorem sim_deliver {exes : List (List Instr)} {s : SSt W} {fn : Ref → Option Func}
    {ex : List (List Instr)} {st vs : List Ref} {f : NFrame} {fs : List Frame} {k m : Nat}
    (h1 : ∃ l, ex = exes ++ l) (h2 : Rel ex fn s.funs) (h3 : L.pending s.w = false) :
    SimX L cap m (results L k vs s) (deliver L cap k vs ⟨s.w, fn, ex, st, .normal f :: fs⟩)
      fun s' vs u => vs.length = k ∧
        At L exes s' (vs.reverse ++ st) { f with used := f.used + k } fs u := by
  unfold results deliver maxRets
  by_cases h : 8 < min vs.length k
  · rw [if_pos h]; exact SimX.off
  · rw [if_neg h, if_neg h]
    apply SimX.pushAll
    have hl : (vs.take k ++ List.replicate (k - vs.length) L.none).length = k := by
      simp; omega
    refine SimX.run (Sim.ok ⟨hl, fn, ex, ?_, h1, h2, h3⟩)
    rw [hl]

/-- The end of the innermost frame, below which there is a frame of the language. -/
theorem sim_leave {exes : List (List Instr)} {s : SSt W} {st vs : List Ref} {f g : NFrame}
    {fs : List Frame} {t : St W} {m : Nat}
    (hu : At L exes s (vs.reverse ++ st) { g with used := vs.length } (.normal f :: fs) t) :
    SimX L cap m (results L g.want vs s) (leave L cap t) fun s' vs u =>
      vs.length = g.want ∧ At L exes s' (vs.reverse ++ st) { f with used := f.used + g.want } fs u := by
  obtain ⟨fn, ex, rfl, h1, h2, h3⟩ := hu
  unfold leave
  simp only [h3, Bool.false_eq_true, if_false]
  have ht : List.take vs.length (vs.reverse ++ st) = vs.reverse := by
    rw [← List.length_reverse, List.take_left']; rfl
  have hd : List.drop vs.length (vs.reverse ++ st) = st := by
    rw [← List.length_reverse, List.drop_left']; rfl
  rw [ht, hd, List.reverse_reverse]
  exact sim_deliver h1 h2 h3

theorem sim_leaveNative {exes : List (List Instr)} {s : SSt W} {st vs : List Ref} {f g : NFrame}
    {fs : List Frame} {t : St W} {m k : Nat}
    (hu : At L exes s (vs.reverse ++ st) { g with used := vs.length }
      (.native k :: .normal f :: fs) t) :
    SimX L cap m (results L k vs s) (leave L cap t) fun s' vs u =>
      vs.length = k ∧ At L exes s' (vs.reverse ++ st) { f with used := f.used + k } fs u := by
  obtain ⟨fn, ex, rfl, h1, h2, h3⟩ := hu
  unfold leave
  simp only [h3, Bool.false_eq_true, if_false]
  have ht : List.take vs.length (vs.reverse ++ st) = vs.reverse := by
    rw [← List.length_reverse, List.take_left']; rfl
  have hd : List.drop vs.length (vs.reverse ++ st) = st := by
    rw [← List.length_reverse, List.drop_left']; rfl
  rw [ht, hd, List.reverse_reverse]
  exact sim_deliver h1 h2 h3

/-- The next instruction ends the frame with the values `vs`. -/
def AtRet (L : Layer W) (exes : List (List Instr)) (st : List Ref) (f : NFrame) (fs : List Frame)
    (s : SSt W) (vs : List Ref) (t : St W) : Prop :=
  (∃ m i, fetch exes f.exe i = some (.ret m) ∧
    At L exes s (vs.reverse ++ st) { f with idx := i, used := vs.length } fs t) ∨
  (∃ i, fetch exes f.exe i = some .exit ∧ vs = [f.locals] ∧
    At L exes s st { f with idx := i, used := 0 } fs t)

theorem AtRet.leave {exes : List (List Instr)} {s : SSt W} {st vs : List Ref} {f : NFrame}
    {fs : List Frame} {t : St W} {α : Type} {r : Res W α} {post : SSt W → α → St W → Prop}
    (hu : AtRet L exes st f fs s vs t)
    (h : ∀ i t, At L exes s (vs.reverse ++ st) { f with idx := i, used := vs.length } fs t →
      SimX L cap n r (leave L cap t) post) : Sim L cap n r t post := by
  rcases hu with ⟨m, i, hf, hu⟩ | ⟨i, hf, rfl, hu⟩
  · refine Sim.instr hu hf fun fn ex h1 h2 h3 => ?_
    exact h _ _ ⟨fn, ex, rfl, h1, h2, h3⟩
  · refine Sim.instr hu hf fun fn ex h1 h2 h3 => ?_
    simp only [execI, St.push]
    rw [if_neg (by simp [maxFrameStack])]
    by_cases hc : cap ≤ st.length
    · rw [if_pos hc]; trivial
    · rw [if_neg hc]
      exact h _ _ ⟨fn, ex, rfl, h1, h2, h3⟩

theorem FunDef.sim (hL : L.Lawful) {call : Ref → List Ref → Nat → M W (List Ref)}
    (hc : CallSim L cap n call) (fd : FunDef) (hw : fd.wf = true) (exes : List (List Instr))
    (s : SSt W) (st args : List Ref) (f : NFrame) (fs : List Frame) (t : St W)
    (hlen : args.length = fd.params.count)
    (hu : At L exes s (args.reverse ++ st) { f with used := args.length } fs t)
    (h : CodeAt exes f.exe f.idx (fd.code f.idx)) :
    Sim L cap n (fd.run ⟨L, n, call, f.locals, f.closure⟩ args s) t (AtRet L exes st f fs) := by
  obtain ⟨ps, b⟩ := fd
  simp only [FunDef.code] at h
  simp only [FunDef.wf, Bool.and_eq_true] at hw
  simp only [FunDef.run]
  refine Sim.bind (ps.sim hL hc hw.1 exes s args.reverse st f fs t 0 (by simpa [FunDef.params] using hlen)
    (hu.cast rfl (by simp)) h.left.left) ?_
  intro s1 _ u hu
  refine Sim.bind (b.sim hL hc exes s1 st { f with idx := f.idx + ps.len, used := 0 } fs u
    none hw.2 rfl hu (h.left.right' (by simp))) ?_
  intro s2 ctl u hu
  cases ctl with
  | normal =>
    refine Sim.ok (.inl ⟨_, _, (h.right' (q := f.idx + ps.len + b.len) (by simp; omega)).head, hu⟩)
  | ret vs => exact Sim.ok (.inl hu)
  | brk => obtain ⟨q, hq, -⟩ := hu; cases hq

theorem Stmts.simRun (hL : L.Lawful) {call : Ref → List Ref → Nat → M W (List Ref)}
    (hc : CallSim L cap n call) (p : Stmts) (hw : p.wf false = true) (exes : List (List Instr))
    (s : SSt W) (st : List Ref) (f : NFrame) (fs : List Frame) (t : St W) (hu0 : f.used = 0)
    (hi : f.idx = 0) (hu : At L exes s st f fs t) (h : CodeAt exes f.exe 0 (compile p)) :
    Sim L cap n (p.run ⟨L, n, call, f.locals, f.closure⟩ s) t (AtRet L exes st f fs) := by
  simp only [compile] at h
  simp only [Stmts.run]
  refine Sim.bind (p.sim hL hc exes s st f fs t none hw hu0 hu (by rw [hi]; exact h.left)) ?_
  intro s2 ctl u hu
  cases ctl with
  | normal =>
    refine Sim.ok (.inr ⟨_, (h.right' (q := f.idx + p.len) (by simp [hi])).head, rfl,
      At.cast hu rfl (by simp [hu0])⟩)
  | ret vs => exact Sim.ok (.inl hu)
  | brk => obtain ⟨q, hq, -⟩ := hu; cases hq

theorem fit_length (m : Nat) (args : List Ref) : (L.fit m args).length = m := by
  simp [Layer.fit]; omega

theorem codeAt_last (exes : List (List Instr)) (c : List Instr) :
    CodeAt (exes ++ [c]) exes.length 0 c := by
  intro i x hx
  simpa [fetch] using hx

theorem callSim (hL : L.Lawful) : ∀ n, CallSim L cap n (callN L n)
  | 0 => by
    intro exes s st f fs t g argv k _
    show SimX L cap 0 .more _ _
    cases callObj L cap g argv k t with
    | run u => exact .inr ⟨u, rfl⟩
    | _ => trivial
  | n + 1 => by
    intro exes s st f fs t g argv k hu
    have ih := callSim hL n
    obtain ⟨fn, ex, rfl, ⟨l, rfl⟩, h2, h3⟩ := hu
    simp only [callN, callObj]
    refine SimX.prim (f := L.callee g) rfl fun w c _ hp => ?_
    cases c with
    | no => exact rfl
    | noja clo =>
      have hr := h2 g
      show SimX L cap (n + 1) (M.bind (findFun g) _ _) _ _
      simp only [M.bind, findFun]
      cases hfn : fn g with
      | none =>
        rw [hfn] at hr
        cases hfd : s.funs g with
        | none => exact trivial
        | some fd => rw [hfd] at hr; exact hr.elim
      | some fun_ =>
        rw [hfn] at hr
        cases hfd : s.funs g with
        | none => rw [hfd] at hr; exact hr.elim
        | some fd =>
          rw [hfd] at hr
          obtain ⟨ha, hcode, hwf⟩ := hr
          simp only [enter]
          refine SimX.prim (f := L.newScope) rfl fun w2 scope _ hp2 => ?_
          dsimp only
          by_cases hm : maxFrames ≤ (Frame.normal f :: fs).length
          · rw [if_pos hm]; trivial
          · rw [if_neg hm]
            apply SimX.pushAll
            rw [ha]
            refine Sim.bind (FunDef.sim hL ih fd hwf (exes ++ l) ⟨w2, s.funs⟩ st _
              { exe := fun_.exe, idx := fun_.addr, locals := scope, closure := some clo, used := 0, want := k }
              (.normal f :: fs) _ (fit_length _ _)
              ⟨fn, exes ++ l, by simp, ⟨[], by simp⟩, h2, hp2⟩ hcode) ?_
            intro s' vs u hret
            refine hret.leave fun i t ht => ?_
            refine SimX.post' (sim_leave (g := { exe := fun_.exe, idx := i, locals := scope, closure := some clo, used := 0, want := k }) ht) ?_
            exact fun s vs u h => ⟨h.1, h.2.weaken⟩
    | native id argc =>
      dsimp only
      by_cases hm : maxFrames ≤ (Frame.normal f :: fs).length
      · rw [if_pos hm]; trivial
      · rw [if_neg hm]
        refine SimX.prim (f := L.native id (L.adapt argc argv)) rfl fun w2 r _ hp2 => ?_
        cases r with
        | done rets => exact sim_deliver ⟨l, rfl⟩ h2 hp2
        | load p =>
          dsimp only
          by_cases hw : p.wf false = true
          · rw [if_pos hw, if_pos hw]
            simp only [enter]
            refine SimX.prim (f := L.newScope) rfl fun w3 scope _ hp3 => ?_
            dsimp only
            by_cases hm : maxFrames ≤ (Frame.native k :: Frame.normal f :: fs).length
            · rw [if_pos hm]; trivial
            · rw [if_neg hm]
              apply SimX.pushAll
              refine Sim.bind (Stmts.simRun hL ih p hw ((exes ++ l) ++ [compile p]) ⟨w3, s.funs⟩ st
                { exe := (exes ++ l).length, idx := 0, locals := scope, closure := none, used := 0, want := 0 }
                (.native k :: .normal f :: fs) _ rfl rfl
                ⟨fn, (exes ++ l) ++ [compile p], by simp, ⟨[], by simp⟩, h2.append, hp3⟩ (codeAt_last _ _)) ?_
              intro s' vs u hret
              refine hret.leave fun i t ht => ?_
              refine SimX.post' (sim_leaveNative (g := { exe := (exes ++ l).length, idx := i, locals := scope, closure := none, used := 0, want := 0 }) ht) ?_
              refine fun s vs u h => ⟨h.1, ?_⟩
              exact (At.weaken (l := [compile p]) h.2).weaken
          · rw [if_neg hw, if_neg hw]; exact SimX.off

/-! ## Programs -/

/-- At most `n` steps of the program that is executable number `e`. -/
def start (L : Layer W) (cap e : Nat) (s : St W) (n : Nat) : Status W :=
  match boot L cap e s with
  | .run t => runN L cap n t
  | x => x

theorem start_add (e : Nat) (s : St W) (m n : Nat) :
    start L cap e s (m + n) =
      match start L cap e s m with
      | .run t => runN L cap n t
      | x => x := by
  unfold start
  cases boot L cap e s with
  | run t => exact runN_add m n t
  | _ => rfl

/-- Once a run has ended, more steps change nothing. -/
theorem start_stable {e : Nat} {s : St W} {m n : Nat} {x y : Status W}
    (hx : start L cap e s m = x) (hy : start L cap e s n = y) (hxr : ∀ t, x ≠ .run t)
    (hyr : ∀ t, y ≠ .run t) : x = y := by
  rcases Nat.le_total m n with h | h
  · obtain ⟨k, rfl⟩ := Nat.exists_eq_add_of_le h
    rw [start_add, hx] at hy
    cases x with
    | run t => exact absurd rfl (hxr t)
    | _ => exact hy
  · obtain ⟨k, rfl⟩ := Nat.exists_eq_add_of_le h
    rw [start_add, hy] at hx
    cases y with
    | run t => exact absurd rfl (hyr t)
    | _ => exact hx.symm

/-- Whatever the program text does with some fuel, the machine does, or it hits a limit. -/
theorem mean_run (hL : L.Lawful) (p : Stmts) (hw : p.wf false = true) (w : W)
    (funs : Ref → Option FunDef) (fn : Ref → Option Func) (exes : List (List Instr))
    (hrel : Rel exes fn funs) (st : List Ref) (fuel : Nat) :
    (∃ k t, start L cap exes.length ⟨w, fn, exes ++ [compile p], st, []⟩ k = .limit t) ∨
    match p.mean L fuel ⟨w, funs⟩ with
    | .ok s vs => ∃ k u, start L cap exes.length ⟨w, fn, exes ++ [compile p], st, []⟩ k = .done vs u ∧
        u.w = s.w ∧ u.stack = st ∧ u.frames = [] ∧
        (∃ l, u.exes = (exes ++ [compile p]) ++ l) ∧ Rel u.exes u.funcs s.funs
    | .err w' => ∃ k u, start L cap exes.length ⟨w, fn, exes ++ [compile p], st, []⟩ k = .err u ∧ u.w = w'
    | .ub => ∃ k, start L cap exes.length ⟨w, fn, exes ++ [compile p], st, []⟩ k = .ub
    | .off => True
    | .more => ∃ u, start L cap exes.length ⟨w, fn, exes ++ [compile p], st, []⟩ fuel = .run u := by
  have hm : p.mean L fuel ⟨w, funs⟩ = M.bind (lift L L.newScope)
    (fun scope => p.run ⟨L, fuel, callN L fuel, scope, none⟩) ⟨w, funs⟩ := rfl
  rw [hm]
  unfold start boot enter M.bind lift St.prim
  dsimp only
  cases hns : L.newScope w with
  | err w1 => exact .inr ⟨0, _, rfl, rfl⟩
  | ub => exact .inr ⟨0, rfl⟩
  | ok w1 scope =>
    dsimp only
    cases hp : L.pending w1 with
    | true => exact .inr trivial
    | false =>
      simp only [Bool.false_eq_true, if_false]
      rw [if_neg (by simp [maxFrames])]
      simp only [St.pushAll]
      have hs := Stmts.simRun (cap := cap) hL (callSim hL fuel) p hw (exes ++ [compile p]) ⟨w1, funs⟩ st
        { exe := exes.length, idx := 0, locals := scope, closure := none, used := 0, want := 0 }
        [] _ rfl rfl ⟨fn, exes ++ [compile p], rfl, ⟨[], by simp⟩, hrel.append, hp⟩ (codeAt_last _ _)
      rcases hs with ⟨k, t, hl⟩ | hs
      · exact .inl ⟨k, t, hl⟩
      · revert hs
        cases hr : p.run ⟨L, fuel, callN L fuel, scope, none⟩ ⟨w1, funs⟩ with
        | err w' => exact fun h => .inr h
        | ub => exact fun h => .inr h
        | off => exact fun h => .inr h
        | more => exact fun h => .inr h
        | ok s vs =>
          rintro ⟨k, u, hk, hret⟩
          -- one more step ends the program
          have hlast : (∃ t, runN L cap 1 u = .limit t) ∨
              ∃ fn' ex', runN L cap 1 u = .done vs ⟨s.w, fn', ex', st, []⟩ ∧
                (∃ l, ex' = (exes ++ [compile p]) ++ l) ∧ Rel ex' fn' s.funs := by
            have hlv : ∀ fn' ex' i, L.pending s.w = false →
                leave L cap ⟨s.w, fn', ex', vs.reverse ++ st,
                  [.normal { exe := exes.length, idx := i, locals := scope, closure := none, used := vs.length, want := 0 }]⟩ =
                  .done vs ⟨s.w, fn', ex', st, []⟩ := by
              intro fn' ex' i h3
              unfold leave
              simp only [h3, Bool.false_eq_true, if_false]
              have ht : List.take vs.length (vs.reverse ++ st) = vs.reverse := by
                rw [← List.length_reverse, List.take_left']; rfl
              have hd : List.drop vs.length (vs.reverse ++ st) = st := by
                rw [← List.length_reverse, List.drop_left']; rfl
              rw [ht, hd, List.reverse_reverse]
            rcases hret with ⟨m, i, hf, fn', ex', rfl, ⟨l, rfl⟩, h2, h3⟩ | ⟨i, hf, rfl, fn', ex', rfl, ⟨l, rfl⟩, h2, h3⟩
            · refine .inr ⟨fn', _, ?_, ⟨l, rfl⟩, h2⟩
              simp only [runN, step, fetch_append hf, execI]
              rw [hlv _ _ _ h3]
            · simp only [runN, step, fetch_append hf, execI, St.push]
              rw [if_neg (by simp [maxFrameStack])]
              by_cases hc : cap ≤ st.length
              · rw [if_pos hc]; exact .inl ⟨_, rfl⟩
              · rw [if_neg hc]
                refine .inr ⟨fn', _, ?_, ⟨l, rfl⟩, h2⟩
                dsimp only
                have := hlv fn' ((exes ++ [compile p]) ++ l) (i + 1) h3
                simp only [List.length_cons, List.length_nil, List.reverse_cons, List.reverse_nil,
                  List.nil_append, List.singleton_append] at this
                rw [this]
          rcases hlast with ⟨t, hl⟩ | ⟨fn', ex', hd, h1, h2⟩
          · refine .inl ⟨k + 1, t, ?_⟩
            show runN L cap (k + 1) _ = _
            rw [runN_add, hk]
            exact hl
          · refine .inr ⟨k + 1, ⟨s.w, fn', ex', st, []⟩, ?_, rfl, rfl, rfl, h1, h2⟩
            show runN L cap (k + 1) _ = _
            rw [runN_add, hk]
            exact hd

/-- The program text says what a run that ended did.  `off` (see `Verif.VM.Source`) marks the runs
about which nothing is claimed. -/
theorem C42_run_is_meaning (hL : L.Lawful) (p : Stmts) (hw : p.wf false = true) (w : W)
    (funs : Ref → Option FunDef) (fn : Ref → Option Func) (exes : List (List Instr))
    (hrel : Rel exes fn funs) (st : List Ref) (n : Nat) :
    match start L cap exes.length ⟨w, fn, exes ++ [compile p], st, []⟩ n with
    | .done vs u => ∃ fuel, p.mean L fuel ⟨w, funs⟩ = .off ∨
        ∃ s, p.mean L fuel ⟨w, funs⟩ = .ok s vs ∧ u.w = s.w ∧ Rel u.exes u.funcs s.funs ∧
          u.stack = st ∧ u.frames = []
    | .err u => ∃ fuel, p.mean L fuel ⟨w, funs⟩ = .off ∨ p.mean L fuel ⟨w, funs⟩ = .err u.w
    | .ub => ∃ fuel, p.mean L fuel ⟨w, funs⟩ = .off ∨ p.mean L fuel ⟨w, funs⟩ = .ub
    | .limit _ => True
    | .run _ => True := by
  have key : ∀ x, start L cap exes.length ⟨w, fn, exes ++ [compile p], st, []⟩ n = x →
      (∀ t, x ≠ .run t) → (∀ t, x ≠ .limit t) →
      ∃ fuel, match p.mean L fuel ⟨w, funs⟩ with
        | .ok s vs => ∃ u, x = .done vs u ∧ u.w = s.w ∧ u.stack = st ∧ u.frames = [] ∧
            Rel u.exes u.funcs s.funs
        | .err w' => ∃ u, x = .err u ∧ u.w = w'
        | .ub => x = .ub
        | .off => True
        | .more => False := by
    intro x hx hr hl
    refine ⟨n + 1, ?_⟩
    rcases mean_run (cap := cap) hL p hw w funs fn exes hrel st (n + 1) with ⟨k, t, h⟩ | h
    · exact absurd (start_stable hx h hr (by simp)) (hl t)
    · revert h
      cases p.mean L (n + 1) ⟨w, funs⟩ with
      | ok s vs =>
        rintro ⟨k, u, h, h1, h2, h3, -, h4⟩
        exact ⟨u, start_stable hx h hr (by simp), h1, h2, h3, h4⟩
      | err w' =>
        rintro ⟨k, u, h, h1⟩
        exact ⟨u, start_stable hx h hr (by simp), h1⟩
      | ub =>
        rintro ⟨k, h⟩
        exact start_stable hx h hr (by simp)
      | off => exact fun _ => trivial
      | more =>
        rintro ⟨u, h⟩
        rw [start_add, hx] at h
        cases x with
        | run t => exact hr t rfl
        | _ => simp at h
  cases hx : start L cap exes.length ⟨w, fn, exes ++ [compile p], st, []⟩ n with
  | run t => trivial
  | limit t => trivial
  | done vs u =>
    obtain ⟨fuel, h⟩ := key _ hx (by simp) (by simp)
    refine ⟨fuel, ?_⟩
    revert h
    cases p.mean L fuel ⟨w, funs⟩ with
    | ok s vs' =>
      rintro ⟨u', hd, h1, h2, h3, h4⟩
      cases hd
      exact .inr ⟨s, rfl, h1, h4, h2, h3⟩
    | off => exact fun _ => .inl rfl
    | err w' => rintro ⟨_, hd, _⟩; cases hd
    | ub => intro hd; cases hd
    | more => exact fun h => h.elim
  | err u =>
    obtain ⟨fuel, h⟩ := key _ hx (by simp) (by simp)
    refine ⟨fuel, ?_⟩
    revert h
    cases p.mean L fuel ⟨w, funs⟩ with
    | ok s vs' => rintro ⟨_, hd, _⟩; cases hd
    | off => exact fun _ => .inl rfl
    | err w' => rintro ⟨_, hd, h⟩; cases hd; rw [h]; exact .inr rfl
    | ub => intro hd; cases hd
    | more => exact fun h => h.elim
  | ub =>
    obtain ⟨fuel, h⟩ := key _ hx (by simp) (by simp)
    refine ⟨fuel, ?_⟩
    revert h
    cases p.mean L fuel ⟨w, funs⟩ with
    | ok s vs' => rintro ⟨_, hd, _⟩; cases hd
    | off => exact fun _ => .inl rfl
    | err w' => rintro ⟨_, hd, h⟩; cases hd
    | ub => exact fun _ => .inr rfl
    | more => exact fun h => h.elim

/-- A program that never ends by its text runs forever, or until a limit. -/
theorem C42_divergence (hL : L.Lawful) (p : Stmts) (hw : p.wf false = true) (w : W)
    (funs : Ref → Option FunDef) (fn : Ref → Option Func) (exes : List (List Instr))
    (hrel : Rel exes fn funs) (st : List Ref) (hd : ∀ fuel, p.mean L fuel ⟨w, funs⟩ = .more) :
    (∀ n, ∃ t, start L cap exes.length ⟨w, fn, exes ++ [compile p], st, []⟩ n = .run t) ∨
    ∃ n t, start L cap exes.length ⟨w, fn, exes ++ [compile p], st, []⟩ n = .limit t := by
  by_cases h : ∃ n t, start L cap exes.length ⟨w, fn, exes ++ [compile p], st, []⟩ n = .limit t
  · exact .inr h
  · refine .inl fun n => ?_
    have := (mean_run (cap := cap) hL p hw w funs fn exes hrel st n).resolve_left h
    rw [hd n] at this
    exact this

end Noja.VM
