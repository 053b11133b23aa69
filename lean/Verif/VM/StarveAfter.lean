import Verif.VM.StarveNative

/-!
# After a built-in function has got no memory (C113)

`C113_native` says what the next state is.  Here: from then on, for as long as the program runs, the outermost function is the one that the
outermost function had called; the outermost function itself is never continued.
-/

set_option linter.unusedVariables false

namespace Noja.VM

variable {W : Type} {L : Layer W} {cap : Nat}

/-- Which call a frame belongs to: its code, its variables, and those around. -/
def Frame.who : Frame → Option (Nat × Ref × Option Ref)
  | .normal f => some (f.exe, f.locals, f.closure)
  | .native _ => none

/-- The call on which all others rest. -/
def outermost (fs : List Frame) : Option (Option (Nat × Ref × Option Ref)) := (fs.map Frame.who).getLast?

theorem outermost_append (as : List Frame) {bs : List Frame} (h : bs ≠ []) : outermost (as ++ bs) = outermost bs := by
  unfold outermost
  rw [List.map_append, List.getLast?_append]
  cases hq : (bs.map Frame.who).getLast? with
  | none => exact absurd (List.map_eq_nil_iff.1 (List.getLast?_eq_none_iff.1 hq)) h
  | some x => rfl

theorem outermost_cons (a : Frame) {bs : List Frame} (h : bs ≠ []) : outermost (a :: bs) = outermost bs := outermost_append [a] h

theorem outermost_same {a b : Frame} (fs : List Frame) (h : a.who = b.who) : outermost (a :: fs) = outermost (b :: fs) := by
  unfold outermost
  rw [List.map_cons, List.map_cons, h]

/-- The outermost call stays the same while a program runs. -/
theorem outermost_step {s t : St W} (h : Live s) (hst : step L cap s = .run t) : outermost t.frames = outermost s.frames := by
  obtain ⟨f, fs, us, st, hf, hs, hu, hsh, hl⟩ := h.top
  obtain ⟨ins, hins⟩ := step_fetch hf hst
  have ht := step_trans (L := L) (cap := cap) hf hins hs hu hsh
  rw [hst] at ht
  rw [hf]
  cases ht with
  | stay us' idx _ _ _ _ hfr hstk _ _ =>
    rw [hfr]
    exact outermost_same fs rfl
  | call argc want args h nat _ hn hc ha hfr hstk _ =>
    rw [hfr, outermost_cons _ (by simp), outermost_append _ (by simp)]
    exact outermost_same fs rfl
  | back k g gs vs _ hw hv hfr hstk _ _ =>
    rw [hfr]
    cases hw with
    | normal =>
      rw [outermost_cons _ (List.cons_ne_nil _ _)]
      exact outermost_same gs rfl
    | native =>
      rw [outermost_cons _ (List.cons_ne_nil _ _), outermost_cons _ (List.cons_ne_nil _ _)]
      exact outermost_same gs rfl

theorem outermost_run : ∀ (n : Nat) {s t : St W}, Live s → runN L cap n s = .run t → outermost t.frames = outermost s.frames
  | 0, s, t, h, hr => by cases hr; rfl
  | n + 1, s, t, h, hr => by
    rw [runN_succ] at hr
    cases hs : step L cap s with
    | run u =>
      rw [hs] at hr
      rw [outermost_run n (live_step h hs) hr, outermost_step h hs]
    | _ => rw [hs] at hr; cases hr

theorem who_of_place {fs gs : List Frame} (h : gs.map Frame.place = fs.map Frame.place) : gs.map Frame.who = fs.map Frame.who ∧
    gs.map Frame.used = fs.map Frame.used := by
  have e1 : Frame.who = (fun p : Option Place => p.map fun p => (p.exe, p.locals, p.closure)) ∘ Frame.place := by
    funext x
    cases x <;> rfl
  have e2 : Frame.used = (fun p : Option Place => (p.map Place.used).getD 0) ∘ Frame.place := by
    funext x
    cases x <;> rfl
  rw [e1, e2, ← List.map_map, ← List.map_map, ← List.map_map, ← List.map_map, h]
  exact ⟨rfl, rfl⟩

theorem held_dropLast : ∀ fs : List Frame, held fs.dropLast ≤ held fs
  | [] => Nat.le_refl _
  | [x] => Nat.zero_le _
  | x :: y :: fs => by
    have := held_dropLast (y :: fs)
    rw [List.dropLast_cons_of_ne_nil (List.cons_ne_nil _ _), held_cons, held_cons]
    omega

theorem shape_of_normal : ∀ fs : List Frame, (∀ x ∈ fs, ∃ g, x = .normal g) → Shape fs
  | [], _ => .nil
  | x :: fs, h => by
    obtain ⟨g, rfl⟩ := h x (by simp)
    exact .normal (shape_of_normal fs fun y hy => h y (List.mem_cons_of_mem _ hy))

theorem normal_of_place {fs gs : List Frame} (h : gs.map Frame.place = fs.map Frame.place) (hn : ∀ x ∈ fs, ∃ g, x = .normal g) :
    ∀ x ∈ gs, ∃ g, x = .normal g := by
  intro x hx
  have : x.place ∈ fs.map Frame.place := h ▸ List.mem_map_of_mem hx
  obtain ⟨y, hy, e⟩ := List.mem_map.1 this
  obtain ⟨g, rfl⟩ := hn y hy
  cases x with
  | normal f => exact ⟨f, rfl⟩
  | native k => cases e

/-- The state behind a refusal is one from which programs run as ever, and its outermost call is that of the function which the outermost one
had called. -/
theorem lost_live {s : St W} {f : NFrame} {fs : List Frame} {us st : List Ref} (hf : s.frames = .normal f :: fs)
    (hn : ∀ x ∈ fs, ∃ g, x = .normal g) (hne : fs ≠ []) (hs : s.stack = us ++ st) (hu : us.length = f.used) (hl : held fs ≤ st.length)
    (hp : L.pending s.w = false) : (lost L cap s).post fun t => Live t ∧ outermost t.frames = outermost s.frames.dropLast := by
  obtain ⟨gs, h1, h2, h3⟩ := (C113_native (cap := cap) hf hn hp).2 hne
  have hall : ∀ x ∈ s.frames.dropLast, ∃ g, x = .normal g := by
    intro x hx
    have := (List.dropLast_sublist _).subset hx
    rw [hf] at this
    rcases List.mem_cons.1 this with rfl | h
    · exact ⟨f, rfl⟩
    · exact hn x h
  have hg := normal_of_place h2 hall
  obtain ⟨hw, hused⟩ := who_of_place h2
  rw [hf, List.dropLast_cons_of_ne_nil hne] at hused
  cases gs with
  | nil => cases hused
  | cons x gs =>
    obtain ⟨g, rfl⟩ := hg x (by simp)
    rw [List.map_cons, List.map_cons] at hused
    obtain ⟨hu1, hu2⟩ := List.cons.inj hused
    have hu1 : g.used = f.used := hu1
    have hheld : held gs ≤ held fs := by
      have : held gs = held fs.dropLast := by
        unfold held
        rw [hu2]
      rw [this]
      exact held_dropLast fs
    rw [h1]
    refine pushAll_post _ (f := g) (fs := gs) rfl ⟨⟨_, gs, (List.replicate f.want L.none).reverse ++ us, st, rfl, ?_, ?_, ?_, by omega⟩, ?_⟩
    · show _ ++ s.stack = _
      rw [hs, List.append_assoc]
    · simp
      omega
    · exact shape_of_normal gs fun y hy => hg y (List.mem_cons_of_mem _ hy)
    · show outermost (.normal _ :: gs) = _
      refine (outermost_same (b := .normal g) gs rfl).trans ?_
      unfold outermost
      rw [hw]

/-- **C113, for built-in functions, what follows**: if a built-in function that a function of the program has called gets no memory, the outermost
call is over: as long as the program runs on, the outermost call is the one that was above it, and that of the program is not among those that
are being performed. -/
theorem C113_native_forever {s t u : St W} {f : NFrame} {fs : List Frame} {argc want i : Nat} {v : Ref} {w : W} {e : Option Nat} {n : Nat} (hl : Live s)
    (hf : s.frames = .normal f :: fs) (hn : ∀ x ∈ fs, ∃ g, x = .normal g) (hne : fs ≠ []) (hc : next s = some (.call argc want))
    (hv : s.stack.head? = some v) (hcallee : L.callee v s.w = .ok w (.native i e)) (hp : L.pending w = false)
    (ht : refusedCallStep L cap s = .run t) (hu : runN L cap n t = .run u) :
    outermost u.frames = outermost s.frames.dropLast := by
  obtain ⟨f', fs', us, st, hf', hs, hlen, hsh, hheld⟩ := hl.top
  rw [hf] at hf'
  cases hf'
  have key : (refusedCallStep L cap s).post fun t => Live t ∧ outermost t.frames = outermost s.frames.dropLast := by
    unfold refusedCallStep
    unfold next at hc
    rw [hf] at hc ⊢
    dsimp only at hc ⊢
    rw [hc]
    dsimp only
    unfold refusedCall
    refine pop_post 1 (us := us) (st := st) rfl hs hlen fun h1 => ?_
    obtain ⟨x, us, rfl⟩ : ∃ x us', us = x :: us' := by
      cases us with
      | nil =>
        exfalso
        have : f.used = 0 := by rw [← hlen]; rfl
        dsimp only at h1
        omega
      | cons x us => exact ⟨x, us, rfl⟩
    rw [hs] at hv
    cases hv
    rw [show (v :: us).take 1 = [v] from by simp]
    dsimp only
    by_cases ha : maxArgs < argc
    · rw [if_pos ha]
      trivial
    · rw [if_neg ha]
      refine pop_post argc (us := us) (st := st) rfl (by simp) (by simp at hlen ⊢; omega) fun h2 => ?_
      dsimp only
      rw [hcallee]
      dsimp only
      by_cases hm : maxFrames ≤ (Frame.normal { f with idx := f.idx + 1, used := f.used - 1 - argc } :: fs).length
      · rw [if_pos hm]
        trivial
      · rw [if_neg hm]
        have := lost_live (L := L) (cap := cap)
          (s := { s with w := w, stack := us.drop argc ++ st, frames := .normal { f with idx := f.idx + 1, used := f.used - 1 - argc } :: fs })
          rfl hn hne rfl (by simp at hlen ⊢; omega) hheld hp
        revert this
        generalize lost L cap _ = y
        cases y with
        | run t =>
          rintro ⟨a, b⟩
          refine ⟨a, b.trans ?_⟩
          show outermost (List.dropLast (_ :: fs)) = outermost (List.dropLast (_ :: fs))
          rw [List.dropLast_cons_of_ne_nil hne, List.dropLast_cons_of_ne_nil hne]
          exact outermost_same _ rfl
        | _ => exact fun _ => trivial
  rw [ht] at key
  rw [outermost_run n key.1 hu, key.2]

open Noja.VM.Book (bootT clientT)

/-- When `count` is called in `twice`, all is as `C113_native_forever` supposes, and the program goes on. -/
example : ∃ vs b, bootT Book.toy 1024 1000 = .done vs b ∧ ∃ s f g argc want v w i e t u,
    let T := tables (std (Book.printing Book.toy Start.config)) false
    clientT Book.toy 1024 b (compile twice) 8 = .run s ∧ s.frames = [.normal f, .normal g] ∧ next s = some (.call argc want) ∧
    s.stack.head? = some v ∧ T.callee v s.w = .ok w (.native i e) ∧ T.pending w = false ∧ refusedCallStep T 1024 s = .run t ∧ runN T 1024 3 t = .run u := by
  have h : (Book.afterBootT fun b => match clientT Book.toy 1024 b (compile twice) 8 with
      | .run s => some (match s.frames, next s, s.stack.head? with
        | [.normal _, .normal _], some (.call _ _), some v =>
          match (tables (std (Book.printing Book.toy Start.config)) false).callee v s.w with
          | .ok w (.native _ _) =>
            !(tables (std (Book.printing Book.toy Start.config)) false).pending w &&
            match refusedCallStep (tables (std (Book.printing Book.toy Start.config)) false) 1024 s with
            | .run t => match runN (tables (std (Book.printing Book.toy Start.config)) false) 1024 3 t with | .run _ => true | _ => false
            | _ => false
          | _ => false
        | _, _, _ => false)
      | _ => none) = some true := by decide +kernel
  obtain ⟨vs, b, hs⟩ := Book.bootT_ends
  unfold Book.afterBootT at h
  rw [hs] at h
  dsimp only at h
  refine ⟨vs, b, hs, ?_⟩
  split at h
  · rename_i s hr
    have h := Option.some.inj h
    split at h
    · rename_i f g argc want v hf hi hv
      split at h
      · rename_i w i e hc
        rw [Bool.and_eq_true] at h
        obtain ⟨hp, h⟩ := h
        split at h
        · rename_i t ht
          split at h
          · rename_i u hu
            exact ⟨s, f, g, argc, want, v, w, i, e, t, u, hr, hf, hi, hv, hc, by simpa using hp, ht, hu⟩
          · cases h
        · cases h
      · cases h
    · cases h
  · cases h

end Noja.VM
