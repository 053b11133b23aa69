import Verif.VM.Move.Command

/-!
# The trace of a program that fails, with tables and collections (C91, C107, C109)

A trace is made of where the frames are in their executables, not of where the objects are: a collection moves the scopes of the frames,
and the trace stays what it is.
-/

set_option linter.unusedVariables false

namespace Noja.VM.Move

open Noja.VM.Book (All2 bare bareStatus bootT clientT roomy runIf)
open Noja.Exe (Executable)

theorem printFrame_rel {ρ : Ref → Ref → Prop} (names : Nat → Option (List UInt8)) (es : List (List UInt8 × Executable)) (depth : Nat)
    {F G : Frame} (h : FrR ρ F G) : Trace.printFrame names es depth F = Trace.printFrame names es depth G := by
  cases F <;> cases G <;> first | exact h.elim | skip
  · rename_i f g
    have h : NFrR ρ f g := h
    unfold Trace.printFrame frameLine Trace.frameName
    dsimp only
    rw [h.exe, h.idx]
  · rfl

theorem printFrames_rel {ρ : Ref → Ref → Prop} (names : Nat → Option (List UInt8)) (es : List (List UInt8 × Executable)) :
    ∀ {fs gs : List Frame} (depth : Nat), All2 (FrR ρ) fs gs → Trace.printFrames names es depth fs = Trace.printFrames names es depth gs
  | [], [], _, _ => rfl
  | F :: fs, G :: gs, depth, h => by
    unfold Trace.printFrames
    rw [printFrame_rel names es depth h.1, printFrames_rel names es (depth + 1) h.2]

theorem printTrace_rel {ρ : Ref → Ref → Prop} (names : Nat → Option (List UInt8)) (es : List (List UInt8 × Executable)) {fs gs : List Frame}
    (h : All2 (FrR ρ) fs gs) : Trace.printTrace names es fs = Trace.printTrace names es gs := by
  cases fs with
  | nil => cases gs with | nil => rfl | cons G gs => exact h.elim
  | cons F fs => cases gs with
    | nil => exact h.elim
    | cons G gs =>
      unfold Trace.printTrace
      dsimp only
      rw [printFrames_rel names es 0 h]

/-- C91, for traces: when a session fails, the machine that never collects fails too; the executables are the same, and the trace is the
same, byte for byte, whatever the names and the texts of the executables are. -/
theorem C91_trace_partial (fl : Book.Floats) {cap n m : Nat} {vs : List Ref} {u : St TWorld} (hb : bootT fl cap n = .done vs u)
    {code : List Instr} {t : St TWorld} (h : SessionT fl cap n m code (.err t)) :
    ∃ s, clientT fl cap u code m = .err s ∧ s.exes = t.exes ∧ s.w.w.out = t.w.w.out ∧
      ∀ names es, Trace.printTrace names es t.frames = Trace.printTrace names es s.frames := by
  obtain ⟨vs', u', h1, ρ, N, R, h2⟩ := sessionT_rel fl h
  rw [hb] at h1
  cases h1
  cases hc : clientT fl cap u code m with
  | err s =>
    rw [hc] at h2
    have h2 : StR (TR ρ N) ρ s t := h2
    exact ⟨s, rfl, h2.exes, h2.w.w.out, fun names es => (printTrace_rel names es h2.frames).symm⟩
  | _ => rw [hc] at h2; exact h2.elim

/-- A program can always be started, also with tables. -/
theorem boot_runT (C : Config) (cap e : Nat) (s : St TWorld) (h : s.frames = []) : ∃ t, boot (tables C false) cap e s = .run t := by
  unfold boot enter St.prim
  have : ∃ x r, (tables C false).newScope s.w = .ok x r := ⟨_, _, rfl⟩
  obtain ⟨x, r, hx⟩ := this
  rw [hx]
  dsimp only
  rw [h, if_neg (by decide)]
  exact ⟨_, rfl⟩

theorem clientT_steps (fl : Book.Floats) (cap : Nat) (u : St TWorld) (code : List Instr) : ∃ s₀ s₁, s₀.frames = [] ∧
    boot (tables (std (Book.printing fl Start.config)) false) cap u.exes.length s₀ = .run s₁ ∧
    ∀ k, clientT fl cap u code k = exec (tables (std (Book.printing fl Start.config)) false) cap (fun _ => false) k 0 s₁ := by
  obtain ⟨t, ht⟩ := boot_runT (std (Book.printing fl Start.config)) cap u.exes.length
    ⟨Book.pluggedT u.w, u.funcs, u.exes ++ [code], [], []⟩ rfl
  refine ⟨_, t, rfl, ht, fun k => ?_⟩
  rw [Cli.exec_never]
  unfold clientT start
  rw [ht]

/-- C109, with tables and collections: the trace of a session that has failed has one line for each call that is being performed, at most
16, and the last one is about the text that was started. -/
theorem C109_collected (fl : Book.Floats) {cap n m : Nat} {vs : List Ref} {u : St TWorld} (hb : bootT fl cap n = .done vs u)
    {code : List Instr} {s : St TWorld} (h : SessionT fl cap n m code (.err s)) {flt : List UInt8 → Option (BitVec 64)}
    (names : Nat → Option (List UInt8)) {es : List (List UInt8 × Executable)} (hl : Loaded flt es s.exes) :
    ∃ t inner line called, Trace.printTrace names es s.frames = .ok (Trace.header ++ t, []) ∧
      Trace.Reads 0 (inner ++ [⟨called, line⟩]) t ∧ inner.length < 16 ∧
      ∀ src e, es[u.exes.length]? = some (src, e) →
        (∀ nm, names u.exes.length = some nm → called = nm) ∧ ∀ l, line = some l → 1 ≤ l ∧ l ≤ 1 + src.count 10 := by
  obtain ⟨v, hv, hx, -, htr⟩ := C91_trace_partial fl hb h
  obtain ⟨s₀, s₁, h0, h1, h2⟩ := clientT_steps fl cap u code
  rw [h2] at hv
  rw [← hx] at hl
  obtain ⟨t, front, f, h3, h4, h5, h6⟩ := Trace.C109_bottom h0 h1 names (.inr (.inl hv)) hl
  have hd := Trace.C109_partial h0 h1 (n := m) (t₀ := 0) (stop := fun _ => false) (flt := flt) names (es := es)
  rw [hv] at hd
  have hd := (hd hl).2.1
  rw [h3, List.length_append] at hd
  refine ⟨t, _, _, _, (htr names es).trans h5, h6, by rw [List.length_map]; exact hd, fun src e he => ⟨fun nm hn => ?_, fun l hq => ?_⟩⟩
  · unfold Trace.called
    dsimp only
    rw [h4, if_pos (List.getElem?_eq_some_iff.1 he).1, hn]
  · unfold Trace.lineOf at hq
    rw [he] at hq
    dsimp only at hq
    by_cases hi : f.idx < e.body.length
    · rw [if_pos hi] at hq
      cases hq
      exact ⟨Nat.le_add_right .., Nat.add_le_add_left ((List.take_sublist ..).count_le 10) 1⟩
    · rw [if_neg hi] at hq
      cases hq

end Noja.VM.Move

namespace Noja.Cli

open Noja.VM
open Noja.VM.Book (bare bareStatus bootT clientT roomy runIf)
open Noja.VM.Move (SessionT)

/-- `Host.Traces`, for the sessions with tables and collections. -/
structure Host.TracesT (H : Host) (u : St TWorld) (p : Stmts) (src name : List UInt8) (names : Nat → Option (List UInt8))
    (texts : St World → List (List UInt8 × Exe.Executable)) : Prop where
  loaded : ∀ m s, SessionT H.fl H.cap H.n m (compile p) (.err s) → Loaded H.fltC (texts (bare s)) s.exes
  text : ∀ s, ∃ e, (texts s)[u.exes.length]? = some (src, e)
  name : names u.exes.length = some name
  tell : ∀ s a b, Trace.printTrace names (texts s) s.frames = .ok (a, b) → (H.tell (some (.err s))).trace = a ++ b

/-- **C107 and C109, with tables and collections**: the trace that the command writes about a program that fails has one line for each call that
is being performed, counted from 0, at most 16; the last one is about the text of the program itself, with its name, and, if there is
one, a line of that text. -/
theorem C107_trace_collected (H : Host) (name : List UInt8) (os : List Opt) (args : List Arg) (file : Arg) (rest : List Arg) (hw : WritesAll os args)
    (hf : file ∉ words) (hs : ∀ n, Opt.heap n ∈ os → n < 2 ^ 31) {inline : Bool} {heap : Nat}
    (ha : want os file = .run false inline false file none heap) (hm : H.made heap false = true)
    {vs : List Ref} {u : St TWorld} (hb : bootT H.fl H.cap H.n = .done vs u) {src : List UInt8} (hg : H.Gives src inline file) {p : Stmts}
    (hp : p.wf false = true) (ht : H.Means false src p)
    (hlim : ∀ k t, clientT H.fl H.cap u (compile p) k ≠ .limit t) {called : List UInt8} {names : Nat → Option (List UInt8)}
    {texts : St World → List (List UInt8 × Exe.Executable)} (hT : H.TracesT u p src called names texts) (fuel : Nat) (o : List UInt8)
    (hr : letI := H.fl; runIf roomy fuel p = .err o) :
    ∃ k, ∀ m, k ≤ m → ∀ M, H.Collects m (compile p) M → ∃ message t inner line,
      command (H.libT M) name (args ++ file :: rest) = .ok ⟨o, [.message message, .trace (Trace.header ++ t)], [], 255⟩ ∧
      Trace.Reads 0 (inner ++ [⟨called, line⟩]) t ∧ inner.length < 16 ∧ ∀ l, line = some l → 1 ≤ l ∧ l ≤ 1 + src.count 10 := by
  letI := H.fl
  have hrun : ∀ M, (H.libT M).run false inline file heap = M (compile p) := fun M => H.run_eq M hg ht
  obtain ⟨-, k, hk⟩ := (Move.C91_roomy_partial H.fl hb p hp hlim fuel).2.1 o hr
  have hc := fun M => C107_runs (H.libT M) name os args file rest hw hf hs ha hm (H.pluggedT hb M heap)
  refine ⟨k, fun m hle M ⟨x, hx, hM⟩ => ?_⟩
  obtain ⟨s, rfl, ho⟩ := hk m hle x hx
  obtain ⟨t, inner, line, called', h1, h2, h3, h4⟩ := Move.C109_collected H.fl hb hx names (hT.loaded m s hx)
  obtain ⟨e, he⟩ := hT.text (bare s)
  obtain ⟨h5, h6⟩ := h4 src e he
  rw [h5 _ hT.name] at h2
  refine ⟨(H.tell (some (.err (bare s)))).message, t, inner, line, ?_, h2, h3, h6⟩
  have := (hc M).2 o (H.tell (some (.err (bare s)))) (by rw [hrun, hM, ← ho]; rfl)
  rw [hT.tell (bare s) _ _ h1, List.append_nil] at this
  exact this

/-! ## An example -/

def failedWithT : Status TWorld → Option (List (List Instr))
  | .err s => some s.exes
  | _ => none

/-- `noja -i 'x;'` has a message and a trace whose last line is about the text of the argument, also if there are collections; and there are
machines with collections. -/
example : ∃ es k, (∀ m, k ≤ m → ∃ M, (tracingHost es).Collects m (compile failing) M) ∧
    ∀ m, k ≤ m → ∀ M, (tracingHost es).Collects m (compile failing) M → ∃ message t inner line,
      command ((tracingHost es).libT M) [110] [W.iS, [120, 59]] = .ok ⟨[], [.message message, .trace (Trace.header ++ t)], [], 255⟩ ∧
      Trace.Reads 0 (inner ++ [⟨unnamed, line⟩]) t := by
  have hb : (Book.afterBootT fun u => if u.exes.length = 1 then failedWithT (clientT Book.toy 1024 u (compile failing) 100) else none) =
      some [compile Start.prog, compile failing] := by decide +kernel
  obtain ⟨vs, u, hs⟩ := Book.bootT_ends
  unfold Book.afterBootT at hb
  rw [hs] at hb
  dsimp only at hb
  by_cases hu : u.exes.length = 1
  · rw [if_pos hu] at hb
    cases hv : clientT Book.toy 1024 u (compile failing) 100 with
    | err v =>
      rw [hv] at hb
      have hx : v.exes = [compile Start.prog, compile failing] := Option.some.inj hb
      have same : ∀ {k x}, clientT Book.toy 1024 u (compile failing) k = x → (∀ t, x ≠ .run t) → x = .err v := fun hk hr =>
        start_stable hk hv hr nofun
      obtain ⟨e0, hc0, hf0⟩ : ∃ e, compileText Start.literal 0 Start.text = .ok e ∧
          ∀ i, Exe.fetch e i = ((compile Start.prog)[i]?).map Instr.encode := by
        have h := Start.parse_text
        cases hr : Parse.parse Start.literal 0 Start.text with
        | ok root =>
          rw [hr, Exec.bind_ok] at h
          injection h with h
          obtain ⟨ts, h1, h2⟩ := (Parse.C80_parse _ 0 _ root).mp hr
          obtain ⟨e, h4, -, h5⟩ := C84_compiled Start.literal 0 Start.text ts root _ h1 h2 h
          exact ⟨e, h4, h5⟩
        | _ => rw [hr] at h; cases h
      obtain ⟨root, hroot, hel⟩ : ∃ root, Parse.parse Start.literal 0 [120, 59] = .ok root ∧ root.elab false = some failing := by
        have h : (match Parse.parse Start.literal 0 [120, 59] with
          | .ok root => (match root.elab false with
            | some (.cons (.expr (.ident x)) .nil) => decide (x = [120])
            | _ => false)
          | _ => false) = true := by decide +kernel
        cases hr : Parse.parse Start.literal 0 [120, 59] with
        | ok root =>
          rw [hr] at h
          dsimp only at h
          refine ⟨root, rfl, ?_⟩
          split at h
          · rename_i x he
            rw [he, of_decide_eq_true h]
            rfl
          · cases h
        | _ => rw [hr] at h; cases h
      obtain ⟨ts, h1, h2⟩ := (Parse.C80_parse _ 0 _ root).mp hroot
      obtain ⟨e1, hc1, -, hf1⟩ := C84_compiled Start.literal 0 [120, 59] ts root _ h1 h2 hel
      have hT : (tracingHost [(Start.text, e0), ([120, 59], e1)]).TracesT u failing [120, 59] unnamed toyNames
          (fun _ => [(Start.text, e0), ([120, 59], e1)]) := {
        loaded := fun m s hk => by
          obtain ⟨w, hw, hwx, -⟩ := Move.C91_trace_partial Book.toy hs hk
          cases same hw nofun
          intro i src e hi
          rw [← hwx, hx]
          match i, hi with
          | 0, hi => cases hi; exact ⟨⟨0, hc0⟩, _, rfl, hf0⟩
          | 1, hi => cases hi; exact ⟨⟨0, hc1⟩, _, rfl, hf1⟩
          | i + 2, hi => cases hi
        text := fun s => ⟨e1, by rw [hu]; rfl⟩
        name := by rw [hu]; rfl
        tell := fun s a b h => by
          show (match Trace.printTrace toyNames _ s.frames with
            | .ok (a, b) => (⟨[101], a ++ b⟩ : Report)
            | _ => ⟨[101], []⟩).trace = _
          rw [h] }
      have hr : (match @runIf Book.toy roomy 10 failing with | .err o => decide (o = []) | _ => false) = true := by decide +kernel
      cases hrun : @runIf Book.toy roomy 10 failing with
      | err o =>
        rw [hrun] at hr
        have hr : o = [] := of_decide_eq_true hr
        subst hr
        have hw : WritesAll [.inline] [W.iS] := by
          have := WritesAll.cons (.inlineS) .nil
          exact this
        obtain ⟨k, hk⟩ := C107_trace_collected (tracingHost [(Start.text, e0), ([120, 59], e1)]) [110] [.inline] [W.iS]
          [120, 59] [] hw (by decide) (by simp) rfl rfl hs (.inline (by decide) (by decide)) (p := failing) (by decide)
          (by unfold Host.Means; rw [if_neg nofun]; exact ⟨ts, root, h1, h2, hel⟩) (fun k t q => by cases same q nofun) hT 10 [] hrun
        refine ⟨[(Start.text, e0), ([120, 59], e1)], k, fun m hm => ?_, fun m hm M h => ?_⟩
        · obtain ⟨x, hx⟩ := Move.sessionT_exists Book.toy hs (compile failing) m
          exact ⟨fun _ => (tracingHost [(Start.text, e0), ([120, 59], e1)]).ends (bareStatus x), x, hx, rfl⟩
        · obtain ⟨message, t, inner, line, h3, h4, -⟩ := hk m hm M h
          exact ⟨message, t, inner, line, h3, h4⟩
      | _ => rw [hrun] at hr; cases hr
    | _ => rw [hv] at hb; cases hb
  · rw [if_neg hu] at hb
    cases hb

end Noja.Cli
