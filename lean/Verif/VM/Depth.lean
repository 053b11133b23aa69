import Verif.VM.Invariant

/-!
# Depth and targets of generated code (C40, C41)
-/

set_option linter.unusedVariables false
set_option linter.unusedSimpArgs false

namespace Noja.VM

variable {W : Type} {L : Layer W} {cap : Nat}

/-- Ways through code: execution begins at 0 with an empty stack and at the entry of every function
with the arguments on the stack; `x` is the depth, counted without looking whether the values are
there. -/
inductive Path (code : List Instr) : (i : Nat) → (x : Int) → Prop
  | start : Path code 0 0
  | entry {j a n : Nat} {ins : Instr} : code[j]? = some ins → ins.entry = some (a, n) → Path code a n
  | step {i t : Nat} {x : Int} {ins : Instr} : Path code i x → code[i]? = some ins →
      t ∈ ins.next i → Path code t (x - ins.takes + ins.gives)

theorem Instr.takes_le_needs (ins : Instr) : ins.takes ≤ ins.needs := by
  cases ins with
  | pop n => exact Nat.le_refl n
  | call a k => exact Nat.le_refl (a + 1)
  | un op => exact Nat.le_refl 1
  | bin op => exact Nat.le_refl 2
  | checkType a b => exact Nat.le_succ 1
  | select => exact Nat.le_refl 2
  | select2 => exact Nat.le_succ 1
  | insert => exact Nat.le_succ 2
  | insert2 => exact Nat.le_succ 2
  | jumpIf a => exact Nat.le_refl 1
  | jumpIfNot a => exact Nat.le_refl 1
  | _ => exact Nat.zero_le _

theorem path_depth {p : Stmts} (hw : p.wf false = true) {i : Nat} {x : Int} (h : Path (compile p) i x) :
    i < (compile p).length ∧ x = p.depthAt i := by
  obtain ⟨h0, hseg⟩ := compile_ok p hw
  induction h with
  | start => exact ⟨by simp [compile], by rw [h0]; rfl⟩
  | entry hj he =>
    have := (hseg _ _ hj).entry _ _ he
    exact ⟨this.1, by rw [this.2]⟩
  | step _ hi ht ih =>
    have ok := hseg _ _ hi
    simp only [Nat.zero_add] at ok
    obtain ⟨a, b⟩ := ok.next _ ht
    refine ⟨a, ?_⟩
    have h1 := ok.needs
    rename_i i t x ins _ 
    have h2 := ins.takes_le_needs
    rw [b, ih.2]
    omega

/-- The depth at an instruction is the same whichever way it is reached, and is never negative. (Example: `VM/Demo.lean`.) -/
theorem C40_depth {p : Stmts} (hw : p.wf false = true) {i : Nat} {x y : Int}
    (hx : Path (compile p) i x) (hy : Path (compile p) i y) : x = y ∧ 0 ≤ x := by
  have h1 := path_depth hw hx
  have h2 := path_depth hw hy
  exact ⟨by rw [h1.2, h2.2], by rw [h1.2]; omega⟩

/-- Every instruction finds the values that it needs; `RETURN` returns all values of its frame and
nothing is left at the end of the program. (Example: `VM/Demo.lean`.) -/
theorem C40_needs {p : Stmts} (hw : p.wf false = true) {i : Nat} {x : Int} {ins : Instr}
    (hx : Path (compile p) i x) (hi : (compile p)[i]? = some ins) :
    (ins.needs : Int) ≤ x ∧ (∀ n, ins = .ret n → x = n) ∧ (ins = .exit → x = 0) := by
  have h1 := path_depth hw hx
  have ok := (compile_ok p hw).2 i ins hi
  simp only [Nat.zero_add] at ok
  refine ⟨by rw [h1.2]; exact_mod_cast ok.needs, fun n hn => by rw [h1.2, ok.ret n hn], fun he => by rw [h1.2, ok.exit he]; rfl⟩

/-- The targets of jumps and the entries of functions are indices of instructions. (Example: `VM/Demo.lean`.) -/
theorem C41_targets {p : Stmts} (hw : p.wf false = true) {i : Nat} {ins : Instr}
    (hi : (compile p)[i]? = some ins) :
    (∀ t ∈ ins.next i, t < (compile p).length) ∧
    (∀ a n, ins.entry = some (a, n) → a < (compile p).length) := by
  have ok := (compile_ok p hw).2 i ins hi
  simp only [Nat.zero_add] at ok
  exact ⟨fun t ht => (ok.next t ht).1, fun a n he => (ok.entry a n he).1⟩

/-- No way leads past the last instruction. (Example: `VM/Demo.lean`.) -/
theorem C41_inside {p : Stmts} (hw : p.wf false = true) {i : Nat} {x : Int} (h : Path (compile p) i x) :
    ∃ ins, (compile p)[i]? = some ins := by
  have := (path_depth hw h).1
  exact ⟨_, List.getElem?_eq_getElem this⟩

open Noja.Exe in
/-- Every program that `codegen.c` accepts, down to the executable: all labels were resolved, every
index operand is the index of an instruction, and only jumps and ends are not followed by an
instruction.  (The strings of the program must not contain the terminator of C strings.) -/
theorem C41_executable (root : RStmts) (size : Int) (evs : List Ev) (h : codegen root size = .ok evs)
    (hstr : ∀ p, root.elab false = some p → ∀ i ∈ compile p, ∀ s, FOpd.str s ∈ i.encode.2 → (0 : UInt8) ∉ s) :
    ∃ b e, build evs Exe.new = (b, true) ∧ finalize b = some e ∧ 0 < e.body.length ∧
      ∀ i op ops, Exe.fetch e i = some (op, ops) →
        (∀ t, FOpd.idx t ∈ ops → 0 ≤ t ∧ t < e.body.length) ∧
        (op ≠ .RETURN → op ≠ .EXIT → op ≠ .JUMP → i + 1 < e.body.length) := by
  cases he : root.elab false with
  | none => rw [codegen_rejects root size he] at h; cases h
  | some p =>
    have hw := RStmts.elab_wf _ _ _ he
    obtain ⟨evs', b, e, hc, hb, hf, hlen, hfetch⟩ := codegen_accepts root size p he
    rw [h] at hc
    cases hc
    refine ⟨b, e, hb, hf, by rw [hlen]; simp [compile], ?_⟩
    intro i op ops hi
    rw [hfetch (hstr p he)] at hi
    cases hx : (compile p)[i]? with
    | none => rw [hx] at hi; cases hi
    | some ins =>
      rw [hx] at hi
      simp only [Option.map_some, Option.some.injEq] at hi
      obtain ⟨h1, h2⟩ := C41_targets hw hx
      rw [hlen]
      constructor
      · intro t ht
        cases ins with
        | pushFun a n s =>
          cases hi
          simp at ht
          subst ht
          exact ⟨by omega, by exact_mod_cast h2 a n rfl⟩
        | jump a =>
          cases hi
          simp at ht
          subst ht
          exact ⟨by omega, by exact_mod_cast h1 a (List.mem_singleton.2 rfl)⟩
        | jumpIf a =>
          cases hi
          simp at ht
          subst ht
          exact ⟨by omega, by exact_mod_cast h1 a (List.mem_cons_self ..)⟩
        | jumpIfNot a =>
          cases hi
          simp at ht
          subst ht
          exact ⟨by omega, by exact_mod_cast h1 a (List.mem_cons_self ..)⟩
        | _ => cases hi; simp at ht
      · intro n1 n2 n3
        cases ins with
        | jump a => cases hi; exact absurd rfl n3
        | ret a => cases hi; exact absurd rfl n1
        | exit => cases hi; exact absurd rfl n2
        | jumpIf a => exact h1 _ (List.mem_cons_of_mem _ (List.mem_singleton.2 rfl))
        | jumpIfNot a => exact h1 _ (List.mem_cons_of_mem _ (List.mem_singleton.2 rfl))
        | _ => exact h1 _ (List.mem_singleton.2 rfl)

/-! ## Pieces of code -/

/-- Ways through a piece of code that stands at `p`, from its beginning with depth `x`. -/
inductive Walk (code : List Instr) (p : Nat) (x : Int) : (i : Nat) → (y : Int) → Prop
  | start : Walk code p x p x
  | step {i t : Nat} {y : Int} {ins : Instr} : Walk code p x i y → p ≤ i → code[i - p]? = some ins →
      t ∈ ins.next i → Walk code p x t (y - ins.takes + ins.gives)

theorem walk_depth {D : Nat → Nat} {N p : Nat} {code : List Instr} {x : Nat} (hseg : Seg D N p code)
    (hx : D p = x) (hp : p < N) {i : Nat} {y : Int} (h : Walk code p x i y) : i < N ∧ y = D i := by
  induction h with
  | start => exact ⟨hp, by rw [hx]⟩
  | step _ hle hi ht ih =>
    rename_i i t y ins _
    have ok := hseg _ _ hi
    rw [show p + (i - p) = i by omega] at ok
    obtain ⟨a, b⟩ := ok.next _ ht
    have h1 := ok.needs
    have h2 := ins.takes_le_needs
    refine ⟨a, ?_⟩
    rw [b, ih.2]
    omega

/-- Depths for a piece of code with the given end. -/
def pieceDepth (p : Nat) (ds : List Nat) (y : Nat) (j : Nat) : Nat :=
  if j < p then y else ds[j - p]?.getD y

theorem pieceDepth_fits (p : Nat) (ds : List Nat) (y : Nat) : Fits (pieceDepth p ds y) p ds := by
  intro i d hd
  have : ¬ p + i < p := by omega
  simp only [pieceDepth, if_neg this, Nat.add_sub_cancel_left, hd, Option.getD_some]

theorem pieceDepth_out (p : Nat) (ds : List Nat) (y j : Nat) (h : j < p ∨ p + ds.length ≤ j) :
    pieceDepth p ds y j = y := by
  unfold pieceDepth
  by_cases h' : j < p
  · rw [if_pos h']
  · rw [if_neg h', List.getElem?_eq_none (by omega)]; rfl

/-- The code of an expression, entered at its beginning with any depth, can be left only at its
end, with one value more. -/
theorem C40_expr (e : Expr) (hw : e.wf = true) (p x : Nat) {i : Nat} {y : Int}
    (h : Walk (e.code p) p x i y) :
    i ≤ p + (e.code p).length ∧ (i = p + (e.code p).length → y = x + 1) ∧
    (∀ ins, p ≤ i → (e.code p)[i - p]? = some ins → (ins.needs : Int) ≤ y) := by
  have hb := e.bal (N := p + (e.code p).length + 1) p x hw
  have hlen : (e.depths x).length = (e.code p).length := by simp [Expr.depths_length]
  have hfit := pieceDepth_fits p (e.depths x) (x + 1)
  have hend : pieceDepth p (e.depths x) (x + 1) (p + (e.code p).length) = x + 1 :=
    pieceDepth_out _ _ _ _ (.inr (by omega))
  have hseg := hb.seg _ hfit hend (by omega) (by simp)
  have hst := hb.start _ hfit hend
  obtain ⟨h1, h2⟩ := walk_depth hseg hst (by omega) h
  refine ⟨by omega, fun hi => by rw [h2, hi, hend]; rfl, fun ins hp hi => ?_⟩
  have ok := hseg _ _ hi
  rw [show p + (i - p) = i by omega] at ok
  rw [h2]
  exact_mod_cast ok.needs

/-- The code of a statement, entered at its beginning with nothing on the stack, can be left only
at its end or, by a break, at `b`; nothing is on the stack then. -/
theorem C40_stmt (s : Stmt) (b : Option Nat) (hw : s.wf b.isSome = true) (p : Nat)
    (hb : ∀ a, b = some a → a < p ∨ p + (s.code b p).length ≤ a) {i : Nat} {y : Int}
    (h : Walk (s.code b p) p 0 i y) :
    (p + (s.code b p).length ≤ i ∨ i < p ∨ b = some i → y = 0) ∧
    (∀ ins, p ≤ i → (s.code b p)[i - p]? = some ins → (ins.needs : Int) ≤ y) := by
  have hbal := s.bal (N := p + (s.code b p).length + 1 + b.getD 0) b p hw
  have hlen : s.depths.length = (s.code b p).length := by simp [Stmt.depths_length]
  have hfit := pieceDepth_fits p s.depths 0
  have hout : ∀ j, j < p ∨ p + (s.code b p).length ≤ j → pieceDepth p s.depths 0 j = 0 :=
    fun j hj => pieceDepth_out _ _ _ _ (by omega)
  have hend := hout (p + (s.code b p).length) (.inr (Nat.le_refl _))
  have hseg := hbal.seg _ hfit hend (by omega) (by
    intro g hg
    cases b with
    | none => simp [brkAsm] at hg
    | some a =>
      simp only [brkAsm, List.mem_singleton] at hg
      subst hg
      refine ⟨hout a (hb a rfl), ?_⟩
      simp only [Option.getD_some]
      omega)
  have hst := hbal.start _ hfit hend
  obtain ⟨h1, h2⟩ := walk_depth hseg hst (by omega) h
  refine ⟨fun hi => ?_, fun ins hp hi => ?_⟩
  · rw [h2, hout i]
    · rfl
    · rcases hi with h | h | h
      · exact .inr h
      · exact .inl h
      · exact hb i h
  · have ok := hseg _ _ hi
    rw [show p + (i - p) = i by omega] at ok
    rw [h2]
    exact_mod_cast ok.needs

/-! ## Running machines -/

/-- The executables are generated code. -/
def Compiled (exes : List (List Instr)) : Prop :=
  ∀ (e : Nat) code, exes[e]? = some code → ∃ p : Stmts, p.wf false = true ∧ code = compile p

/-- The frame stands at an instruction where its depth will be right once `x` results arrive. -/
def StandsAt (exes : List (List Instr)) (x : Nat) (f : NFrame) : Prop :=
  ∃ code, exes[f.exe]? = some code ∧ Path code f.idx ((f.used : Int) + x)

def Stands (exes : List (List Instr)) : Nat → List Frame → Prop
  | _, [] => True
  | x, .normal f :: fs => StandsAt exes x f ∧ Stands exes f.want fs
  | _, .native k :: fs => Stands exes k fs

def FnOk (exes : List (List Instr)) (fn : Func) : Prop :=
  ∃ code, exes[fn.exe]? = some code ∧ Path code fn.addr fn.argc

structure Running (s : St W) : Prop where
  exes : Compiled s.exes
  funcs : ∀ r fn, s.funcs r = some fn → FnOk s.exes fn
  frames : Stands s.exes 0 s.frames

theorem get_append {exes more : List (List Instr)} {e : Nat} {c : List Instr} (h : exes[e]? = some c) :
    (exes ++ more)[e]? = some c := by
  obtain ⟨hl, -⟩ := List.getElem?_eq_some_iff.1 h
  rw [List.getElem?_append_left hl, h]

theorem StandsAt.mono {exes more : List (List Instr)} {x : Nat} {f : NFrame} (h : StandsAt exes x f) :
    StandsAt (exes ++ more) x f := by
  obtain ⟨c, a, b⟩ := h
  exact ⟨c, get_append a, b⟩

theorem Stands.mono {exes more : List (List Instr)} : ∀ (fs : List Frame) {x : Nat}, Stands exes x fs →
    Stands (exes ++ more) x fs
  | [], _, _ => trivial
  | .normal f :: fs, _, h => ⟨h.1.mono, Stands.mono fs h.2⟩
  | .native k :: fs, _, h => Stands.mono (exes := exes) fs (x := k) h

theorem FnOk.mono {exes more : List (List Instr)} {fn : Func} (h : FnOk exes fn) : FnOk (exes ++ more) fn := by
  obtain ⟨c, a, b⟩ := h
  exact ⟨c, get_append a, b⟩

theorem Stands.waits {exes : List (List Instr)} {fs gs : List Frame} {w k : Nat} {g : NFrame}
    (h : Stands exes w fs) (hw : Waits w fs k g gs) : StandsAt exes k g ∧ Stands exes g.want gs := by
  cases hw with
  | normal => exact h
  | native => exact h

theorem fetch_eq {exes : List (List Instr)} {e i : Nat} {code : List Instr} (h : exes[e]? = some code) :
    VM.fetch exes e i = code[i]? := by
  simp [VM.fetch, h]

theorem running_step {s t : St W} (hl : Live s) (h : Running s) (hst : step L cap s = .run t) :
    Running t := by
  obtain ⟨f, fs, us, st, hf, hs, hu, hsh, -⟩ := hl.top
  obtain ⟨ins, hins⟩ := step_fetch hf hst
  have ht := step_trans (L := L) (cap := cap) hf hins hs hu hsh
  rw [hst] at ht
  have hfr := h.frames
  rw [hf] at hfr
  obtain ⟨⟨code, hcode, hpath⟩, hrest⟩ := hfr
  rw [fetch_eq hcode] at hins
  obtain ⟨p, hw, rfl⟩ := h.exes _ _ hcode
  have hpath' : Path (compile p) f.idx (f.used : Int) := by
    have e : ((f.used : Int) + ((0 : Nat) : Int)) = f.used := by simp
    rw [e] at hpath; exact hpath
  have htn := ins.takes_le_needs
  cases ht with
  | stay us' idx hne hnx hul _ hfr' hstk hex hfn =>
    simp only [Nat.add_sub_cancel] at hnx
    have hne' : ins.needs ≤ f.used := hne
    refine ⟨by rw [hex]; exact h.exes, ?_, ?_⟩
    · intro r fn hr
      rw [hex]
      rcases hfn with hfn | ⟨a, n, nm, r', hi, hfn⟩
      · rw [hfn] at hr; exact h.funcs r fn hr
      · rw [hfn] at hr
        by_cases hrr : r = r'
        · simp only [if_pos hrr, Option.some.injEq] at hr
          subst hr
          subst hi
          exact ⟨_, hcode, .entry hins rfl⟩
        · simp only [if_neg hrr] at hr
          exact h.funcs r fn hr
    · rw [hex, hfr']
      refine ⟨⟨_, hcode, ?_⟩, hrest⟩
      have hp := Path.step hpath' hins hnx
      have e : ((us'.length : Nat) : Int) + ((0 : Nat) : Int) = (f.used : Int) - ins.takes + ins.gives := by
        rw [hul]
        dsimp only
        omega
      show Path _ idx (((us'.length : Nat) : Int) + ((0 : Nat) : Int))
      rw [e]
      exact hp
  | call argc want args hh nat hi hne hc ha hfr' hstk hfn =>
    subst hi
    have hne' : argc + 1 ≤ f.used := hne
    have hcaller : Path (compile p) (f.idx + 1) (((f.used - (argc + 1) : Nat) : Int) + want) := by
      have hp := Path.step (t := f.idx + 1) hpath' hins (List.mem_singleton.2 rfl)
      have e : ((f.used - (argc + 1) : Nat) : Int) + want =
          (f.used : Int) - ((argc + 1 : Nat) : Int) + (want : Int) := by omega
      rw [e]
      exact hp
    cases hc with
    | noja hr he hix hus hwant hex =>
      refine ⟨by rw [hex]; exact h.exes, by rw [hfn, hex]; exact h.funcs, ?_⟩
      rw [hex, hfr']
      obtain ⟨c, hc1, hc2⟩ := h.funcs _ _ hr
      refine ⟨⟨c, by rw [he]; exact hc1, ?_⟩, ?_⟩
      · rw [hix, hus]
        simpa using hc2
      · rw [hwant]
        exact ⟨⟨_, hcode, hcaller⟩, hrest⟩
    | load hp he hix hus hwant hex =>
      rename_i q
      refine ⟨?_, ?_, ?_⟩
      · rw [hex]
        intro e c hc
        by_cases hlt : e < s.exes.length
        · rw [List.getElem?_append_left hlt] at hc
          exact h.exes e c hc
        · rw [List.getElem?_append_right (by omega)] at hc
          obtain ⟨hl', hc⟩ := List.getElem?_eq_some_iff.1 hc
          simp only [List.getElem_singleton] at hc
          exact ⟨q, hp, hc.symm⟩
      · rw [hfn, hex]
        exact fun r fn hr => (h.funcs r fn hr).mono
      · rw [hex, hfr']
        refine ⟨⟨compile q, ?_, ?_⟩, ?_⟩
        · rw [he]; simp
        · rw [hix, hus]; exact Path.start
        · exact ⟨⟨_, get_append hcode, hcaller⟩, hrest.mono⟩
  | back k g gs vs hi hwt hv hfr' hstk hex hfn =>
    refine ⟨by rw [hex]; exact h.exes, by rw [hfn, hex]; exact h.funcs, ?_⟩
    rw [hex, hfr']
    obtain ⟨⟨c, hc1, hc2⟩, hg2⟩ := hrest.waits hwt
    refine ⟨⟨c, hc1, ?_⟩, hg2⟩
    have e : ((g.used + k : Nat) : Int) + ((0 : Nat) : Int) = (g.used : Int) + k := by omega
    show Path c g.idx (((g.used + k : Nat) : Int) + ((0 : Nat) : Int))
    rw [e]
    exact hc2

theorem running_run : ∀ (n : Nat) {s t : St W}, Live s → Running s → runN L cap n s = .run t → Running t
  | 0, s, t, _, h, hr => by cases hr; exact h
  | n + 1, s, t, hl, h, hr => by
    rw [runN_succ] at hr
    cases hs : step L cap s with
    | run u => rw [hs] at hr; exact running_run n (live_step hl hs) (running_step hl h hs) hr
    | _ => rw [hs] at hr; cases hr

theorem running_boot {e : Nat} {s t : St W} (hs : s.frames = []) (hfn : ∀ r, s.funcs r = none)
    (hex : Compiled s.exes) (he : e < s.exes.length) (h : boot L cap e s = .run t) : Running t := by
  have := enter_post (L := L) (cap := cap) (exe := e) (addr := 0) (closure := none) (want := 0) (args := []) (s := s)
    (Q := Running) (fun w locals vs hv => by
      refine ⟨hex, ?_, ?_⟩
      · intro r fn hr
        have := hfn r
        dsimp only at hr
        rw [this] at hr; cases hr
      · show Stands s.exes 0 (_ :: s.frames)
        rw [hs]
        exact ⟨⟨_, List.getElem?_eq_getElem he, .start⟩, trivial⟩)
  unfold boot at h
  rw [h] at this
  exact this

/-- A machine that runs generated code (and any code that programs load while running) always
stands at an instruction, and the frame holds the values that this instruction needs: no pop finds
the frame empty, and execution never runs past the end. (Example: `VM/Demo.lean`.) -/
theorem C41_running {s₀ s₁ s : St W} {e n : Nat} (h₀ : s₀.frames = []) (hfn : ∀ r, s₀.funcs r = none)
    (hex : Compiled s₀.exes) (he : e < s₀.exes.length) (hb : boot L cap e s₀ = .run s₁)
    (hn : runN L cap n s₁ = .run s) :
    ∃ f fs code ins, s.frames = .normal f :: fs ∧ s.exes[f.exe]? = some code ∧
      code[f.idx]? = some ins ∧ ins.needs ≤ f.used ∧ (∀ k, ins = .ret k → f.used = k) ∧
      (ins = .exit → f.used = 0) := by
  have hl := live_boot h₀ hb
  have hr := running_run n hl (running_boot h₀ hfn hex he hb) hn
  obtain ⟨f, fs, us, st, hf, -⟩ := (live_run n hl hn).top
  have hfr := hr.frames
  rw [hf] at hfr
  obtain ⟨⟨code, hcode, hpath⟩, -⟩ := hfr
  obtain ⟨p, hw, rfl⟩ := hr.exes _ _ hcode
  obtain ⟨ins, hins⟩ := C41_inside hw hpath
  obtain ⟨a, b, c⟩ := C40_needs hw hpath hins
  refine ⟨f, fs, _, ins, hf, hcode, hins, by omega, fun k hk => ?_, fun hx => ?_⟩
  · have := b k hk; omega
  · have := c hx; omega

/-- In the states of such machines the number of values in a frame depends only on the instruction
at which it stands. (Example: `VM/Demo.lean`.) -/
theorem C40_running {s₀ s₁ s s₀' s₁' s' : St W} {e n e' n' : Nat} {f f' : NFrame} {fs fs' : List Frame}
    (h₀ : s₀.frames = []) (hfn : ∀ r, s₀.funcs r = none)
    (hex : Compiled s₀.exes) (he : e < s₀.exes.length) (hb : boot L cap e s₀ = .run s₁)
    (hn : runN L cap n s₁ = .run s)
    (h₀' : s₀'.frames = []) (hfn' : ∀ r, s₀'.funcs r = none)
    (hex' : Compiled s₀'.exes) (he' : e' < s₀'.exes.length) (hb' : boot L cap e' s₀' = .run s₁')
    (hn' : runN L cap n' s₁' = .run s')
    (hf : s.frames = .normal f :: fs) (hf' : s'.frames = .normal f' :: fs')
    (hcode : s.exes[f.exe]? = s'.exes[f'.exe]?) (hidx : f.idx = f'.idx) : f.used = f'.used := by
  have hr := (running_run n (live_boot h₀ hb) (running_boot h₀ hfn hex he hb) hn)
  have hr' := (running_run n' (live_boot h₀' hb') (running_boot h₀' hfn' hex' he' hb') hn')
  have a := hr.frames
  have a' := hr'.frames
  rw [hf] at a
  rw [hf'] at a'
  obtain ⟨⟨c, hc, hp⟩, -⟩ := a
  obtain ⟨⟨c', hc', hp'⟩, -⟩ := a'
  rw [hc, hc'] at hcode
  cases hcode
  obtain ⟨p, hw, rfl⟩ := hr.exes _ _ hc
  rw [← hidx] at hp'
  have := (C40_depth hw hp hp').1
  omega

end Noja.VM
