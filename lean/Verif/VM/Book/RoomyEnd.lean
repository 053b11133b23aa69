import Verif.VM.Book.Roomy
import Verif.VM.Book.Restrict
import Verif.VM.TablesEnd

/-!
# The manual, with the tables that maps have, for programs whose maps do not lose keys

`C90_tables_partial` excludes the programs whose watched meaning is undefined, a condition on the states
of the machine. Here it is replaced by one that the book can state: whenever a program inserts in a map
or gives a value to a variable, the keys of the map or the names in the scope are `roomy`.
-/

set_option linter.unusedVariables false
set_option linter.unusedSimpArgs false

namespace Noja.VM.Book

open Noja.Graph (Obj Kind Heap Text text)
open Noja.Parse (Split Program)

/-- If the keys are as `few` asks, the watched meaning of a program that the book describes is defined. -/
theorem watched_defined [Floats] {S : Setup} {e : Emb} {σ : Store} {s : SSt World} (ok : S.Ok) (hi : Inv S e σ s) (hB : Tame S.C)
    (hL : Loud S.C) (hf : S.pos = few) {t : Ref → Map.MObj Ref Ref} (ht : TH ⟨s.w, t⟩) (p : Stmts) (fuel : Nat)
    (hy : mean S.fine S.lib fuel p σ ≠ .off) : p.mean (tables (std S.C) true) fuel ⟨⟨s.w, t⟩, s.funs⟩ ≠ .ub := by
  have h1 : Sim S [] e s Final (p.mean (LG S) fuel s) (mean S.fine S.lib fuel p σ) := mean_sim ok fuel p hi
  have h2 := Refine.mean_refine (guarded_tables hB hL) p fuel s.funs (show Rt ⟨s.w, t⟩ s.w from ⟨rfl, ht⟩)
  rw [← hf] at h2
  have h2 : Refine.RRef (fun w x => Rt x w) (p.mean (LG S) fuel s) (p.mean (tables (std S.C) true) fuel ⟨⟨s.w, t⟩, s.funs⟩) := h2
  intro hub
  rw [hub] at h2
  cases hr : mean S.fine S.lib fuel p σ with
  | off => exact hy hr
  | ok σ' b =>
    rw [hr] at h1
    obtain ⟨s', a, e', hx, -⟩ := h1
    rw [hx] at h2
    obtain ⟨v, h3, -⟩ := h2
    cases h3
  | err o =>
    rw [hr] at h1
    obtain ⟨w, hx, -⟩ := h1
    rw [hx] at h2
    obtain ⟨v, h3, -⟩ := h2
    cases h3
  | more =>
    rw [hr] at h1
    have hx : p.mean (LG S) fuel s = .more := h1
    rw [hx] at h2
    cases h2

theorem machineG_sim [Floats] {S : Setup} {e : Emb} {σ : Store} {w : World} {funs : Ref → Option FunDef} (ok : S.Ok)
    (hi : Inv S e σ ⟨w, funs⟩) {C : Config} {lib : List Nat} {fine : List Key → Bool} {pre : Text} (hC : S.C = C)
    (hl : S.lib = lib) (hfine : S.fine = fine) (hp : S.pre = pre) (hf : S.pos = few)
    (hB : Tame C) (hL : Loud C) {t : Ref → Map.MObj Ref Ref} (ht : TH ⟨w, t⟩) (cap : Nat) (p : Stmts)
    (hw : p.wf false = true) (fn : Ref → Option Func) (exes : List (List Instr)) (hrel : Rel exes fn funs)
    (st : List Ref) (fuel : Nat) :
    (∃ k u, start (tables (std C) false) cap exes.length ⟨⟨w, t⟩, fn, exes ++ [compile p], st, []⟩ k = .limit u) ∨
    (Agrees pre (fun x => ∃ k, bareStatus (start (tables (std C) false) cap exes.length
        ⟨⟨w, t⟩, fn, exes ++ [compile p], st, []⟩ k) = x) (mean fine lib fuel p σ) ∧
      (mean fine lib fuel p σ = .more →
        ∃ u, start (tables (std C) false) cap exes.length ⟨⟨w, t⟩, fn, exes ++ [compile p], st, []⟩ fuel = .run u)) := by
  subst hC hl hfine hp
  rcases machineT_sim ok hi hB ht cap p hw fn exes hrel st fuel with h | h | h
  · exact .inl h
  · by_cases hy : mean S.fine S.lib fuel p σ = .off
    · rw [hy]
      exact .inr ⟨trivial, nofun⟩
    · exact absurd h (watched_defined ok hi hB hL hf ht p fuel hy)
  · exact .inr h

theorem Based.loud {B : Config} (h : Based B) (fl : Floats) : Loud (printing fl B) where
  slot t n f w q := by
    have q : B.slot t n = some f := q
    rw [h.slot] at q
    cases q
  selectX o k w _ := by
    show Stays (B.selectX o k w)
    rw [h.selectX]
    exact rfl

/-- C90, with tables, for programs: once `start.noja` has run, the machine, with the tables that maps have, does with a
program what the book says if the keys of its maps and the names in its scopes are `roomy` whenever it inserts there, or
it reports that one of its limits (of the stack, of nested calls, of arguments) was met. -/
theorem C90_roomy_partial (fl : Floats) {cap n : Nat} {vs : List Ref} {u : St TWorld}
    (h : bootT fl cap n = .done vs u) (p : Stmts) (hw : p.wf false = true) (fuel : Nat) :
    (∃ k t, clientT fl cap u (compile p) k = .limit t) ∨
    (Agrees [] (fun x => ∃ k, bareStatus (clientT fl cap u (compile p) k) = x) (runIf roomy fuel p) ∧
      (runIf roomy fuel p = .more → ∃ t, clientT fl cap u (compile p) fuel = .run t)) := by
  obtain ⟨-, h1, h2, h3⟩ := bootT_result fl h
  rw [← state_funs] at h3
  have hp : pluggedT u.w = ⟨Start.state.w, u.w.t⟩ := by
    unfold pluggedT
    rw [state_w, h1]
  have ht : TH ⟨Start.state.w, u.w.t⟩ := by
    rw [← hp]
    refine TH.keep h2 ?_
    exact newClosure_keep _ _ _
  rw [runIf_eq]
  rcases startUp_inv fl roomy few with hs | ⟨σ, a, e, hs, hi⟩
  · rw [hs]
    exact .inr ⟨trivial, nofun⟩
  · rw [hs]
    rw [← state_w, ← state_funs] at hi
    have h4 := machineG_sim (clientSetup_ok fl a roomy_few) hi rfl rfl rfl rfl rfl (based_config.tame fl)
      (based_config.loud fl) ht cap p hw u.funcs u.exes h3 [] fuel
    rw [← hp] at h4
    exact h4

/-- C90, with tables, for texts. -/
theorem C90_roomy_text_partial (flt : List UInt8 → Option (BitVec 64)) (fl : Floats) (past : UInt8) {cap n : Nat}
    {vs : List Ref} {u : St TWorld} (h : bootT fl cap n = .done vs u) (src : List UInt8) (x : Exe.Executable)
    (hx : compileText flt past src = .ok x) :
    ∃ ts root p code, Split src 0 ts ∧ Program flt ts root ∧ root.elab false = some p ∧
      x.body.length = code.length ∧ (∀ i, Exe.fetch x i = (code[i]?).map Instr.encode) ∧
      ∀ fuel, (∃ k t, clientT fl cap u code k = .limit t) ∨
        (Agrees [] (fun y => ∃ k, bareStatus (clientT fl cap u code k) = y) (runIf roomy fuel p) ∧
          (runIf roomy fuel p = .more → ∃ t, clientT fl cap u code fuel = .run t)) := by
  obtain ⟨ts, root, p, h1, h2, h3, h4, h5⟩ := C84_only flt past src x hx
  exact ⟨ts, root, p, compile p, h1, h2, h3, h4, h5, fun fuel => C90_roomy_partial fl h p (root.elab_wf false p h3) fuel⟩

/-- C90, with tables: a program whose maps and scopes are all roomy does what the manual of the language says. -/
theorem C90_roomy_run_partial (fl : Floats) {cap n : Nat} {vs : List Ref} {u : St TWorld}
    (h : bootT fl cap n = .done vs u) (p : Stmts) (hw : p.wf false = true) (fuel : Nat) (hr : runIf roomy fuel p ≠ .off) :
    (∃ k t, clientT fl cap u (compile p) k = .limit t) ∨
    (Agrees [] (fun x => ∃ k, bareStatus (clientT fl cap u (compile p) k) = x) (run fuel p) ∧
      (run fuel p = .more → ∃ t, clientT fl cap u (compile p) fuel = .run t)) := by
  have h1 := C90_roomy_partial fl h p hw fuel
  rw [(runIf_run roomy fuel p).resolve_left hr] at h1
  exact h1

/-! ## Examples -/

attribute [local instance] toy

/-- `e = 1; f = 2; …; j = 6; print({0: e, 1: f, 2: g, 3: h, 4: i, 5: j});` -/
def sixLow : Stmts :=
  .cons (.expr (.assign (.var [101]) (.int 1))) <| .cons (.expr (.assign (.var [102]) (.int 2))) <|
  .cons (.expr (.assign (.var [103]) (.int 3))) <| .cons (.expr (.assign (.var [104]) (.int 4))) <|
  .cons (.expr (.assign (.var [105]) (.int 5))) <| .cons (.expr (.assign (.var [106]) (.int 6))) <|
  .cons (.expr (.call (.fn (.ident [112, 114, 105, 110, 116]) (.cons (.map
    (.cons (.int 0) (.ident [101]) <| .cons (.int 1) (.ident [102]) <| .cons (.int 2) (.ident [103]) <|
      .cons (.int 3) (.ident [104]) <| .cons (.int 4) (.ident [105]) <| .cons (.int 5) (.ident [106]) .nil)) .nil)))) .nil

/-- The variables of `sixLow` and its map outgrow their tables, and the book says what the program writes:
`{0: 1, 1: 2, 2: 3, 3: 4, 4: 5, 5: 6}`. -/
example : (match runIf roomy 10 sixLow with
    | .ok σ none => some σ.out
    | _ => none) = some (text "{0: 1, 1: 2, 2: 3, 3: 4, 4: 5, 5: 6}") := by decide +kernel

/-- `sixLow` meets the hypothesis of `C90_roomy_run_partial`. -/
example : sixLow.wf false = true ∧ runIf roomy 10 sixLow ≠ .off := by
  refine ⟨by decide +kernel, fun h => ?_⟩
  have h1 : (match runIf roomy 10 sixLow with
    | .off => true
    | _ => false) = false := by decide +kernel
  rw [h] at h1
  cases h1

/-- Nothing is said about `sixVars`, which loses a variable. -/
example : (match runIf roomy 10 sixVars with
    | .off => true
    | _ => false) = true := by decide +kernel

end Noja.VM.Book
