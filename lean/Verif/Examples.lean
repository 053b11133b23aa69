import Verif.VM.Demo
import Verif.VM.Failed
import Verif.Util.TestRun
import Verif.Builtin.Socket
import Verif.Builtin.Text

/-!
# More examples: cases that meet the hypotheses of theorems (C12, C39, C40, C41, C42, C71, C106, C108)
-/

namespace Noja.VM.Demo

open Noja.VM Noja.Exe

/-- The hypotheses of `C40_expr`: a way through `a and (b or f)`, put at 3 with two values on the stack, to its end. -/
example : let e : Expr := .and (.ident a) (.or (.ident b) (.ident f))
    e.wf = true ∧ Walk (e.code 3) 3 2 (3 + (e.code 3).length) 3 := by
  refine ⟨rfl, ?_⟩
  have h := Walk.start (code := (Expr.and (.ident a) (.or (.ident b) (.ident f))).code 3) (p := 3) (x := 2)
  have h := Walk.step (t := 4) h (ins := .pushVar a) (by decide) rfl (by decide)
  have h := Walk.step (t := 15) h (ins := .jumpIfNot 15) (by decide) rfl (by decide)
  exact Walk.step (t := 16) h (ins := .pushFls) (by decide) rfl (by decide)

/-- The hypotheses of `C40_stmt`: the `break` there, and where it leads. -/
example : let s : Stmt := .ifElse (.ident a) .brk (.expr (.ident b))
    s.wf (some 40).isSome = true ∧ (∀ x, some 40 = some x → x < 7 ∨ 7 + (s.code (some 40) 7).length ≤ x) ∧ Walk (s.code (some 40) 7) 7 0 40 0 := by
  refine ⟨rfl, fun x hx => by cases hx; decide, ?_⟩
  have h := Walk.start (code := (Stmt.ifElse (.ident a) .brk (.expr (.ident b))).code (some 40) 7) (p := 7) (x := 0)
  have h := Walk.step (t := 8) h (ins := .pushVar a) (by decide) rfl (by decide)
  have h := Walk.step (t := 9) h (ins := .jumpIfNot 11) (by decide) rfl (by decide)
  exact Walk.step (t := 40) h (ins := .jump 40) (by decide) rfl (by decide)

/-- `while a: break;`, with positions. -/
def raw : RStmts := .cons (.while (.ident a ⟨6, 1⟩) (.brk ⟨9, 6⟩) ⟨0, 15⟩) .nil

/-- The hypotheses of `C41_executable`. -/
example : (∃ evs, codegen raw 15 = .ok evs) ∧ (∃ p, raw.elab false = some p) ∧
    ∀ p, raw.elab false = some p → ∀ i ∈ compile p, ∀ s, FOpd.str s ∈ i.encode.2 → (0 : UInt8) ∉ s := by
  refine ⟨⟨_, rfl⟩, ⟨_, rfl⟩, fun p hp i hi s hs => ?_⟩
  have : p = .cons (.while (.ident a) .brk) .nil := (Option.some.inj hp).symm
  subst this
  have hl : compile (.cons (.while (.ident a) .brk) .nil) = [.pushVar a, .jumpIfNot 4, .jump 4, .jump 0, .exit] := by decide
  rw [hl] at hi
  simp only [List.mem_cons, List.not_mem_nil, or_false] at hi
  rcases hi with rfl | rfl | rfl | rfl | rfl <;> simp [Instr.encode] at hs
  subst hs
  decide

/-- `while true: none;` -/
def spin : Stmts := .cons (.while .tru (.expr .none)) .nil

theorem while_more {W : Type} {c : M W Bool} {b : M W Ctl} {s : SSt W} (hc : c s = .ok s true) (hb : b s = .ok s .normal) :
    ∀ n, whileLoop n c b s = .more
  | 0 => rfl
  | n + 1 => by
    have : whileLoop (n + 1) c b s = whileLoop n c b s := by
      show M.bind c _ s = _
      unfold M.bind
      rw [hc]
      dsimp only
      rw [if_pos rfl]
      show M.bind b _ s = _
      unfold M.bind
      rw [hb]
    rw [this]
    exact while_more hc hb n

theorem spin_more (fuel : Nat) : spin.mean L fuel ⟨world, fun _ => none⟩ = .more := by
  have key : ∀ (c : Ctx World) (s : SSt World), c.L = L → s.w.err = false → spin.run c s = .more := by
    intro c s hL he
    have h : (Stmt.while .tru (.expr .none)).eval c s = .more := by
      refine while_more ?_ rfl c.fuel
      show lift c.L (c.L.asBool c.L.tru) s = _
      rw [hL]
      unfold lift
      show (if s.w.err = true then _ else _) = _
      rw [he]
      rfl
    have : spin.run c s = .more := by
      show M.bind (M.bind _ _) _ s = _
      unfold M.bind
      rw [h]
    exact this
  exact key _ _ rfl rfl

/-- The hypotheses of `C42_divergence`, and what it says here: the program runs for ever. -/
example : (∀ n, ∃ t, start L 100 0 ⟨world, fun _ => none, [compile spin], [], []⟩ n = .run t) ∨
    ∃ n t, start L 100 0 ⟨world, fun _ => none, [compile spin], [], []⟩ n = .limit t :=
  C42_divergence (objects_lawful _) spin rfl world (fun _ => none) (fun _ => none) [] (fun _ => trivial) [] spin_more

end Noja.VM.Demo

namespace Noja.VM.Failed

/-- The hypotheses of `C39_hangs`: a call, an `import` that does not compile, two more calls of which one returns, and another such `import`. -/
example : ∃ r₁ r₂ r₃ r₄, runs new [.call] = .ok r₁ ∧ r₁.depth < maxFrames ∧ compileFails r₁ = .ok r₂ ∧ runs r₂ [.call, .call, .ret] = .ok r₃ ∧
    r₃.depth < maxFrames ∧ compileFails r₃ = .ok r₄ ∧ ∀ fuel, trace fuel r₄ = .diverge :=
  ⟨_, _, _, _, rfl, by decide, rfl, rfl, by decide, rfl,
    C39_hangs [.call] [.call, .call, .ret] rfl rfl _ _ _ _ rfl (by decide) rfl rfl (by decide) rfl⟩

end Noja.VM.Failed

namespace Noja.Str

/-- The hypotheses of `C12_string_partial`: "hé", twice. -/
example : ∃ s1 s2, fromString [104, 195, 169] 3 = .ok s1 ∧ fromString [104, 195, 169] 3 = .ok s2 ∧ (0 : UInt8) ∉ [(104 : UInt8), 195, 169] ∧
    opEql s1 s2 = .ok true := ⟨_, _, rfl, rfl, by decide, by decide⟩

end Noja.Str

namespace Noja.Builtin

/-- The hypotheses of `C71_conversions_partial`: a slice with the bytes of "é". -/
example : HasBytes ⟨[{ refs := 2, size := 4, body := [120, 195, 169, 121], frees := 0 }], [⟨0, 0, 4⟩, ⟨0, 1, 2⟩]⟩ 1 [195, 169] ∧
    Utf8.Units [[120], [195, 169]] ∧ (∀ c ∈ [233], Utf8.Spec.Valid c) ∧ [195, 169] = Utf8.Spec.encodeText [233] := by
  refine ⟨⟨_, _, rfl, by decide, rfl⟩, ?_, by simp [Utf8.Spec.Valid], by decide⟩
  have := Utf8.units_encodeText [120, 233] (by simp [Utf8.Spec.Valid])
  exact this

end Noja.Builtin

namespace Noja.Socket

/-- The hypotheses of `C108_bind_refused`: another family, and a text that is no address. -/
example : (toI32 10 ≠ inet ∨ ∃ a : List UInt8, none = some a ∧ (fun _ => true) a = false) ∧
    (toI32 2 ≠ inet ∨ ∃ a : List UInt8, some [120] = some a ∧ (fun (a : List UInt8) => a.all (· < 64)) a = false) :=
  ⟨.inl (by decide), .inr ⟨_, rfl, by decide⟩⟩

end Noja.Socket

namespace Noja.TestRun

open Noja.TestFile

/-- `@type[runtime]@bytecode[E]@output[7]` -/
theorem small_read : Reads ([64, 116, 121, 112, 101, 91, 114, 117, 110, 116, 105, 109, 101, 93, 64, 98, 121, 116, 101, 99, 111, 100, 101, 91, 69, 93, 64, 111, 117, 116, 112, 117, 116, 91, 55, 93])
    [(typeName, [114, 117, 110, 116, 105, 109, 101]), ([98, 121, 116, 101, 99, 111, 100, 101], [69]), ([111, 117, 116, 112, 117, 116], [55])] [] :=
  .cons (IsField.mk (ws := []) (name := typeName) (ws' := []) (by decide) (by decide) (by decide) (by intro c q; cases q; decide) (by decide)
      (by intro c q; cases q; decide) (.closed (b := [114, 117, 110, 116, 105, 109, 101]) (.inl rfl) (by decide) (by decide)))
    (.cons (IsField.mk (ws := []) (name := [98, 121, 116, 101, 99, 111, 100, 101]) (ws' := []) (by decide) (by decide) (by decide) (by intro c q; cases q; decide) (by decide)
      (by intro c q; cases q; decide) (.closed (b := [69]) (.inl rfl) (by decide) (by decide)))
    (.cons (IsField.mk (ws := []) (name := [111, 117, 116, 112, 117, 116]) (ws' := []) (by decide) (by decide) (by decide) (by intro c q; cases q; decide) (by decide)
      (by intro c q; cases q; decide) (.closed (b := [55]) (.inl rfl) (by decide) (by decide))) .nil))

/-- The hypotheses of `C106_text`: this test passes if the program writes 7, and fails if it writes 8. -/
example (nul : Bool) (comp asm : Text → Exec Exe.Executable) (made : Bool × Bool) :
    (∃ w t, runTestString (testTypes nul comp asm made fun _ => .ok (some [55])) ([64, 116, 121, 112, 101, 91, 114, 117, 110, 116, 105, 109, 101, 93, 64, 98, 121, 116, 101, 99, 111, 100, 101, 91, 69, 93, 64, 111, 117, 116, 112, 117, 116, 91, 55, 93]) = .ok ⟨.passed, w, t⟩) ∧
    (∃ w t, runTestString (testTypes nul comp asm made fun _ => .ok (some [56])) ([64, 116, 121, 112, 101, 91, 114, 117, 110, 116, 105, 109, 101, 93, 64, 98, 121, 116, 101, 99, 111, 100, 101, 91, 69, 93, 64, 111, 117, 116, 112, 117, 116, 91, 55, 93]) = .ok ⟨.failed, w, t⟩) := by
  constructor
  · obtain ⟨w, t, h, -⟩ := C106_text nul comp asm made (fun _ => .ok (some [55])) small_read (by decide) nofun (by decide)
      (code := [69]) (expected := [55]) (out := [55]) (by decide) (by decide) (by decide) rfl (by decide) (by decide)
    exact ⟨w, t, h⟩
  · obtain ⟨w, t, h, -⟩ := C106_text nul comp asm made (fun _ => .ok (some [56])) small_read (by decide) nofun (by decide)
      (code := [69]) (expected := [55]) (out := [56]) (by decide) (by decide) (by decide) rfl (by decide) (by decide)
    exact ⟨w, t, h⟩

end Noja.TestRun
