import Verif.VM.Book.End
import Verif.VM.TestCompile

/-!
# Runtime tests from their text to their verdict (C106)

`C106_runtime_text`: if the field `bytecode` of a runtime test is assembled to the code of a program, then the test passes exactly
if what the manual of the language says that the program writes is what is expected.  The interpreter is the one of C90_partial.
-/

set_option linter.unusedVariables false

namespace Noja.TestRun

open Noja.TestFile Noja.VM

/-- `runtime` -/
def runtimeName : Text := [114, 117, 110, 116, 105, 109, 101]
/-- `output` -/
def outputName : Text := [111, 117, 116, 112, 117, 116]

open Classical in
/-- The instructions in an executable. -/
noncomputable def codeOf (e : Exe.Executable) : Option (List Instr) :=
  if h : ∃ code : List Instr, ∀ i, Exe.fetch e i = (code[i]?).map Instr.encode then some h.choose else none

theorem codeOf_eq {e : Exe.Executable} {code : List Instr} (h : ∀ i, Exe.fetch e i = (code[i]?).map Instr.encode) : codeOf e = some code := by
  have hx : ∃ code : List Instr, ∀ i, Exe.fetch e i = (code[i]?).map Instr.encode := ⟨code, h⟩
  unfold codeOf
  rw [dif_pos hx]
  congr 1
  apply List.ext_getElem?
  intro i
  have h1 := hx.choose_spec i
  rw [h i] at h1
  generalize hx.choose = other at h1
  cases q : code[i]? with
  | none =>
    rw [q] at h1
    cases q' : other[i]? with
    | none => rfl
    | some b => rw [q'] at h1; cases h1
  | some a =>
    rw [q] at h1
    cases q' : other[i]? with
    | none => rw [q'] at h1; cases h1
    | some b =>
      rw [q'] at h1
      rw [Instr.encode_inj a b (Option.some.inj h1)]

/-- main.c:98-127, run.c:1190-1240 `runBytecodeString`: what the program writes, or nothing if there is an error.  `M` is what the machine
does with code. -/
noncomputable def interpretBy (M : List Instr → Status World) (asm : Text → Exec Exe.Executable) (t : Text) : Exec (Option (List UInt8)) :=
  match asm t with
  | .ub => .ub
  | .diverge => .diverge
  | .err => .ok none
  | .ok e =>
    match codeOf e with
    | none => .ub
    | some code =>
      match M code with
      | .done _ s => .ok (some s.w.out)
      | .err _ => .ok none
      | .limit _ => .ok none
      | .run _ => .diverge
      | .ub => .ub

/-- The same for the machine without tables and collections.  `start.noja` has ended in the state `u`, and `k` steps are made. -/
noncomputable def interpret (fl : Book.Floats) (cap : Nat) (u : St World) (asm : Text → Exec Exe.Executable) (k : Nat) :
    Text → Exec (Option (List UInt8)) :=
  interpretBy (fun code => Book.client fl cap u code k) asm

theorem interpretBy_eq (M : List Instr → Status World) {asm : Text → Exec Exe.Executable} {t : Text} {e : Exe.Executable} (ha : asm t = .ok e)
    {code : List Instr} (hf : ∀ i, Exe.fetch e i = (code[i]?).map Instr.encode) :
    interpretBy M asm t =
      match M code with
      | .done _ s => .ok (some s.w.out)
      | .err _ => .ok none
      | .limit _ => .ok none
      | .run _ => .diverge
      | .ub => .ub := by
  unfold interpretBy
  rw [ha]
  dsimp only
  rw [codeOf_eq hf]

/-- A runtime test has the verdict of its function. -/
theorem runtime_verdict (nul : Bool) (comp asm : Text → Exec Exe.Executable) (made : Bool × Bool) (run : Text → Exec (Option (List UInt8)))
    {s rest code expected : Text} {fs : List (Text × Text)} (hr : Reads s fs rest)
    (hd : (fs.map Prod.fst).Nodup) (hw : ∀ c ∈ rest, Blank c) (hn : fs.length < 8) (h1 : (typeName, runtimeName) ∈ fs)
    (h2 : (bytecodeName, code) ∈ fs) (h3 : (outputName, expected) ∈ fs) {v : Result} (hv : runRuntimeTest nul run [code, expected] = .ok v) :
    ∃ w t, runTestString (testTypes nul comp asm made run) s = .ok ⟨v, w, t⟩ ∧ Freed t := by
  have hbody : [bytecodeName, outputName].map (bodyOf fs) = [code, expected].map some := by
    rw [List.map_cons, List.map_cons, bodyOf_of_mem hd h2, bodyOf_of_mem hd h3]
    rfl
  have hc : Calls (testTypes nul comp asm made run) fs ⟨runtimeName, [bytecodeName, outputName], runRuntimeTest nul run⟩ [code, expected] := by
    refine .mk (pre := [_]) (post := []) rfl (bodyOf_of_mem hd h1) (fun k hk => ?_) hbody
    cases List.mem_singleton.1 hk
    dsimp only
    decide
  obtain ⟨t, ht, hfr⟩ := (C104_partial (testTypes_fair nul comp asm made run) hr hd (.void hw) hn nofun).2.2 rfl _ _ _ hc hv
  exact ⟨_, t, ht, hfr⟩

/-- A runtime test with the code of a program passes exactly if the manual says that the program writes what is expected; it is
aborted if the manual says that the program stops with an error.  (The program does not meet a limit of the interpreter and
writes less than 1024 bytes, none of them zero.) -/
theorem C106_runtime_text (nul : Bool) (comp : Text → Exec Exe.Executable) (made : Bool × Bool) (fl : Book.Floats)
    (fltA : Bool → List UInt8 → List UInt8 → BitVec 64) (past : UInt8) {cap n : Nat} {vs : List Ref} {u : St World}
    (hb : Book.boot fl cap n = .done vs u) {s rest code expected : Text} {fs : List (Text × Text)} (hr : Reads s fs rest)
    (hd : (fs.map Prod.fst).Nodup) (hw : ∀ c ∈ rest, Blank c) (hn : fs.length < 8) (h1 : (typeName, runtimeName) ∈ fs)
    (h2 : (bytecodeName, code) ∈ fs) (h3 : (outputName, expected) ∈ fs) {e : Exe.Executable} (ha : assembled fltA past code = .ok e)
    (p : Stmts) (hp : p.wf false = true) (hf : ∀ i, Exe.fetch e i = ((compile p)[i]?).map Instr.encode)
    (hlim : ∀ k t, Book.client fl cap u (compile p) k ≠ .limit t) (fuel : Nat) :
    (∀ σ o, Book.run fuel p = .ok σ o → σ.out.length < 1024 → 0 ∉ σ.out →
      ∃ k w t, runTestString (testTypes nul comp (assembled fltA past) made (interpret fl cap u (assembled fltA past) k)) s =
        .ok ⟨if σ.out = expected then .passed else .failed, w, t⟩ ∧ Freed t) ∧
    (∀ o, Book.run fuel p = .err o →
      ∃ k w t, runTestString (testTypes nul comp (assembled fltA past) made (interpret fl cap u (assembled fltA past) k)) s =
        .ok ⟨.aborted, w, t⟩ ∧ Freed t) := by
  have hin : ∀ k, interpret fl cap u (assembled fltA past) k code = _ := fun k => interpretBy_eq (fun code => Book.client fl cap u code k) ha hf
  have hag := ((Book.C90_program_partial fl hb p hp fuel).resolve_left fun ⟨k, t, q⟩ => hlim k t q).1
  have fin := fun k v hv => runtime_verdict nul comp (assembled fltA past) made (interpret fl cap u (assembled fltA past) k) hr hd hw hn h1 h2 h3
    (v := v) hv
  refine ⟨fun σ o hrun hl hz => ?_, fun o hrun => ?_⟩
  · rw [hrun] at hag
    obtain ⟨k, rs, v, hk, ho⟩ : ∃ k rs v, Book.client fl cap u (compile p) k = .done rs v ∧ v.w.out = σ.out := by
      cases o with
      | none =>
        obtain ⟨r, v, ⟨k, hk⟩, ho⟩ := hag
        exact ⟨k, _, v, hk, by rw [ho]; rfl⟩
      | some vs =>
        obtain ⟨rs, v, ⟨k, hk⟩, ho, -⟩ := hag
        exact ⟨k, rs, v, hk, by rw [ho]; rfl⟩
    refine ⟨k, fin k _ ((C106_runtime_partial nul expected).2 σ.out ?_ hl hz)⟩
    rw [hin, hk]
    dsimp only
    rw [ho]
  · rw [hrun] at hag
    obtain ⟨v, ⟨k, hk⟩, -⟩ := hag
    refine ⟨k, fin k _ ((C106_runtime_partial nul expected).1 ?_)⟩
    rw [hin, hk]

/-! ## An example -/

/-- `print(7);` -/
def seven : Stmts := .cons (.expr (.call (.fn (.ident [112, 114, 105, 110, 116]) (.cons (.int 7) .nil)))) .nil

/-- Its code. -/
def sevenProg : List (Exe.Opcode × List Exe.FOpd) :=
  [(.PUSHINT, [.int 7]), (.PUSHVAR, [.str [112, 114, 105, 110, 116]]), (.CALL, [.int 1, .int 1]), (.POP, [.int 1]), (.EXIT, [])]

theorem sevenProg_eq : sevenProg = (compile seven).map Instr.encode := by decide +kernel

theorem sevenProg_program : Asm.Program sevenProg := by
  have hz : (0 : UInt8) ∉ ([112, 114, 105, 110, 116] : List UInt8) := by decide
  have hi : ∀ v : Int, v = 7 ∨ v = 1 → -2 ^ 63 ≤ v ∧ v < 2 ^ 63 := by
    rintro v (rfl | rfl) <;> decide
  intro i hm
  simp only [sevenProg, List.mem_cons, List.not_mem_nil, or_false] at hm
  rcases hm with rfl | rfl | rfl | rfl | rfl
  · refine ⟨rfl, fun j t o ht ho => ?_, fun o ho => ?_⟩
    · match j, ht, ho with
      | 0, ht, ho => cases ht; cases ho; trivial
      | j + 1, ht, ho => cases ht
    · cases List.mem_singleton.1 ho; exact hi 7 (.inl rfl)
  · refine ⟨rfl, fun j t o ht ho => ?_, fun o ho => ?_⟩
    · match j, ht, ho with
      | 0, ht, ho => cases ht; cases ho; trivial
      | j + 1, ht, ho => cases ht
    · cases List.mem_singleton.1 ho; exact hz
  · refine ⟨rfl, fun j t o ht ho => ?_, fun o ho => ?_⟩
    · match j, ht, ho with
      | 0, ht, ho => cases ht; cases ho; trivial
      | 1, ht, ho => cases ht; cases ho; trivial
      | j + 2, ht, ho => cases ht
    · rcases List.mem_cons.1 ho with rfl | ho
      · exact hi 1 (.inr rfl)
      · cases List.mem_singleton.1 ho; exact hi 1 (.inr rfl)
  · refine ⟨rfl, fun j t o ht ho => ?_, fun o ho => ?_⟩
    · match j, ht, ho with
      | 0, ht, ho => cases ht; cases ho; trivial
      | j + 1, ht, ho => cases ht
    · cases List.mem_singleton.1 ho; exact hi 1 (.inr rfl)
  · refine ⟨rfl, fun j t o ht ho => ?_, fun o ho => ?_⟩
    · cases ho
    · cases ho

theorem sevenProg_writable : ∀ i ∈ sevenProg, ∀ o ∈ i.2, Asm.Writable (fun _ _ _ => 0) noNum o := by
  have h7 : (7 : Int) ≠ -2 ^ 63 := by decide
  have h1 : (1 : Int) ≠ -2 ^ 63 := by decide
  have hs : ([112, 114, 105, 110, 116] : List UInt8).length ≤ 1024 := by decide
  intro i hm o ho
  simp only [sevenProg, List.mem_cons, List.not_mem_nil, or_false] at hm
  rcases hm with rfl | rfl | rfl | rfl | rfl
  · cases List.mem_singleton.1 ho; exact h7
  · cases List.mem_singleton.1 ho; exact hs
  · rcases List.mem_cons.1 ho with rfl | ho
    · exact h1
    · cases List.mem_singleton.1 ho; exact h1
  · cases List.mem_singleton.1 ho; exact h1
  · cases ho

/-- `@type[runtime]@bytecode[…]@output[7]` -/
def sevenTest : Text :=
  64 :: (typeName ++ 91 :: (runtimeName ++ 93 :: (64 :: (bytecodeName ++ 91 :: (Asm.print noNum 0 sevenProg ++ 93 ::
    (64 :: (outputName ++ [91, 55, 93])))))))

theorem sevenTest_reads : Reads sevenTest [(typeName, runtimeName), (bytecodeName, Asm.print noNum 0 sevenProg), (outputName, [55])] [] := by
  refine .cons (rest := 64 :: (bytecodeName ++ 91 :: (Asm.print noNum 0 sevenProg ++ 93 :: (64 :: (outputName ++ [91, 55, 93]))))) ?_
    (.cons (rest := 64 :: (outputName ++ [91, 55, 93])) ?_ (.cons ?_ .nil))
  · exact IsField.mk (ws := []) (name := typeName) (ws' := []) (by decide) (by decide) (by decide) (by intro c q; cases q; decide) (by decide)
      (by intro c q; cases q; decide) (.closed (b := runtimeName) (.inl rfl) (by decide) (by decide))
  · exact IsField.mk (ws := []) (name := bytecodeName) (ws' := []) (by decide) (by decide) (by decide) (by intro c q; cases q; decide) (by decide)
      (by intro c q; cases q; decide) (.closed (b := Asm.print noNum 0 sevenProg) (.inl rfl) (by decide +kernel) (by decide +kernel))
  · exact IsField.mk (ws := []) (name := outputName) (ws' := []) (by decide) (by decide) (by decide) (by intro c q; cases q; decide) (by decide)
      (by intro c q; cases q; decide) (.closed (b := [55]) (.inl rfl) (by decide) (by decide))

/-- What the manual says that a program writes. -/
def wrote : Book.R (Option (List Book.Val)) → Option Text
  | .ok σ _ => some σ.out
  | _ => none

example : ∃ u k w t, runTestString (testTypes true (fun _ => .err) (assembled (fun _ _ _ => 0) 0) (true, true)
    (interpret Book.toy 1024 u (assembled (fun _ _ _ => 0) 0) k)) sevenTest = .ok ⟨.passed, w, t⟩ ∧ Freed t := by
  have hb : (match Book.boot Book.toy 1024 1000 with
      | .done _ u => Book.isDone (Book.client Book.toy 1024 u (compile seven) 100)
      | _ => false) = true := by decide +kernel
  cases hs : Book.boot Book.toy 1024 1000 with
  | done vs u =>
    rw [hs] at hb
    dsimp only at hb
    have hr : wrote (@Book.run Book.toy 10 seven) = some [55] := by decide +kernel
    cases hrun : @Book.run Book.toy 10 seven with
    | ok σ o =>
      rw [hrun] at hr
      have hr : σ.out = [55] := Option.some.inj hr
      obtain ⟨e, a1, a2⟩ := Asm.C58_partial (fun _ _ _ => 0) 0 noNum sevenProg sevenProg_program sevenProg_writable
      have ha : assembled (fun _ _ _ => 0) 0 (Asm.print noNum 0 sevenProg) = .ok e := by
        unfold assembled
        rw [a1]
        rfl
      obtain ⟨k, w, t, h1, h2⟩ := (C106_runtime_text (expected := [55]) true (fun _ => .err) (true, true) Book.toy (fun _ _ _ => 0) 0 hs sevenTest_reads (by decide) nofun
        (by decide) (by decide) (by simp) (by simp) ha seven (by decide) (fun i => by rw [a2, sevenProg_eq, List.getElem?_map]) (fun k t q => by
          cases hd : Book.client Book.toy 1024 u (compile seven) 100 with
          | done rs v => cases start_stable hd q nofun nofun
          | _ => rw [hd] at hb; cases hb) 10).1 σ o hrun (by rw [hr]; decide) (by rw [hr]; decide)
      rw [if_pos hr] at h1
      exact ⟨u, k, w, t, h1, h2⟩
    | _ => rw [hrun] at hr; cases hr
  | _ => rw [hs] at hb; cases hb

end Noja.TestRun
