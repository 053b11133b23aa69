import Verif.VM.Lines
import Verif.Asm.RoundTrip
import Verif.Util.TestRun

/-!
# Compiler tests from their text to their verdict (C106)

`C106_compiler_text`: the text of a compiler test is read as fields, the field `source` is compiled by the compiler of C84, the
field `bytecode` is assembled by the assembler of C58, and the test passes exactly if the grammar reads the source as a program
with these instructions.
-/

set_option linter.unusedVariables false

namespace Noja.TestRun

open Noja.TestFile

/-- `compiler` -/
def compilerName : Text := [99, 111, 109, 112, 105, 108, 101, 114]
/-- `source` -/
def sourceName : Text := [115, 111, 117, 114, 99, 101]
/-- `bytecode` -/
def bytecodeName : Text := [98, 121, 116, 101, 99, 111, 100, 101]

/-- `assemble` as the test tool uses it: an error that was reported is not looked at if there is an executable. -/
def assembled (flt : Bool → List UInt8 → List UInt8 → BitVec 64) (past : UInt8) (t : Text) : Exec Exe.Executable :=
  (Asm.assemble flt past t).bind fun r => .ok r.1

theorem bodyOf_of_mem : ∀ {fs : List (Text × Text)} {n b : Text}, (fs.map Prod.fst).Nodup → (n, b) ∈ fs → bodyOf fs n = some b
  | f :: fs, n, b, hd, hm => by
    rw [List.map_cons, List.nodup_cons] at hd
    unfold bodyOf
    rcases List.mem_cons.1 hm with rfl | hm
    · rw [List.find?_cons_of_pos (by simp)]
      rfl
    · rw [List.find?_cons_of_neg]
      · exact bodyOf_of_mem hd.2 hm
      · intro e
        have e : f.1 = n := of_decide_eq_true e
        exact hd.1 (e ▸ List.mem_map_of_mem (f := Prod.fst) hm)

/-- A compiler test passes exactly if the instructions written in it are those of the program: whatever the program, whatever the
instructions, if they can be written and compared (C58, C59). -/
theorem C106_compiler_text (nul : Bool) (run : Text → Exec (Option (List UInt8)))
    (fltC : List UInt8 → Option (BitVec 64)) (fltA : Bool → List UInt8 → List UInt8 → BitVec 64) (past past' : UInt8)
    {s rest src : Text} {fs : List (Text × Text)} (hr : Reads s fs rest) (hd : (fs.map Prod.fst).Nodup)
    (hw : ∀ c ∈ rest, Blank c) (hn : fs.length < 8) (num : BitVec 64 → Asm.Digits) (prog : List (Exe.Opcode × List Exe.FOpd))
    (h1 : (typeName, compilerName) ∈ fs) (h2 : (sourceName, src) ∈ fs) (h3 : (bytecodeName, Asm.print num 0 prog) ∈ fs)
    {ts : List Parse.Token} {root : VM.RStmts} {p : VM.Stmts} (hs : Parse.Split src 0 ts) (hg : Parse.Program fltC ts root)
    (he : root.elab false = some p) (hp : Asm.Program prog) (hwr : ∀ i ∈ prog, ∀ o ∈ i.2, Asm.Writable fltA num o)
    (p1 : ∀ i ∈ VM.compile p, ∀ a ∈ i.encode.2, Exe.Plain a ∧ ∀ x, a = .float x → Num.isNaN x = false)
    (p2 : ∀ i ∈ prog, ∀ a ∈ i.2, Exe.Plain a) :
    ∃ w t v, runTestString (testTypes nul (VM.compileText fltC past) (assembled fltA past') (true, true) run) s = .ok ⟨v, w, t⟩ ∧ Freed t ∧
      v ≠ .aborted ∧ (v = .passed ↔ prog = (VM.compile p).map VM.Instr.encode) := by
  obtain ⟨e1, c1, -, c3⟩ := VM.C84_compiled fltC past src ts root p hs hg he
  obtain ⟨e2, a1, a2⟩ := Asm.C58_partial fltA past' num prog hp hwr
  have ha : assembled fltA past' (Asm.print num 0 prog) = .ok e2 := by
    unfold assembled
    rw [a1]
    rfl
  have c3' : ∀ i, Exe.fetch e1 i = ((VM.compile p).map VM.Instr.encode)[i]? := fun i => by rw [c3, List.getElem?_map]
  obtain ⟨v, r1, r2, r3⟩ := (C106_compiler_partial (VM.compileText fltC past) (assembled fltA past') src (Asm.print num 0 prog)).2.2.2
    e1 e2 c1 ha (fun i o as hf a hm => by
      rw [c3'] at hf
      obtain ⟨ins, q1, q2⟩ := List.mem_map.1 (List.mem_of_getElem? hf)
      exact p1 ins q1 a (by rw [q2]; exact hm)) (fun i o as hf a hm => by
      rw [a2] at hf
      exact p2 _ (List.mem_of_getElem? hf) a hm)
  have hb : [sourceName, bytecodeName].map (bodyOf fs) = [src, Asm.print num 0 prog].map some := by
    rw [List.map_cons, List.map_cons, bodyOf_of_mem hd h2, bodyOf_of_mem hd h3]
    rfl
  have hc : Calls (testTypes nul (VM.compileText fltC past) (assembled fltA past') (true, true) run) fs
      ⟨compilerName, [sourceName, bytecodeName], runCompilerTest (VM.compileText fltC past) (assembled fltA past') (true, true)⟩
      [src, Asm.print num 0 prog] :=
    .mk (pre := []) (post := [_]) rfl (bodyOf_of_mem hd h1) nofun hb
  obtain ⟨t, ht, hf⟩ := (C104_partial (testTypes_fair nul (VM.compileText fltC past) (assembled fltA past') (true, true) run)
    hr hd (.void hw) hn nofun).2.2 rfl _ _ _ hc r1
  refine ⟨_, t, v, ht, hf, r2, r3.trans ?_⟩
  constructor
  · intro h
    apply List.ext_getElem?
    intro i
    rw [← a2, ← h, c3']
  · intro h i
    rw [c3', a2, h]

/-! ## An example -/

/-- `x = 1;` as instructions. -/
def oneProg : List (Exe.Opcode × List Exe.FOpd) :=
  [(.PUSHINT, [.int 1]), (.ASS, [.str [120]]), (.POP, [.int 1]), (.EXIT, [])]

/-- Floating point numbers do not occur. -/
def noNum : BitVec 64 → Asm.Digits := fun _ => ⟨false, [], []⟩

/-- `@type[compiler]@source[x = 1;]@bytecode[…]` -/
def oneTest : Text :=
  64 :: (typeName ++ 91 :: (compilerName ++ 93 :: (64 :: (sourceName ++ 91 :: ([120, 32, 61, 32, 49, 59] ++ 93 ::
    (64 :: (bytecodeName ++ 91 :: (Asm.print noNum 0 oneProg ++ [93]))))))))

theorem oneTest_reads : Reads oneTest [(typeName, compilerName), (sourceName, [120, 32, 61, 32, 49, 59]), (bytecodeName, Asm.print noNum 0 oneProg)] [] := by
  refine .cons (rest := 64 :: (sourceName ++ 91 :: ([120, 32, 61, 32, 49, 59] ++ 93 :: (64 :: (bytecodeName ++ 91 :: (Asm.print noNum 0 oneProg ++ [93])))))) ?_ (.cons (rest := 64 :: (bytecodeName ++ 91 :: (Asm.print noNum 0 oneProg ++ [93]))) ?_ (.cons ?_ .nil))
  · exact IsField.mk (ws := []) (name := typeName) (ws' := []) (by decide) (by decide) (by decide) (by intro c q; cases q; decide) (by decide)
      (by intro c q; cases q; decide) (.closed (b := compilerName) (.inl rfl) (by decide) (by decide))
  · exact IsField.mk (ws := []) (name := sourceName) (ws' := []) (by decide) (by decide) (by decide) (by intro c q; cases q; decide) (by decide)
      (by intro c q; cases q; decide) (.closed (b := [120, 32, 61, 32, 49, 59]) (.inl rfl) (by decide) (by decide))
  · exact IsField.mk (ws := []) (name := bytecodeName) (ws' := []) (by decide) (by decide) (by decide) (by intro c q; cases q; decide) (by decide)
      (by intro c q; cases q; decide) (.closed (b := Asm.print noNum 0 oneProg) (.inl rfl) (by decide +kernel) (by decide +kernel))

example : ∃ w t, runTestString (testTypes true (VM.compileText (fun _ => none) 0) (assembled (fun _ _ _ => 0) 0) (true, true) fun _ => .err) oneTest =
    .ok ⟨.passed, w, t⟩ ∧ Freed t := by
  have hdec : (VM.compileText (fun _ => none) 0 [120, 32, 61, 32, 49, 59] >>= fun e =>
      .ok ([Exe.fetch e 0, Exe.fetch e 1, Exe.fetch e 2, Exe.fetch e 3], e.body.length)) =
    .ok ([some (.PUSHINT, [.int 1]), some (.ASS, [.str [120]]), some (.POP, [.int 1]), some (.EXIT, [])], 4) := by decide +kernel
  obtain ⟨e, hc, hx⟩ := Exec.bind_eq_ok.mp hdec
  obtain ⟨ts, root, p, hs, hg, he, hl, hf⟩ := VM.C84_only _ _ _ _ hc
  injection hx with hx
  injection hx with hx1 hx2
  have hprog : oneProg = (VM.compile p).map VM.Instr.encode := by
    injection hx1 with y0 hx1
    injection hx1 with y1 hx1
    injection hx1 with y2 hx1
    injection hx1 with y3 hx1
    apply List.ext_getElem?
    intro i
    rw [List.getElem?_map, ← hf]
    match i with
    | 0 => rw [y0]; rfl
    | 1 => rw [y1]; rfl
    | 2 => rw [y2]; rfl
    | 3 => rw [y3]; rfl
    | i + 4 =>
      rw [(Exe.fetch_none_iff e (i + 4)).2 (by omega)]
      rfl
  have hplain : ∀ i ∈ oneProg, ∀ a ∈ i.2, Exe.Plain a ∧ ∀ x, a = .float x → Num.isNaN x = false := by
    intro i hi a ha
    simp only [oneProg, List.mem_cons, List.not_mem_nil, or_false] at hi
    rcases hi with rfl | rfl | rfl | rfl
    · cases List.mem_singleton.1 ha; exact ⟨show IsI32 1 by decide, nofun⟩
    · cases List.mem_singleton.1 ha; exact ⟨trivial, nofun⟩
    · cases List.mem_singleton.1 ha; exact ⟨show IsI32 1 by decide, nofun⟩
    · cases ha
  obtain ⟨w, t, v, h1, h2, -, h3⟩ := C106_compiler_text true (fun _ => .err) (fun _ => none) (fun _ _ _ => 0) 0 0 oneTest_reads (by decide) nofun
    (by decide) noNum oneProg (by decide) (by simp) (by simp) hs hg he
    (by
      intro i hi
      simp only [oneProg, List.mem_cons, List.not_mem_nil, or_false] at hi
      rcases hi with rfl | rfl | rfl | rfl
      · refine ⟨rfl, fun j t o ht ho => ?_, fun o ho => ?_⟩
        · match j, ht, ho with
          | 0, ht, ho => cases ht; cases ho; trivial
          | j + 1, ht, ho => cases ht
        · cases List.mem_singleton.1 ho; exact (show (-2 ^ 63 ≤ (1 : Int) ∧ (1 : Int) < 2 ^ 63) by decide)
      · refine ⟨rfl, fun j t o ht ho => ?_, fun o ho => ?_⟩
        · match j, ht, ho with
          | 0, ht, ho => cases ht; cases ho; trivial
          | j + 1, ht, ho => cases ht
        · cases List.mem_singleton.1 ho; exact (show (0 : UInt8) ∉ ([120] : List UInt8) by decide)
      · refine ⟨rfl, fun j t o ht ho => ?_, fun o ho => ?_⟩
        · match j, ht, ho with
          | 0, ht, ho => cases ht; cases ho; trivial
          | j + 1, ht, ho => cases ht
        · cases List.mem_singleton.1 ho; exact (show (-2 ^ 63 ≤ (1 : Int) ∧ (1 : Int) < 2 ^ 63) by decide)
      · refine ⟨rfl, fun j t o ht ho => ?_, fun o ho => ?_⟩
        · cases ho
        · cases ho)
    (by
      intro i hi o ho
      simp only [oneProg, List.mem_cons, List.not_mem_nil, or_false] at hi
      rcases hi with rfl | rfl | rfl | rfl
      · cases List.mem_singleton.1 ho; exact (show (1 : Int) ≠ -2 ^ 63 by decide)
      · cases List.mem_singleton.1 ho; exact (show ([120] : List UInt8).length ≤ 1024 by decide)
      · cases List.mem_singleton.1 ho; exact (show (1 : Int) ≠ -2 ^ 63 by decide)
      · cases ho)
    (fun i hi a ha => by
      have hm : i.encode ∈ oneProg := by rw [hprog]; exact List.mem_map_of_mem hi
      exact hplain _ hm a ha)
    (fun i hi a ha => (hplain i hi a ha).1)
  rw [h3.2 hprog] at h1
  exact ⟨w, t, h1, h2⟩

end Noja.TestRun
