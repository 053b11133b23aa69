import Verif.VM.Demo
import Verif.Graph.Hash

/-!
# Programs with lists as keys (C12)

A list is hashed when it is used as a key.  Since the sum of the hashes can overflow (`Graph.C12_list_violated`), a short program has undefined
behaviour.
-/

namespace Noja.VM.Demo

/-- `[v, v, v]` -/
def triple (v : Int) : Expr := .list (.cons (.int v) (.cons (.int v) (.cons (.int v) .nil)))

/-- `return {[v, v, v]: 1};` -/
def keyed (v : Int) : Stmts := .cons (.ret (.cons (.map (.cons (triple v) (.int 1) .nil)) .nil)) .nil

/-- The program from its start. -/
def keyedRun (v : Int) : Status World := start L 1024 0 ⟨world, fun _ => none, [compile (keyed v)], [], []⟩ 100

/-- With `2` the program ends. -/
theorem keyed_two : (match keyedRun 2 with | .done vs _ => vs.length | _ => 0) = 1 := by decide +kernel

/-- **C12 matters to programs**: `return {[4, 4, 4]: 1};` is compiled and its behaviour is undefined, while `return {[2, 2, 2]: 1};` returns one
value. -/
theorem C12_program_undefined : (keyed 4).wf false = true ∧ keyedRun 4 = .ub ∧ ∃ v s, keyedRun 2 = .done [v] s := by
  refine ⟨by decide, ?_, ?_⟩
  · have h : (match keyedRun 4 with | .ub => true | _ => false) = true := by decide +kernel
    split at h
    · assumption
    · cases h
  · have h := keyed_two
    split at h
    · rename_i vs s hs
      match vs, h with
      | [v], _ => exact ⟨v, s, hs⟩
    · cases h

end Noja.VM.Demo
