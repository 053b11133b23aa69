/-!
# Reference counts of sources and executables, and property C74

`src/lib/utils/source.c` (`Source_Copy`, `Source_Free`) and `src/lib/executable.c`
(`Executable_Copy`, `Executable_Free`, `Executable_SetSource`).  One executable
and one source; the executable may hold the source.  (`refs` overflowing `int` is
not modelled.)
-/

namespace Noja.RefCount

/-! ## Model -/

/-- source.c:45 and executable.c:53,57: the counters, whether the executable holds the source,
and how often `free` was called on each object. -/
structure State where
  srcRefs : Int
  srcFreed : Nat
  exeRefs : Int
  exeFreed : Nat
  exeHoldsSrc : Bool

/-- source.c:49-53 `Source_Copy`. -/
def srcCopy (s : State) : State := { s with srcRefs := s.srcRefs + 1 }

/-- source.c:55-62 `Source_Free`. -/
def srcFree (s : State) : State :=
  let s := { s with srcRefs := s.srcRefs - 1 }
  if s.srcRefs = 0 then { s with srcFreed := s.srcFreed + 1 } else s

/-- executable.c:168-174 `Executable_Copy`. -/
def exeCopy (s : State) : State := { s with exeRefs := s.exeRefs + 1 }

/-- executable.c:176-187 `Executable_Free`. -/
def exeFree (s : State) : State :=
  let s := { s with exeRefs := s.exeRefs - 1 }
  if s.exeRefs = 0 then
    let s := if s.exeHoldsSrc then srcFree s else s
    { s with exeFreed := s.exeFreed + 1 }
  else s

/-- executable.c `Executable_SetSource` on an executable without source: takes a copy. -/
def setSource (s : State) : State := { srcCopy s with exeHoldsSrc := true }

/-- A source (source.c:166,208) and an executable (executable.c:477) just created. -/
def new : State := { srcRefs := 1, srcFreed := 0, exeRefs := 1, exeFreed := 0, exeHoldsSrc := false }

/-! ## Specification: holders, as the program sees them -/

/-- What the holders do. -/
inductive Op
  | srcCopy | srcFree | exeCopy | exeFree | attach
deriving DecidableEq

/-- The number of holders of each object, and whether the source is attached. -/
structure Holders where
  src : Nat
  exe : Nat
  attached : Bool

/-- The effect of an operation on the holders; `none` if the program has no right to do it
(no holder left, or a source attached twice). -/
def Holders.step (h : Holders) : Op → Option Holders
  | .srcCopy => if 0 < h.src then some { h with src := h.src + 1 } else none
  | .srcFree => if 0 < h.src then some { h with src := h.src - 1 } else none
  | .exeCopy => if 0 < h.exe then some { h with exe := h.exe + 1 } else none
  | .exeFree => if 0 < h.exe then some { h with exe := h.exe - 1 } else none
  | .attach => if 0 < h.src ∧ 0 < h.exe ∧ h.attached = false then some { h with attached := true } else none

/-- The implementation's effect. -/
def step (s : State) : Op → State
  | .srcCopy => srcCopy s
  | .srcFree => srcFree s
  | .exeCopy => exeCopy s
  | .exeFree => exeFree s
  | .attach => setSource s

/-- Histories. -/
inductive Reach : State → Holders → Prop
  | new : Reach new ⟨1, 1, false⟩
  | step {s h h'} (o : Op) (r : Reach s h) (e : h.step o = some h') : Reach (step s o) h'

/-! ## Proof -/

theorem inv {s h} (r : Reach s h) :
    s.exeRefs = h.exe ∧ s.exeHoldsSrc = h.attached ∧
    s.srcRefs = h.src + (if h.attached = true ∧ 0 < h.exe then 1 else 0) ∧
    s.exeFreed = (if h.exe = 0 then 1 else 0) ∧
    s.srcFreed = (if h.src = 0 ∧ ¬ (h.attached = true ∧ 0 < h.exe) then 1 else 0) := by
  induction r with
  | new => simp [new]
  | @step s h h' o r e ih =>
    obtain ⟨h1, h2, h3, h4, h5⟩ := ih
    obtain ⟨hs, he, ha⟩ := h
    obtain ⟨sr, sf, er, ef, eh⟩ := s
    simp only at h1 h2 h3 h4 h5
    subst h1 h2
    cases o <;> simp only [Holders.step] at e <;> split at e <;> cases e <;> rename_i hc <;>
      simp only [step, srcCopy, srcFree, exeCopy, exeFree, setSource] <;> subst h3 h4 h5
    · cases eh <;> by_cases hz : 0 < he <;> simp_all <;> omega
    · cases eh <;> by_cases hz : 0 < he <;> by_cases h1 : hs = 1 <;> simp_all <;>
        ((repeat' split) <;> (try simp_all) <;> (try omega))
    · cases eh <;> simp_all <;> omega
    · cases eh <;> by_cases h1 : he = 1 <;> by_cases h2 : hs = 0 <;> simp_all <;>
        first | omega | (repeat' split) <;> simp_all <;> omega
    · obtain ⟨c1, c2, c3⟩ := hc
      subst c3
      simp_all; omega

/-- **C74**: in every interleaving of copies and releases by their holders, the executable is
released exactly once it has no holder left, the source exactly once it has no holder and no
live executable holds it, and neither is ever released twice. -/
theorem C74_freed_once {s h} (r : Reach s h) :
    s.exeFreed = (if h.exe = 0 then 1 else 0) ∧
    s.srcFreed = (if h.src = 0 ∧ ¬ (h.attached = true ∧ 0 < h.exe) then 1 else 0) :=
  ⟨(inv r).2.2.2.1, (inv r).2.2.2.2⟩

/-- A history in which the source outlives its last direct holder through the executable. -/
example : ∃ s h, Reach s h ∧ s.srcFreed = 0 ∧ h.src = 0 ∧
    ∃ s' h', Reach s' h' ∧ s' = step s .exeFree ∧ s'.srcFreed = 1 ∧ s'.exeFreed = 1 := by
  have r := Reach.new
  have r := Reach.step .attach r rfl
  have r := Reach.step .exeCopy r rfl
  have r := Reach.step .srcFree r rfl
  have r := Reach.step .exeFree r rfl
  refine ⟨_, _, r, by decide, by decide, ?_⟩
  have r' := Reach.step .exeFree r rfl
  exact ⟨_, _, r', rfl, by decide, by decide⟩

end Noja.RefCount
