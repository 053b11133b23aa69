import Verif.Util.TestFile
import Verif.Exe.Equiv

/-!
# Running tests (src/test/run.c, main.c) and properties C104 to C106

A test names its type in the field `type`; the type says which fields the test must have and which routine judges them.  A
directory is searched for tests, with its subdirectories, and the verdicts are counted.

Simplifications: memory is there except where it is said, counters do not reach 2^64, and `fread` gives less than what was asked
for only at the end of the file or after an error, as the C standard has it.  `abort()` is `err`.
-/

set_option linter.unusedVariables false
set_option linter.unusedSimpArgs false

namespace Noja.TestRun

open Noja.TestFile

/-! ## One test -/

/-- main.h `TestResult`. -/
inductive Result
  | passed | failed | aborted
deriving DecidableEq

/-- run.h:6-10 `TestType`. -/
structure Kind where
  name : Text
  fields : List Text
  routine : List Text → Exec Result

/-- `type` -/
def typeName : Text := [116, 121, 112, 101]

/-- run.c:9-15 `findTestType`. -/
def findTestType : List Kind → Text → Option Kind
  | [], _ => none
  | k :: ks, name => if name = k.name then some k else findTestType ks name

/-- run.c:41-57: the fields in the order of the type; there is room for eight. -/
def gather (t : Test) : List Text → List Text → Exec (Option (List Text))
  | [], got => .ok (some got)
  | n :: ns, got => (query t n).bind fun
    | none => .ok none
    | some b => if got.length = 8 then .err else gather t ns (got ++ [b])

/-- Subtraction of `size_t`. -/
def subSize (a b : Nat) : Nat := (a + 2 ^ 64 - b) % 2 ^ 64

/-- What a test comes to: the verdict, the number in the warning if there is one, and the memory. -/
structure Ran where
  result : Result
  unused : Option Nat
  after : Test

/-- run.c:38-70: the type is known. -/
def useKind (t : Test) (k : Kind) : Option (List Text) → Exec Ran
  | none => .ok ⟨.aborted, none, t⟩
  | some got =>
    let unused := subSize t.fields.length got.length
    let unused := if typeName ∈ k.fields then unused else subSize unused 1
    (k.routine got).bind fun r => (freeTest t).bind fun t =>
      .ok ⟨r, if 0 < unused then some unused else none, t⟩

/-- run.c:26-70: the text was understood. -/
def judge (kinds : List Kind) (t : Test) : Option Text → Exec Ran
  | none => .ok ⟨.aborted, none, t⟩
  | some ty =>
    match findTestType kinds ty with
    | none => .ok ⟨.aborted, none, t⟩
    | some k => (gather t k.fields []).bind (useKind t k)

/-- run.c:17-70 `runTestString`. -/
def runTestString (kinds : List Kind) (s : Text) : Exec Ran :=
  (parseTest s).bind fun p =>
    if p.1 ≠ .void then .ok ⟨.aborted, none, p.2⟩
    else (query p.2 typeName).bind (judge kinds p.2)

/-- run.c:72-108 `getStreamData`: the loop. `file` is what was not read yet, `room` how much memory there is. -/
def readLoop (room : Nat) : (fuel : Nat) → (file content : List UInt8) → (capacity : Nat) → Exec (Option (List UInt8 × Nat))
  | 0, _, _, _ => .diverge
  | fuel + 1, file, content, capacity =>
    let capacity := 2 * capacity
    if room < capacity then .ok none
    else
      let got := file.take (capacity - content.length)
      if got = [] then .ok (some (content, capacity))
      else readLoop room fuel (file.drop (capacity - content.length)) (content ++ got) capacity

/-- run.c:72-108 `getStreamData`; `broken`: whether reading ends with an error. -/
def getStreamData (room : Nat) (broken : Bool) (file : List UInt8) : Exec (Option (List UInt8)) :=
  (readLoop room (file.length + 2) file [] 512).bind fun
    | none => .ok none
    | some (content, capacity) =>
      if broken then .ok none
      else
        let capacity' := if content.length + 1 ≥ capacity then capacity + 1 else capacity
        if room < capacity' then .ok none
        else if content.length < capacity' then .ok (some (content ++ [0])) else .ub

/-- run.c:110-129 `runTestFile`: `file` is nothing if it cannot be opened. What is read is used as a C string. -/
def runTestFile (kinds : List Kind) (room : Nat) (broken : Bool) : (file : Option (List UInt8)) → Exec Result
  | none => .ok .aborted
  | some bytes => (getStreamData room broken bytes).bind fun
    | none => .ok .aborted
    | some data => if 0 ∈ data then (runTestString kinds (data.takeWhile (· ≠ 0))).bind fun r => .ok r.result else .ub

/-! ### What a test is -/

/-- The type of the test and what its routine is to judge. -/
inductive Calls (kinds : List Kind) (fs : List (Text × Text)) : Kind → List Text → Prop
  | mk {pre post : List Kind} {k : Kind} {bodies : List Text} : kinds = pre ++ k :: post → bodyOf fs typeName = some k.name →
      (∀ k' ∈ pre, k'.name ≠ k.name) → k.fields.map (bodyOf fs) = bodies.map some → Calls kinds fs k bodies

/-- Nothing stays allocated. -/
def Freed (t : Test) : Prop := ∀ l, (∀ i b, l ≠ .own 0 i b) → t.text l = none

/-- The fields that a type does not use. -/
def spare (k : Kind) (fs : List (Text × Text)) : Nat := (fs.filter fun f => decide (f.1 ≠ typeName ∧ f.1 ∉ k.fields)).length

/-- No field twice, and not more than there is room for. -/
def Kind.Fair (k : Kind) : Prop := k.fields.Nodup ∧ k.fields.length ≤ 8

/-- **C104**: a test is judged by the routine of its type from the fields that the type names; if it is not a correct test then it is
aborted; the number in the warning is the number of fields that are not used; everything is freed. -/
def C104Statement : Prop :=
  (∀ (kinds : List Kind) (s rest : Text) (fs : List (Text × Text)) (e : ErrorID), (∀ k ∈ kinds, k.Fair) →
    Reads s fs rest → (fs.map Prod.fst).Nodup → Verdict fs rest e →
    ((e ≠ .void ∨ ∀ k bodies, ¬ Calls kinds fs k bodies) → ∃ t, runTestString kinds s = .ok ⟨.aborted, none, t⟩ ∧ Freed t) ∧
    (e = .void → ∀ k bodies v, Calls kinds fs k bodies → k.routine bodies = .ok v →
      ∃ t, runTestString kinds s = .ok ⟨v, if spare k fs = 0 then none else some (spare k fs), t⟩ ∧ Freed t)) ∧
  ∀ room file, 4 * file.length + 2049 ≤ room → getStreamData room false file = .ok (some (file ++ [0]))

theorem findTestType_some {ty : Text} : ∀ {kinds : List Kind} {k : Kind}, findTestType kinds ty = some k →
    ∃ pre post, kinds = pre ++ k :: post ∧ k.name = ty ∧ ∀ k' ∈ pre, k'.name ≠ ty
  | k0 :: ks, k, h => by
    unfold findTestType at h
    by_cases q : ty = k0.name
    · rw [if_pos q] at h
      cases h
      exact ⟨[], ks, rfl, q.symm, nofun⟩
    · rw [if_neg q] at h
      obtain ⟨pre, post, h1, h2, h3⟩ := findTestType_some h
      refine ⟨k0 :: pre, post, by rw [h1]; rfl, h2, fun k' hk => ?_⟩
      rcases List.mem_cons.1 hk with rfl | hk
      · exact fun e => q e.symm
      · exact h3 k' hk

theorem findTestType_first {ty : Text} {k : Kind} {post : List Kind} (hk : k.name = ty) : ∀ {pre : List Kind}, (∀ k' ∈ pre, k'.name ≠ ty) →
    findTestType (pre ++ k :: post) ty = some k
  | [], _ => by
    show (if ty = k.name then some k else _) = _
    rw [if_pos hk.symm]
  | k0 :: pre, h => by
    show (if ty = k0.name then some k0 else findTestType (pre ++ k :: post) ty) = _
    rw [if_neg fun e => h k0 List.mem_cons_self e.symm]
    exact findTestType_first hk fun k' hk => h k' (List.mem_cons_of_mem _ hk)

/-- Reading the fields of a type. -/
theorem gather_eq {t : Test} {fs : List (Text × Text)} (hq : ∀ n, query t n = .ok (bodyOf fs n)) : ∀ {ns got : List Text}, got.length + ns.length ≤ 8 →
    (∀ bodies : List Text, ns.map (bodyOf fs) = bodies.map some → gather t ns got = .ok (some (got ++ bodies))) ∧
    ((∀ bodies : List Text, ns.map (bodyOf fs) ≠ bodies.map some) → gather t ns got = .ok none)
  | [], got, _ => by
    refine ⟨fun bodies h => ?_, fun h => absurd rfl (h [])⟩
    cases bodies with
    | nil => rw [List.append_nil]; rfl
    | cons => cases h
  | n :: ns, got, hl => by
    rw [List.length_cons] at hl
    unfold gather
    rw [hq n]
    cases hb : bodyOf fs n with
    | none =>
      refine ⟨fun bodies h => ?_, fun _ => rfl⟩
      cases bodies with
      | nil => cases h
      | cons b bodies =>
        rw [List.map_cons, List.map_cons, hb] at h
        cases h
    | some b =>
      show (∀ bodies, _ → (if got.length = 8 then Exec.err else gather t ns (got ++ [b])) = _) ∧ (_ → (if got.length = 8 then Exec.err else gather t ns (got ++ [b])) = _)
      rw [if_neg (by omega)]
      obtain ⟨h1, h2⟩ := gather_eq hq (ns := ns) (got := got ++ [b]) (by rw [List.length_append, List.length_singleton]; omega)
      refine ⟨fun bodies h => ?_, fun h => h2 fun bodies q => h (b :: bodies) ?_⟩
      · cases bodies with
        | nil => cases h
        | cons b' bodies =>
          rw [List.map_cons, List.map_cons, hb] at h
          injection h with h3 h4
          injection h3 with h3
          subst h3
          rw [h1 bodies h4, List.append_assoc]
          rfl
      · rw [List.map_cons, List.map_cons, hb, q]

/-- Taking some of the elements away. -/
theorem filter_rest : ∀ {m l : List Text}, l.Nodup → m.Nodup → (∀ x ∈ m, x ∈ l) →
    (l.filter fun x => decide (x ∉ m)).length + m.length = l.length
  | [], l, _, _, _ => by simp
  | a :: m, l, hl, hm, hs => by
    obtain ⟨ha, hm⟩ := List.nodup_cons.1 hm
    have hal : a ∈ l := hs a List.mem_cons_self
    have hp := List.perm_cons_erase hal
    have hne : a ∉ l.erase a := fun q => by
      have := (hp.nodup_iff).1 hl
      exact (List.nodup_cons.1 this).1 q
    have ih := filter_rest (l := l.erase a) (hl.erase a) hm fun x hx => by
      have hxa : x ≠ a := fun e => ha (e ▸ hx)
      exact (List.mem_erase_of_ne hxa).2 (hs x (List.mem_cons_of_mem _ hx))
    have h1 := (hp.filter fun x => decide (x ∉ a :: m)).length_eq
    rw [h1, List.filter_cons_of_neg (by simp)]
    have h2 : (l.erase a).filter (fun x => decide (x ∉ a :: m)) = (l.erase a).filter fun x => decide (x ∉ m) := by
      apply List.filter_congr
      intro x hx
      have hxa : x ≠ a := fun e => hne (e ▸ hx)
      simp [hxa]
    rw [h2, List.length_cons, hp.length_eq, List.length_cons]
    omega

theorem bodyOf_mem {fs : List (Text × Text)} {n b : Text} (h : bodyOf fs n = some b) : n ∈ fs.map Prod.fst := by
  apply Classical.byContradiction
  intro q
  rw [bodyOf_none q] at h
  cases h

theorem spare_eq {fs : List (Text × Text)} {k : Kind} {bodies : List Text} (hd : (fs.map Prod.fst).Nodup) (hk : k.fields.Nodup)
    (ht : typeName ∈ fs.map Prod.fst) (hb : k.fields.map (bodyOf fs) = bodies.map some) :
    spare k fs + bodies.length + (if typeName ∈ k.fields then 0 else 1) = fs.length := by
  have hlen : bodies.length = k.fields.length := by
    have := congrArg List.length hb
    rw [List.length_map, List.length_map] at this
    exact this.symm
  have hin : ∀ x ∈ k.fields, x ∈ fs.map Prod.fst := fun x hx => by
    have : bodyOf fs x ∈ bodies.map some := by
      rw [← hb]
      exact List.mem_map_of_mem hx
    obtain ⟨b, -, e⟩ := List.mem_map.1 this
    exact bodyOf_mem e.symm
  have key : ∀ m : List Text, (∀ x, x ∈ m ↔ x = typeName ∨ x ∈ k.fields) →
      spare k fs = ((fs.map Prod.fst).filter fun x => decide (x ∉ m)).length := fun m hm => by
    unfold spare
    rw [List.filter_map, List.length_map]
    congr 1
    apply List.filter_congr
    intro f _
    show _ = decide (f.1 ∉ m)
    rw [decide_eq_decide, hm]
    exact not_or.symm
  by_cases q : typeName ∈ k.fields
  · rw [if_pos q, key k.fields fun x => ⟨.inr, fun h => h.elim (fun e => e ▸ q) id⟩]
    have := filter_rest hd hk hin
    rw [List.length_map] at this
    omega
  · rw [if_neg q, key (typeName :: k.fields) fun x => List.mem_cons]
    have := filter_rest hd (List.nodup_cons.2 ⟨q, hk⟩) fun x hx => by
      rcases List.mem_cons.1 hx with rfl | hx
      · exact ht
      · exact hin x hx
    rw [List.length_map, List.length_cons] at this
    omega

theorem subSize_eq {a b : Nat} (h : b ≤ a) (ha : a < 2 ^ 64) : subSize a b = a - b := by
  unfold subSize
  generalize 2 ^ 64 = m at *
  rw [show a + m - b = (a - b) + m by omega, Nat.add_mod_right, Nat.mod_eq_of_lt (by omega)]

/-- A correct text with fewer than eight fields. -/
theorem parsed {s rest : Text} {fs : List (Text × Text)} (hr : Reads s fs rest) (hd : (fs.map Prod.fst).Nodup)
    (hw : ∀ c ∈ rest, Blank c) (hn : fs.length < 8) :
    ∃ t t', parseTest s = .ok (.void, t) ∧ (∀ n, query t n = .ok (bodyOf fs n)) ∧ t.fields.length = fs.length ∧
      freeTest t = .ok t' ∧ Freed t' := by
  obtain ⟨t, n, e1, hi, ho, hl⟩ := rounds_own hr (t := empty) (ps := []) (n := s.length + 1) empty_inv empty_owns hd (by simpa using hn) (Nat.lt_succ_self _)
  rw [List.nil_append] at hi
  obtain ⟨n, rfl⟩ : ∃ m, n = m + 1 := ⟨n - 1, by omega⟩
  obtain ⟨t2, f2, hf⟩ := freeTest_owns ho
  refine ⟨t, t2, ?_, query_of hi.sees, hi.sees.length, f2, hf⟩
  show parseLoop _ _ _ = _
  rw [e1, last_void hw, ready_owns hi ho hn]

/-! ### Reading a file -/

theorem readLoop_all (room : Nat) : ∀ (fuel : Nat) (file content : List UInt8) (capacity : Nat), file.length < fuel →
    content.length ≤ capacity → 0 < capacity → (if file = [] then 2 * capacity + 1 else 4 * capacity + 4 * file.length + 1) ≤ room →
    ∃ c, readLoop room fuel file content capacity = .ok (some (content ++ file, c)) ∧ content.length + file.length < c ∧ c < room
  | 0, _, _, _, h, _, _, _ => absurd h (Nat.not_lt_zero _)
  | fuel + 1, file, content, capacity, hf, hc, h0, hr => by
    unfold readLoop
    dsimp only
    by_cases q0 : file = []
    · subst q0
      rw [if_pos rfl] at hr
      rw [if_neg (by omega), if_pos (by simp)]
      exact ⟨2 * capacity, by rw [List.append_nil], by rw [List.length_nil]; omega, by omega⟩
    · rw [if_neg q0] at hr
      have hl : 0 < file.length := List.length_pos_iff.2 q0
      have ht : file.take (2 * capacity - content.length) ≠ [] := by
        intro e
        have := congrArg List.length e
        rw [List.length_take, List.length_nil] at this
        omega
      rw [if_neg (by omega), if_neg ht]
      have hlen : (file.drop (2 * capacity - content.length)).length = file.length - (2 * capacity - content.length) := List.length_drop
      obtain ⟨c, h1, h2, h3⟩ := readLoop_all room fuel (file.drop (2 * capacity - content.length))
        (content ++ file.take (2 * capacity - content.length)) (2 * capacity) (by omega)
        (by rw [List.length_append, List.length_take]; omega) (by omega) (by
          by_cases q : file.drop (2 * capacity - content.length) = []
          · rw [if_pos q]; omega
          · rw [if_neg q, hlen]
            have := List.length_pos_iff.2 q
            omega)
      refine ⟨c, ?_, ?_, h3⟩
      · rw [h1, List.append_assoc, List.take_append_drop]
      · rw [List.length_append, List.length_take, hlen] at h2
        omega

/-- The whole file is read, and a zero byte is put behind it. -/
theorem C104_file (room : Nat) (file : List UInt8) (h : 4 * file.length + 2049 ≤ room) :
    getStreamData room false file = .ok (some (file ++ [0])) := by
  obtain ⟨c, h1, h2, h3⟩ := readLoop_all room (file.length + 2) file [] 512 (by omega) (Nat.zero_le _) (by decide) (by
    by_cases q : file = []
    · rw [if_pos q]; omega
    · rw [if_neg q]; omega)
  rw [List.nil_append] at h1
  rw [List.length_nil, Nat.zero_add] at h2
  unfold getStreamData
  rw [h1]
  show (if room < (if file.length + 1 ≥ c then c + 1 else c) then _ else if file.length < (if file.length + 1 ≥ c then c + 1 else c) then _ else _) = _
  by_cases q : file.length + 1 ≥ c
  · rw [if_pos q, if_neg (by omega), if_pos (by omega)]
  · rw [if_neg q, if_neg (by omega), if_pos h2]

/-- Without enough memory, or after an error, it is said that there is none: nothing else is ever returned. -/
theorem readLoop_some (room : Nat) : ∀ (fuel : Nat) (file content : List UInt8) (capacity : Nat) (r : List UInt8 × Nat), content.length ≤ capacity →
    0 < capacity → readLoop room fuel file content capacity = .ok (some r) → r.1 = content ++ file ∧ r.1.length < r.2
  | 0, _, _, _, _, _, _, h => by cases h
  | fuel + 1, file, content, capacity, r, hc, h0, h => by
    unfold readLoop at h
    dsimp only at h
    by_cases q1 : room < 2 * capacity
    · rw [if_pos q1] at h; cases h
    rw [if_neg q1] at h
    by_cases q2 : file.take (2 * capacity - content.length) = []
    · rw [if_pos q2] at h
      cases h
      have : file = [] := by
        cases file with
        | nil => rfl
        | cons b f =>
          rw [show 2 * capacity - content.length = (2 * capacity - content.length - 1) + 1 by omega, List.take_succ_cons] at q2
          cases q2
      subst this
      exact ⟨(List.append_nil _).symm, by show content.length < _; omega⟩
    · rw [if_neg q2] at h
      have := readLoop_some room fuel _ _ _ r (by rw [List.length_append, List.length_take]; omega) (by omega) h
      rw [List.append_assoc, List.take_append_drop] at this
      exact this

theorem C104_file_only (room : Nat) (broken : Bool) (file d : List UInt8) (h : getStreamData room broken file = .ok (some d)) : d = file ++ [0] := by
  unfold getStreamData at h
  cases hr : readLoop room (file.length + 2) file [] 512 with
  | ok o =>
    rw [hr] at h
    cases o with
    | none => cases h
    | some r =>
      obtain ⟨h1, h2⟩ := readLoop_some room _ _ _ _ r (Nat.zero_le _) (by decide) hr
      rw [List.nil_append] at h1
      obtain ⟨c, k⟩ := r
      dsimp only at h1 h2
      subst h1
      change (if broken = true then _ else if room < (if c.length + 1 ≥ k then k + 1 else k) then _ else
        if c.length < (if c.length + 1 ≥ k then k + 1 else k) then Exec.ok (some (c ++ [0])) else Exec.ub) = _ at h
      cases broken with
      | true => cases h
      | false =>
        rw [if_neg (by decide)] at h
        generalize (if c.length + 1 ≥ k then k + 1 else k) = k' at h
        by_cases q : room < k'
        · rw [if_pos q] at h; cases h
        · rw [if_neg q] at h
          by_cases q : c.length < k'
          · rw [if_pos q] at h; cases h; rfl
          · rw [if_neg q] at h; cases h
  | err => rw [hr] at h; cases h
  | ub => rw [hr] at h; cases h
  | diverge => rw [hr] at h; cases h

theorem takeWhile_zero {l : List UInt8} (h : 0 ∉ l) (r : List UInt8) : (l ++ 0 :: r).takeWhile (· ≠ 0) = l := by
  rw [List.takeWhile_append_of_pos (by
    intro a ha
    have : a ≠ 0 := fun e => h (e ▸ ha)
    simpa using this)]
  simp

/-- The verdict on a file is that on its text up to the first zero byte, if there is memory; a file that cannot be opened or read
is aborted. -/
theorem C104_verdict (kinds : List Kind) (room : Nat) (text : Text) (hz : 0 ∉ text) :
    (∀ broken, runTestFile kinds room broken none = .ok .aborted) ∧
    (∀ bytes, 4 * bytes.length + 2049 ≤ room → runTestFile kinds room true (some bytes) = .ok .aborted) ∧
    (∀ rest, 4 * (text.length + 1 + rest.length) + 2049 ≤ room →
      runTestFile kinds room false (some (text ++ 0 :: rest)) = (runTestString kinds text).bind fun r => .ok r.result) ∧
    (4 * text.length + 2049 ≤ room → runTestFile kinds room false (some text) = (runTestString kinds text).bind fun r => .ok r.result) := by
  refine ⟨fun _ => rfl, fun bytes h => ?_, fun rest h => ?_, fun h => ?_⟩
  · obtain ⟨c, h1, -, -⟩ := readLoop_all room (bytes.length + 2) bytes [] 512 (by omega) (Nat.zero_le _) (by decide) (by
      by_cases q : bytes = []
      · rw [if_pos q]; omega
      · rw [if_neg q]; omega)
    unfold runTestFile getStreamData
    dsimp only
    rw [h1]
    rfl
  · unfold runTestFile
    dsimp only
    rw [C104_file _ _ (by rw [List.length_append, List.length_cons]; omega)]
    show (if (0 : UInt8) ∈ text ++ 0 :: rest ++ [0] then _ else _) = _
    rw [if_pos (by simp), List.append_assoc, List.cons_append, takeWhile_zero hz]
  · unfold runTestFile
    dsimp only
    rw [C104_file _ _ h]
    show (if (0 : UInt8) ∈ text ++ [0] then _ else _) = _
    rw [if_pos (by simp), takeWhile_zero hz]

/-- **C104**, in part: for texts with fewer than eight fields in which no name occurs twice; everything is freed unless the test is
aborted because of its fields. (Missing: more fields, and freeing then; `C104_violated`, `C104_violated_leak`.) -/
theorem C104_partial {kinds : List Kind} {s rest : Text} {fs : List (Text × Text)} {e : ErrorID} (hf : ∀ k ∈ kinds, k.Fair)
    (hr : Reads s fs rest) (hd : (fs.map Prod.fst).Nodup) (hv : Verdict fs rest e) (hn : fs.length < 8) (he : e ≠ .dupl) :
    (e ≠ .void → ∃ t, runTestString kinds s = .ok ⟨.aborted, none, t⟩ ∧ Freed t) ∧
    (e = .void → (∀ k bodies, ¬ Calls kinds fs k bodies) → ∃ t, runTestString kinds s = .ok ⟨.aborted, none, t⟩) ∧
    (e = .void → ∀ k bodies v, Calls kinds fs k bodies → k.routine bodies = .ok v →
      ∃ t, runTestString kinds s = .ok ⟨v, if spare k fs = 0 then none else some (spare k fs), t⟩ ∧ Freed t) := by
  refine ⟨fun h => ?_, fun h hno => ?_, fun h k bodies v hc hk => ?_⟩
  · obtain ⟨t, h1, t', h2, h3⟩ := C95_partial hr hd hv hn he
    rw [if_neg h] at h2
    cases h2
    refine ⟨t, ?_, h3⟩
    unfold runTestString
    rw [h1]
    show (if e ≠ .void then _ else _) = _
    rw [if_pos h]
  · subst h
    have hw : ∀ c ∈ rest, Blank c := by cases hv; assumption
    obtain ⟨t, t', p1, p2, p3, p4, p5⟩ := parsed hr hd hw hn
    refine ⟨t, ?_⟩
    unfold runTestString
    rw [p1]
    show (query t typeName).bind (judge kinds t) = _
    rw [p2]
    cases hty : bodyOf fs typeName with
    | none => rfl
    | some ty =>
      show judge kinds t (some ty) = _
      unfold judge
      dsimp only
      cases hk : findTestType kinds ty with
      | none => rfl
      | some k =>
        dsimp only
        obtain ⟨pre, post, h1, h2, h3⟩ := findTestType_some hk
        have hkf := hf k (by rw [h1]; simp)
        obtain ⟨-, g⟩ := gather_eq p2 (ns := k.fields) (got := []) (by rw [List.length_nil, Nat.zero_add]; exact hkf.2)
        rw [g fun bodies q => hno k bodies ⟨h1, by rw [h2]; exact hty, by rw [h2]; exact h3, q⟩]
        rfl
  · subst h
    have hw : ∀ c ∈ rest, Blank c := by cases hv; assumption
    obtain ⟨t, t', p1, p2, p3, p4, p5⟩ := parsed hr hd hw hn
    refine ⟨t', ?_, p5⟩
    obtain ⟨h1, h2, h3, h4⟩ := hc
    have hkf := hf k (by rw [h1]; simp)
    have hs := spare_eq hd hkf.1 (bodyOf_mem h2) h4
    unfold runTestString
    rw [p1]
    show (query t typeName).bind (judge kinds t) = _
    rw [p2, h2]
    show judge kinds t (some k.name) = _
    unfold judge
    dsimp only
    rw [h1, findTestType_first rfl h3]
    dsimp only
    obtain ⟨g, -⟩ := gather_eq p2 (ns := k.fields) (got := []) (by rw [List.length_nil, Nat.zero_add]; exact hkf.2)
    rw [g bodies h4, List.nil_append]
    show (k.routine bodies).bind _ = _
    rw [hk]
    show (freeTest t).bind _ = _
    rw [p4, p3]
    have hb : subSize fs.length bodies.length = fs.length - bodies.length := subSize_eq (by omega) (by omega)
    have hu : (if typeName ∈ k.fields then subSize fs.length bodies.length else subSize (subSize fs.length bodies.length) 1) = spare k fs := by
      by_cases q : typeName ∈ k.fields
      · rw [if_pos q] at hs ⊢
        omega
      · rw [if_neg q] at hs
        rw [if_neg q, hb, subSize_eq (by omega) (by omega)]
        omega
    show Exec.ok (Ran.mk v (if 0 < (if typeName ∈ k.fields then subSize fs.length bodies.length else subSize (subSize fs.length bodies.length) 1) then
      some (if typeName ∈ k.fields then subSize fs.length bodies.length else subSize (subSize fs.length bodies.length) 1) else none) t') = _
    rw [hu]
    by_cases q : spare k fs = 0
    · rw [if_pos q, if_neg (by omega)]
    · rw [if_neg q, if_pos (by omega)]

/-- `@a[` and 512 times `x`: a test without a type. -/
def untyped : Text := [64, 97, 91] ++ List.replicate 512 120

/-- A test that is aborted because of its fields is not freed. -/
theorem C104_violated : ¬ C104Statement := by
  intro h
  obtain ⟨fs, rest, e, h1, h2, h3⟩ := covered untyped
  obtain ⟨t, ht, hl⟩ := (h.1 [] _ _ _ _ nofun h1 h2 h3).1 (.inr fun k bodies q => by
    obtain ⟨hk, -⟩ := q
    exact List.append_ne_nil_of_right_ne_nil _ (List.cons_ne_nil _ _) hk.symm)
  have key : (match runTestString [] untyped with
    | .ok r => (r.after.text (.block 1)).isSome
    | _ => false) = true := by decide +kernel
  rw [ht] at key
  dsimp only at key
  rw [hl (.block 1) (by intro i b q; cases q)] at key
  cases key

/-- Tests of the type `x`, which always pass. -/
def easy : Kind := ⟨[120], [], fun _ => .ok .passed⟩

/-- `@type[x]` and seven other fields. -/
def eight : Text := [64, 116, 121, 112, 101, 91, 120, 93] ++ letters 7

/-- A test with eight fields ends with freeing what was not allocated. -/
theorem C104_violated_eight : ¬ C104Statement := by
  intro h
  have key : isUb (runTestString [easy] eight) = true := by decide +kernel
  obtain ⟨fs, rest, e, h1, h2, h3⟩ := covered eight
  obtain ⟨h4, h5⟩ := h.1 [easy] _ _ _ _ (fun k hk => by
    cases List.mem_singleton.1 hk
    exact ⟨List.nodup_nil, Nat.zero_le _⟩) h1 h2 h3
  by_cases q : e ≠ .void ∨ ∀ k bodies, ¬ Calls [easy] fs k bodies
  · obtain ⟨t, ht, -⟩ := h4 q
    rw [ht] at key
    cases key
  · rw [not_or, Classical.not_not] at q
    apply q.2
    intro k bodies hc
    have hk : k = easy := by
      obtain ⟨hk, -⟩ := hc
      rename_i pre post _
      have : k ∈ [easy] := by rw [hk]; simp
      exact List.mem_singleton.1 this
    obtain ⟨t, ht, -⟩ := h5 q.1 k bodies .passed hc (by rw [hk]; rfl)
    rw [ht] at key
    cases key

/-- `@type[x] @a`: one field is not used. -/
theorem easy_read : Reads [64, 116, 121, 112, 101, 91, 120, 93, 32, 64, 97] [(typeName, [120]), ([97], [])] [] :=
  .cons (IsField.mk (ws := []) (name := typeName) (ws' := []) (by decide) (by decide) (by decide) (by intro c q; cases q; decide) (by decide)
      (by intro c q; cases q; decide) (.closed (b := [120]) (.inl rfl) (by decide) (by decide)))
    (.cons (IsField.mk (ws := [32]) (name := [97]) (ws' := []) (by decide) (by decide) (by decide) nofun (by decide)
      nofun (.bare (b := []) (rest := []) (by decide) (.inl rfl) nofun nofun)) .nil)

example : ∃ t, runTestString [easy] [64, 116, 121, 112, 101, 91, 120, 93, 32, 64, 97] = .ok ⟨.passed, some 1, t⟩ ∧ Freed t :=
  (C104_partial (kinds := [easy]) (fun k hk => by
    cases List.mem_singleton.1 hk
    exact ⟨List.nodup_nil, Nat.zero_le _⟩) easy_read (by decide) (.void nofun) (by decide) nofun).2.2 rfl easy [] .passed
    (.mk (pre := []) (post := []) rfl (by decide) nofun rfl) rfl

example : ∃ t, runTestString [] [64, 116, 121, 112, 101, 91, 120, 93, 32, 64, 97] = .ok ⟨.aborted, none, t⟩ :=
  (C104_partial (kinds := []) nofun easy_read (by decide) (.void nofun) (by decide) nofun).2.1 rfl fun k bodies q => by
    obtain ⟨hk, -⟩ := q
    exact List.append_ne_nil_of_right_ne_nil _ (List.cons_ne_nil _ _) hk.symm

example : runTestFile [easy] 3000 false (some [64, 116, 121, 112, 101, 91, 120, 93, 32, 64, 97, 0, 64]) = .ok .passed :=
  ((C104_verdict [easy] 3000 [64, 116, 121, 112, 101, 91, 120, 93, 32, 64, 97] (by decide)).2.2.1 [64] (by decide)).trans (by rfl)

example : getStreamData 2061 false [64, 97, 10] = .ok (some [64, 97, 10, 0]) := C104_file _ _ (by decide)

/-! ## Directories -/

/-- What is in a directory, in the order of the system: `sub` is what is in a directory in it, `opens` whether it can be opened. -/
inductive Tree
  | nil
  | dir (name : Text) (opens : Bool) (sub rest : Tree)
  | file (name : Text) (rest : Tree)
  | other (name : Text) (rest : Tree)
  | unknown (name : Text) (rest : Tree)

/-- run.h `TestBatchResults`, and what was written. -/
structure Batch where
  passed : Nat := 0
  failed : Nat := 0
  aborted : Nat := 0
  log : List (Text × Result) := []

/-- run.c:168-170: adding up. -/
def Batch.add (a b : Batch) : Batch := ⟨a.passed + b.passed, a.failed + b.failed, a.aborted + b.aborted, a.log ++ b.log⟩

/-- run.c:191-206. -/
def Batch.count (b : Batch) (path : Text) : Result → Batch
  | .passed => { b with passed := b.passed + 1, log := b.log ++ [(path, .passed)] }
  | .failed => { b with failed := b.failed + 1, log := b.log ++ [(path, .failed)] }
  | .aborted => { b with aborted := b.aborted + 1, log := b.log ++ [(path, .aborted)] }

/-- run.c:159-163: the path, in an array of 1024 bytes. -/
def fullPath (dir name : Text) : Exec Text :=
  match dir.getLast? with
  | none => .ub
  | some c =>
    let full := (if c ≠ 47 then dir ++ [47] else dir) ++ name
    if full.length < 1024 then .ok full else .ub

/-- run.c:133-136: the last dot. -/
def lastDot : Text → Nat → Option Nat → Option Nat
  | [], _, dot => dot
  | c :: s, i, dot => lastDot s (i + 1) (if c = 46 then some i else dot)

/-- run.c:131-139 `getExtension`. -/
def getExtension (name : Text) : Text :=
  match lastDot name 0 none with
  | none => []
  | some i => name.drop i

/-- `.noja-test` -/
def testExt : Text := [46, 110, 111, 106, 97, 45, 116, 101, 115, 116]

/-- run.c:152-207: the loop over the entries; `run` is `runTestFile`. -/
def walk (run : Text → Exec Result) : Tree → (dir : Text) → Batch → Exec Batch
  | .nil, _, b => .ok b
  | .dir name opens sub rest, dir, b =>
    if name.head? = some 46 then walk run rest dir b
    else (fullPath dir name).bind fun full =>
      if opens then (walk run sub full {}).bind fun s => walk run rest dir (b.add s)
      else walk run rest dir b
  | .file name rest, dir, b =>
    if name.head? = some 46 then walk run rest dir b
    else (fullPath dir name).bind fun full =>
      if getExtension name ≠ testExt then walk run rest dir b
      else (run full).bind fun r => walk run rest dir (b.count full r)
  | .other name rest, dir, b =>
    if name.head? = some 46 then walk run rest dir b
    else (fullPath dir name).bind fun _ => walk run rest dir b
  | .unknown name rest, dir, b =>
    if name.head? = some 46 then walk run rest dir b
    else (fullPath dir name).bind fun _ => .err

/-- run.c:141-211 `runTestDirectory`; nothing if the batch is aborted. -/
def runTestDirectory (run : Text → Exec Result) (dir : Text) (opens : Bool) (t : Tree) : Exec (Option Batch) :=
  if opens then (walk run t dir {}).bind fun b => .ok (some b) else .ok none

/-- main.c:24-36: the arguments one after another, the batches added up, and how many were aborted. -/
def batches (run : Text → Exec Result) : List (Text × Bool × Tree) → Batch → Nat → Exec (Batch × Nat)
  | [], b, n => .ok (b, n)
  | (dir, opens, t) :: as, b, n => (runTestDirectory run dir opens t).bind fun
    | none => batches run as b (n + 1)
    | some s => batches run as (b.add s) n

/-- main.c:21-40 `main`: the batch, how many arguments could not be used, and the exit status. -/
def mainTool (run : Text → Exec Result) (as : List (Text × Bool × Tree)) : Exec (Batch × Nat × Nat) :=
  (batches run as {} 0).bind fun r => .ok (r.1, r.2, 0)

/-! ### What there is to do -/

/-- Not hidden. -/
def Shown (name : Text) : Prop := ∀ r, name ≠ 46 :: r

/-- A name of a test. -/
def IsTest (name : Text) : Prop := ∃ base, name = base ++ testExt

open Classical in
/-- A path and a name. -/
noncomputable def join (dir name : Text) : Text := if (∃ d, dir = d ++ [47]) then dir ++ name else dir ++ 47 :: name

/-- The tests in a directory and those below it (`all`: also those in directories that cannot be opened). -/
noncomputable def tests (all : Bool) : Tree → Text → List Text
  | .nil, _ => []
  | .dir name opens sub rest, dir =>
    open Classical in (if Shown name ∧ (opens ∨ all) then tests all sub (join dir name) else []) ++ tests all rest dir
  | .file name rest, dir => open Classical in (if Shown name ∧ IsTest name then [join dir name] else []) ++ tests all rest dir
  | .other _ rest, dir => tests all rest dir
  | .unknown _ rest, dir => tests all rest dir

/-- How often a verdict occurs. -/
def tally (v : Result) (l : List (Text × Result)) : Nat := (l.filter fun p => p.2 = v).length

/-- The numbers are those of what was written. -/
def Batch.Right (b : Batch) : Prop := b.passed = tally .passed b.log ∧ b.failed = tally .failed b.log ∧ b.aborted = tally .aborted b.log

/-- **C105**: the tests in a directory and below it are all run, each once, and counted by their verdicts; otherwise the batch is
aborted. The exit status tells whether all tests passed. -/
def C105Statement : Prop :=
  ∀ (run : Text → Exec Result) (v : Text → Result), (∀ p, run p = .ok (v p)) →
    (∀ (dir : Text) (opens : Bool) (t : Tree), dir ≠ [] → ∃ r, runTestDirectory run dir opens t = .ok r ∧
      ∀ b, r = some b → b.log = (tests true t dir).map (fun p => (p, v p)) ∧ b.Right) ∧
    ∀ as b n x, mainTool run as = .ok (b, n, x) → (x = 0 ↔ n = 0 ∧ b.failed = 0 ∧ b.aborted = 0)

/-- Everything that is looked at can be: paths of less than 1024 bytes and known types of entries. -/
def Fits : Tree → Text → Prop
  | .nil, _ => True
  | .dir name opens sub rest, dir => (Shown name → (join dir name).length < 1024 ∧ (opens = true → Fits sub (join dir name))) ∧ Fits rest dir
  | .file name rest, dir => (Shown name → (join dir name).length < 1024) ∧ Fits rest dir
  | .other name rest, dir => (Shown name → (join dir name).length < 1024) ∧ Fits rest dir
  | .unknown name rest, dir => ¬ Shown name ∧ Fits rest dir

/-- All directories can be opened that are not hidden. -/
def Opens : Tree → Prop
  | .nil => True
  | .dir name opens sub rest => (Shown name → opens = true ∧ Opens sub) ∧ Opens rest
  | .file _ rest => Opens rest
  | .other _ rest => Opens rest
  | .unknown _ rest => Opens rest

theorem shown_iff (name : Text) : Shown name ↔ ¬ name.head? = some 46 := by
  unfold Shown
  cases name with
  | nil => simp
  | cons c r =>
    simp only [List.head?_cons, Option.some.injEq]
    exact ⟨fun h e => h r (by rw [e]), fun h r' e => h (List.cons.inj e).1⟩

theorem fullPath_eq {dir name : Text} (hd : dir ≠ []) (h : (join dir name).length < 1024) : fullPath dir name = .ok (join dir name) := by
  unfold fullPath
  cases hl : dir.getLast? with
  | none => exact absurd (List.getLast?_eq_none_iff.1 hl) hd
  | some c =>
    obtain ⟨d, rfl⟩ := List.getLast?_eq_some_iff.1 hl
    dsimp only
    have hj : (if c ≠ 47 then d ++ [c] ++ [47] else d ++ [c]) ++ name = join (d ++ [c]) name := by
      unfold join
      by_cases q : c = 47
      · rw [if_neg (by simpa using q), if_pos ⟨d, by rw [q]⟩]
      · rw [if_pos q, if_neg]
        · simp
        · rintro ⟨d', e⟩
          have := congrArg List.getLast? e
          simp at this
          exact q this
    rw [hj, if_pos h]

theorem join_ne (dir name : Text) (hd : dir ≠ []) : join dir name ≠ [] := by
  unfold join
  split
  · exact List.append_ne_nil_of_left_ne_nil hd _
  · exact List.append_ne_nil_of_left_ne_nil hd _

theorem lastDot_none : ∀ (s : Text) (i : Nat) (dot : Option Nat), (46 : UInt8) ∉ s → lastDot s i dot = dot
  | [], _, _, _ => rfl
  | c :: s, i, dot, h => by
    rw [List.mem_cons, not_or] at h
    unfold lastDot
    rw [if_neg fun e => h.1 e.symm]
    exact lastDot_none s _ _ h.2

theorem lastDot_at : ∀ (a s : Text) (i : Nat) (dot : Option Nat), (46 : UInt8) ∉ s → lastDot (a ++ 46 :: s) i dot = some (i + a.length)
  | [], s, i, dot, h => by
    show lastDot s (i + 1) (if (46 : UInt8) = 46 then some i else dot) = _
    rw [if_pos rfl, lastDot_none s _ _ h]
    rfl
  | c :: a, s, i, dot, h => by
    show lastDot (a ++ 46 :: s) (i + 1) _ = _
    rw [lastDot_at a s _ _ h, List.length_cons]
    congr 1
    omega

/-- The last dot of a text. -/
theorem dots (s : Text) : (46 : UInt8) ∉ s ∨ ∃ a b, s = a ++ 46 :: b ∧ (46 : UInt8) ∉ b := by
  induction s with
  | nil => exact .inl nofun
  | cons c s ih =>
    rcases ih with h | ⟨a, b, e, h⟩
    · by_cases q : c = 46
      · exact .inr ⟨[], s, by rw [q]; rfl, h⟩
      · exact .inl fun m => (List.mem_cons.1 m).elim (fun e => q e.symm) h
    · exact .inr ⟨c :: a, b, by rw [e]; rfl, h⟩

/-- The extension is `.noja-test` if the name ends with it. -/
theorem extension_iff (name : Text) : getExtension name = testExt ↔ IsTest name := by
  constructor
  · intro h
    unfold getExtension at h
    cases q : lastDot name 0 none with
    | none => rw [q] at h; cases h
    | some i =>
      rw [q] at h
      exact ⟨name.take i, by rw [← h, List.take_append_drop]⟩
  · rintro ⟨base, rfl⟩
    unfold getExtension
    rw [show testExt = 46 :: testExt.tail from rfl, lastDot_at base _ 0 none (by decide), Nat.zero_add]
    show (base ++ _).drop base.length = _
    rw [List.drop_left]

/-! ### What is done -/

theorem tally_append (v : Result) (a b : List (Text × Result)) : tally v (a ++ b) = tally v a + tally v b := by
  unfold tally
  rw [List.filter_append, List.length_append]

theorem Batch.add_right {a b : Batch} (ha : a.Right) (hb : b.Right) : (a.add b).Right := by
  obtain ⟨a1, a2, a3⟩ := ha
  obtain ⟨b1, b2, b3⟩ := hb
  refine ⟨?_, ?_, ?_⟩
  · show a.passed + b.passed = tally _ (a.log ++ b.log)
    rw [tally_append, a1, b1]
  · show a.failed + b.failed = tally _ (a.log ++ b.log)
    rw [tally_append, a2, b2]
  · show a.aborted + b.aborted = tally _ (a.log ++ b.log)
    rw [tally_append, a3, b3]

theorem Batch.count_log (b : Batch) (p : Text) (r : Result) : (b.count p r).log = b.log ++ [(p, r)] := by
  cases r <;> rfl

theorem Batch.count_right {b : Batch} (p : Text) (r : Result) (hb : b.Right) : (b.count p r).Right := by
  obtain ⟨b1, b2, b3⟩ := hb
  unfold Batch.Right
  rw [Batch.count_log, tally_append, tally_append, tally_append, ← b1, ← b2, ← b3]
  cases r <;> exact ⟨rfl, rfl, rfl⟩

theorem empty_right : ({} : Batch).Right := ⟨rfl, rfl, rfl⟩

theorem walk_eq {run : Text → Exec Result} {v : Text → Result} (hv : ∀ p, run p = .ok (v p)) : ∀ {t : Tree} {dir : Text} {b : Batch},
    dir ≠ [] → Fits t dir → b.Right →
    ∃ b', walk run t dir b = .ok b' ∧ b'.log = b.log ++ (tests false t dir).map (fun p => (p, v p)) ∧ b'.Right
  | .nil, dir, b, _, _, hb => ⟨b, rfl, by simp [tests], hb⟩
  | .dir name opens sub rest, dir, b, hd, hf, hb => by
    unfold walk tests
    by_cases q : name.head? = some 46
    · have hn : ¬ Shown name := fun h => (shown_iff name).1 h q
      obtain ⟨b', h1, h2, h3⟩ := walk_eq hv (t := rest) hd hf.2 hb
      rw [if_pos q, if_neg fun h => hn h.1]
      exact ⟨b', h1, h2, h3⟩
    · have hn : Shown name := (shown_iff name).2 q
      obtain ⟨hl, hsub⟩ := hf.1 hn
      rw [if_neg q, fullPath_eq hd hl]
      show ∃ b', (if opens = true then (walk run sub (join dir name) {}).bind _ else walk run rest dir b) = _ ∧ _
      cases opens with
      | false =>
        obtain ⟨b', h1, h2, h3⟩ := walk_eq hv (t := rest) hd hf.2 hb
        rw [if_neg (by decide), if_neg (by simp)]
        exact ⟨b', h1, h2, h3⟩
      | true =>
        obtain ⟨s, s1, s2, s3⟩ := walk_eq hv (t := sub) (b := {}) (join_ne _ _ hd) (hsub rfl) empty_right
        obtain ⟨b', h1, h2, h3⟩ := walk_eq hv (t := rest) (b := b.add s) hd hf.2 (Batch.add_right hb s3)
        rw [if_pos rfl, if_pos ⟨hn, .inl rfl⟩, s1]
        refine ⟨b', h1, ?_, h3⟩
        rw [h2]
        show (b.log ++ s.log) ++ _ = _
        rw [s2, List.map_append, List.append_assoc]
        rfl
  | .file name rest, dir, b, hd, hf, hb => by
    unfold walk tests
    by_cases q : name.head? = some 46
    · have hn : ¬ Shown name := fun h => (shown_iff name).1 h q
      obtain ⟨b', h1, h2, h3⟩ := walk_eq hv (t := rest) hd hf.2 hb
      rw [if_pos q, if_neg fun h => hn h.1]
      exact ⟨b', h1, h2, h3⟩
    · have hn : Shown name := (shown_iff name).2 q
      rw [if_neg q, fullPath_eq hd (hf.1 hn)]
      show ∃ b', (if getExtension name ≠ testExt then walk run rest dir b else _) = _ ∧ _
      by_cases hx : getExtension name = testExt
      · rw [if_neg (not_not_intro hx), if_pos ⟨hn, (extension_iff name).1 hx⟩, hv]
        obtain ⟨b', h1, h2, h3⟩ := walk_eq hv (t := rest) (b := b.count (join dir name) (v (join dir name))) hd hf.2 (Batch.count_right _ _ hb)
        refine ⟨b', h1, ?_, h3⟩
        rw [h2, Batch.count_log, List.map_append, List.append_assoc]
        rfl
      · obtain ⟨b', h1, h2, h3⟩ := walk_eq hv (t := rest) hd hf.2 hb
        rw [if_pos hx, if_neg fun h => hx ((extension_iff name).2 h.2)]
        exact ⟨b', h1, h2, h3⟩
  | .other name rest, dir, b, hd, hf, hb => by
    unfold walk tests
    obtain ⟨b', h1, h2, h3⟩ := walk_eq hv (t := rest) hd hf.2 hb
    by_cases q : name.head? = some 46
    · rw [if_pos q]
      exact ⟨b', h1, h2, h3⟩
    · rw [if_neg q, fullPath_eq hd (hf.1 ((shown_iff name).2 q))]
      exact ⟨b', h1, h2, h3⟩
  | .unknown name rest, dir, b, hd, hf, hb => by
    unfold walk tests
    obtain ⟨b', h1, h2, h3⟩ := walk_eq hv (t := rest) hd hf.2 hb
    have q : name.head? = some 46 := Classical.byContradiction fun q => hf.1 ((shown_iff name).2 q)
    rw [if_pos q]
    exact ⟨b', h1, h2, h3⟩

theorem tests_opens : ∀ {t : Tree} {dir : Text}, Opens t → tests false t dir = tests true t dir
  | .nil, _, _ => rfl
  | .dir name opens sub rest, dir, h => by
    unfold tests
    rw [tests_opens h.2]
    by_cases q : Shown name
    · obtain ⟨h1, h2⟩ := h.1 q
      rw [if_pos ⟨q, .inl h1⟩, if_pos ⟨q, .inl h1⟩, tests_opens h2]
    · rw [if_neg fun x => q x.1, if_neg fun x => q x.1]
  | .file name rest, dir, h => by
    unfold tests
    rw [tests_opens (t := rest) h]
  | .other name rest, dir, h => tests_opens (t := rest) h
  | .unknown name rest, dir, h => tests_opens (t := rest) h

/-- **C105**, in part: if the paths have less than 1024 bytes, the types of the entries are known and the directories below can be
opened. (Missing: the others, and the exit status; `C105_violated_long`, `C105_violated_unknown`, `C105_violated_closed`,
`C105_violated_status`.) -/
theorem C105_partial {run : Text → Exec Result} {v : Text → Result} (hv : ∀ p, run p = .ok (v p)) {dir : Text} {t : Tree} (hd : dir ≠ [])
    (hf : Fits t dir) (ho : Opens t) :
    runTestDirectory run dir false t = .ok none ∧
    ∃ b, runTestDirectory run dir true t = .ok (some b) ∧ b.log = (tests true t dir).map (fun p => (p, v p)) ∧ b.Right := by
  refine ⟨rfl, ?_⟩
  obtain ⟨b, h1, h2, h3⟩ := walk_eq hv (b := {}) hd hf empty_right
  refine ⟨b, ?_, ?_, h3⟩
  · unfold runTestDirectory
    rw [if_pos rfl, h1]
    rfl
  · rw [h2, tests_opens ho]
    rfl

/-- The tests in directories that can be opened are run, and no others, whether or not the others can be opened. -/
theorem C105_reached {run : Text → Exec Result} {v : Text → Result} (hv : ∀ p, run p = .ok (v p)) {dir : Text} {t : Tree} (hd : dir ≠ [])
    (hf : Fits t dir) :
    ∃ b, runTestDirectory run dir true t = .ok (some b) ∧ b.log = (tests false t dir).map (fun p => (p, v p)) ∧ b.Right := by
  obtain ⟨b, h1, h2, h3⟩ := walk_eq hv (b := {}) hd hf empty_right
  refine ⟨b, ?_, h2, h3⟩
  unfold runTestDirectory
  rw [if_pos rfl, h1]
  rfl

/-- The sum over the arguments. -/
theorem batches_eq {run : Text → Exec Result} {v : Text → Result} (hv : ∀ p, run p = .ok (v p)) : ∀ {as : List (Text × Bool × Tree)} {b : Batch} {n : Nat},
    (∀ a ∈ as, a.1 ≠ [] ∧ Fits a.2.2 a.1 ∧ Opens a.2.2) → b.Right →
    ∃ b', batches run as b n = .ok (b', n + (as.filter fun a => !a.2.1).length) ∧ b'.Right ∧
      b'.log = b.log ++ ((as.filter fun a => a.2.1).flatMap fun a => tests true a.2.2 a.1).map (fun p => (p, v p))
  | [], b, n, _, hb => ⟨b, rfl, hb, by simp⟩
  | (dir, opens, t) :: as, b, n, ha, hb => by
    obtain ⟨h1, h2, h3⟩ := ha _ List.mem_cons_self
    obtain ⟨p1, s, p2, p3, p4⟩ := C105_partial hv h1 h2 h3
    have hr := fun a q => ha a (List.mem_cons_of_mem _ q)
    unfold batches
    cases opens with
    | false =>
      obtain ⟨b', q1, q2, q3⟩ := batches_eq hv (b := b) (n := n + 1) hr hb
      dsimp only at p1
      rw [p1]
      refine ⟨b', ?_, q2, ?_⟩
      · show batches run as b (n + 1) = _
        rw [q1, List.filter_cons_of_pos (by rfl), List.length_cons, Nat.add_assoc, Nat.add_comm 1]
      · rw [q3, List.filter_cons_of_neg (by simp)]
    | true =>
      obtain ⟨b', q1, q2, q3⟩ := batches_eq hv (b := b.add s) (n := n) hr (Batch.add_right hb p4)
      dsimp only at p2
      rw [p2]
      refine ⟨b', ?_, q2, ?_⟩
      · show batches run as (b.add s) n = _
        rw [q1, List.filter_cons_of_neg (by simp)]
      · rw [q3, List.filter_cons_of_pos (by rfl), List.flatMap_cons, List.map_append, ← List.append_assoc]
        show (b.log ++ s.log) ++ _ = _
        rw [p3]

/-- What the tool writes at the end is the sum over the arguments. -/
theorem C105_summary {run : Text → Exec Result} {v : Text → Result} (hv : ∀ p, run p = .ok (v p)) {as : List (Text × Bool × Tree)}
    (ha : ∀ a ∈ as, a.1 ≠ [] ∧ Fits a.2.2 a.1 ∧ Opens a.2.2) :
    ∃ b, mainTool run as = .ok (b, (as.filter fun a => !a.2.1).length, 0) ∧ b.Right ∧
      b.log = ((as.filter fun a => a.2.1).flatMap fun a => tests true a.2.2 a.1).map (fun p => (p, v p)) := by
  obtain ⟨b, h1, h2, h3⟩ := batches_eq hv (b := {}) (n := 0) ha empty_right
  refine ⟨b, ?_, h2, h3⟩
  unfold mainTool
  rw [h1, Nat.zero_add]
  rfl

/-- All tests fail. -/
def fails : Text → Exec Result := fun _ => .ok .failed

/-- The exit status is 0 if a test failed. -/
theorem C105_violated_status : ¬ C105Statement := by
  intro h
  have := ((h fails (fun _ => .failed) fun _ => rfl).2 [([97], true, .file ([98] ++ testExt) .nil)] ⟨0, 1, 0, [([97, 47, 98] ++ testExt, .failed)]⟩ 0 0
    (by rfl)).1 rfl
  exact absurd this.2.1 (by decide)

/-- Tests in a directory that cannot be opened are passed over. -/
theorem C105_violated_closed : ¬ C105Statement := by
  intro h
  obtain ⟨r, h1, h2⟩ := (h fails (fun _ => .failed) fun _ => rfl).1 [97] true (.dir [99] false (.file ([98] ++ testExt) .nil) .nil) (by decide)
  have h3 : r = some {} := by
    have : runTestDirectory fails [97] true (.dir [99] false (.file ([98] ++ testExt) .nil) .nil) = .ok (some {}) := by rfl
    rw [this] at h1
    cases h1
    rfl
  have h4 := congrArg List.length (h2 _ h3).1
  have s1 : Shown [99] := by rintro r e; cases e
  have s2 : Shown ([98] ++ testExt) := by rintro r e; cases e
  unfold tests at h4
  rw [if_pos ⟨s1, .inr rfl⟩] at h4
  unfold tests at h4
  rw [if_pos ⟨s2, ⟨_, rfl⟩⟩] at h4
  simp at h4

/-- A path of 1024 bytes is written beyond the end of the array. -/
theorem C105_violated_long : ¬ C105Statement := by
  intro h
  obtain ⟨r, h1, -⟩ := (h fails (fun _ => .failed) fun _ => rfl).1 [97] true (.other (List.replicate 1022 98) .nil) (by decide)
  have key : isUb (runTestDirectory fails [97] true (.other (List.replicate 1022 98) .nil)) = true := by decide +kernel
  rw [h1] at key
  cases key

/-- An entry of unknown type ends the tool. -/
theorem C105_violated_unknown : ¬ C105Statement := by
  intro h
  obtain ⟨r, h1, -⟩ := (h fails (fun _ => .failed) fun _ => rfl).1 [97] true (.unknown [98] .nil) (by decide)
  cases h1

/-- A directory with a test, a hidden one, a file that is no test and a directory with a further test. -/
def sample : Tree :=
  .file ([98] ++ testExt) (.file (46 :: testExt) (.file [98, 46, 99] (.dir [100] true (.file ([46, 98, 46]) (.file ([101] ++ testExt) .nil)) .nil)))

theorem sample_fits : Fits sample [97, 47] := by
  have j : ∀ n : Text, join [97, 47] n = [97, 47] ++ n := fun n => by unfold join; rw [if_pos ⟨[97], rfl⟩]
  refine ⟨fun _ => by rw [j]; decide, fun _ => by rw [j]; decide, fun _ => by rw [j]; decide, fun _ => ⟨by rw [j]; decide, fun _ => ⟨fun h => absurd rfl (h _), fun _ => ?_, trivial⟩⟩, trivial⟩
  rw [j]
  unfold join
  split <;> decide

example : ∃ b, runTestDirectory fails [97, 47] true sample = .ok (some b) ∧ b.Right :=
  have ⟨b, h1, _, h3⟩ := (C105_partial (v := fun _ => .failed) (fun _ => rfl) (by decide) sample_fits
    ⟨fun _ => ⟨rfl, trivial⟩, trivial⟩).2
  ⟨b, h1, h3⟩

example : runTestDirectory fails [97, 47] true sample =
    .ok (some ⟨0, 2, 0, [([97, 47, 98] ++ testExt, .failed), ([97, 47, 100, 47, 101] ++ testExt, .failed)]⟩) := by rfl

/-! ## The two types of tests -/

/-- main.c:92-127: what is in the array after the stream was closed. POSIX lets a full stream end without a zero byte; with `nul` its
last byte is one, as in the GNU library. -/
def streamed (nul : Bool) (out : List UInt8) : List UInt8 :=
  if out.length < 1024 then out ++ [0] else if nul then out.take 1023 ++ [0] else out.take 1024

/-- The text at the beginning of the array, as `strcmp` and `%s` see it. -/
def cText (a : List UInt8) : Exec Text := if 0 ∈ a then .ok (a.takeWhile (· ≠ 0)) else .ub

/-- main.c:90-140 `runRuntimeTest`; `run` gives what a program writes, or nothing if it fails. -/
def runRuntimeTest (nul : Bool) (run : Text → Exec (Option (List UInt8))) : List Text → Exec Result
  | [code, expected] => (run code).bind fun
    | none => .ok .aborted
    | some out => (cText (streamed nul out)).bind fun got => .ok (if got = expected then .passed else .failed)
  | _ => .ub

/-- main.c:61-87: both sources are there. -/
def compared (comp asm : Text → Exec Exe.Executable) (source code : Text) : Exec Result :=
  match comp source with
  | .ub => .ub
  | .diverge => .diverge
  | .err => .ok .aborted
  | .ok e1 =>
    match asm code with
    | .ub => .ub
    | .diverge => .diverge
    | .err => .ok .aborted
    | .ok e2 => .ok (if Exe.equiv e1 e2 then .passed else .failed)

/-- main.c:42-88 `runCompilerTest`; `made`: whether there is memory for the first and for the second source. That the second is
missing is not noticed: the compiler runs, and then the source is used. -/
def runCompilerTest (comp asm : Text → Exec Exe.Executable) (made : Bool × Bool) : List Text → Exec Result
  | [source, code] =>
    if made.1 = false then .ok .aborted
    else if made.2 = false then
      match comp source with
      | .diverge => .diverge
      | _ => .ub
    else compared comp asm source code
  | _ => .ub

/-- **C106**: a test of the type `runtime` passes exactly if the program writes what is expected, one of the type `compiler` exactly
if the compiler gives the instructions that are expected; a test is aborted if this cannot be found out. -/
def C106Statement : Prop :=
  (∀ nul run code expected, 0 ∉ expected → (run code = .ok none → runRuntimeTest nul run [code, expected] = .ok .aborted) ∧
    ∀ out, run code = .ok (some out) → runRuntimeTest nul run [code, expected] = .ok (if out = expected then .passed else .failed)) ∧
  ∀ comp asm made source code,
    (made ≠ (true, true) → runCompilerTest comp asm made [source, code] = .ok .aborted) ∧
    (made = (true, true) → comp source = .err → runCompilerTest comp asm made [source, code] = .ok .aborted) ∧
    (∀ e1, made = (true, true) → comp source = .ok e1 → asm code = .err → runCompilerTest comp asm made [source, code] = .ok .aborted) ∧
    ∀ e1 e2, made = (true, true) → comp source = .ok e1 → asm code = .ok e2 →
      ∃ v, runCompilerTest comp asm made [source, code] = .ok v ∧ v ≠ .aborted ∧ (v = .passed ↔ ∀ i, Exe.fetch e1 i = Exe.fetch e2 i)

theorem cText_eq {out : List UInt8} (h : 0 ∉ out) : cText (out ++ [0]) = .ok out := by
  unfold cText
  rw [if_pos (by simp), takeWhile_zero h]

/-- **C106**, the type `runtime`, in part: for programs that write less than 1024 bytes, none of them zero.
(Missing: the others; `C106_violated_long`, `C106_violated_full`, `C106_violated_zero`.) -/
theorem C106_runtime_partial (nul : Bool) {run : Text → Exec (Option (List UInt8))} {code : Text} (expected : Text) :
    (run code = .ok none → runRuntimeTest nul run [code, expected] = .ok .aborted) ∧
    ∀ out, run code = .ok (some out) → out.length < 1024 → 0 ∉ out →
      runRuntimeTest nul run [code, expected] = .ok (if out = expected then .passed else .failed) := by
  refine ⟨fun h => ?_, fun out h hl hz => ?_⟩
  · unfold runRuntimeTest
    dsimp only
    rw [h]
    rfl
  · unfold runRuntimeTest
    dsimp only
    rw [h]
    show (cText (streamed nul out)).bind _ = _
    unfold streamed
    rw [if_pos hl, cText_eq hz]
    rfl

/-- **C106**, the type `compiler`, in part: if there is memory for the second source, and the operands are integers of the type `int`,
texts and floating point numbers other than zeros and those that are no numbers. (Missing: the others; `C106_violated_memory`,
`C106_violated_operand`.) -/
theorem C106_compiler_partial (comp asm : Text → Exec Exe.Executable) (source code : Text) :
    (∀ b, runCompilerTest comp asm (false, b) [source, code] = .ok .aborted) ∧
    (comp source = .err → runCompilerTest comp asm (true, true) [source, code] = .ok .aborted) ∧
    (∀ e1, comp source = .ok e1 → asm code = .err → runCompilerTest comp asm (true, true) [source, code] = .ok .aborted) ∧
    ∀ e1 e2, comp source = .ok e1 → asm code = .ok e2 →
      (∀ i o as, Exe.fetch e1 i = some (o, as) → ∀ a ∈ as, Exe.Plain a ∧ ∀ x, a = .float x → Num.isNaN x = false) →
      (∀ i o as, Exe.fetch e2 i = some (o, as) → ∀ a ∈ as, Exe.Plain a) →
      ∃ v, runCompilerTest comp asm (true, true) [source, code] = .ok v ∧ v ≠ .aborted ∧ (v = .passed ↔ ∀ i, Exe.fetch e1 i = Exe.fetch e2 i) := by
  refine ⟨fun b => rfl, fun h => ?_, fun e1 h1 h2 => ?_, fun e1 e2 h1 h2 p1 p2 => ?_⟩
  · show compared comp asm source code = _
    unfold compared
    rw [h]
  · show compared comp asm source code = _
    unfold compared
    rw [h1]
    dsimp only
    rw [h2]
  · refine ⟨if Exe.equiv e1 e2 then .passed else .failed, ?_, ?_, ?_⟩
    · show compared comp asm source code = _
      unfold compared
      rw [h1]
      dsimp only
      rw [h2]
    · split <;> exact nofun
    · by_cases q : Exe.equiv e1 e2 = true
      · rw [if_pos q]
        exact ⟨fun _ => Exe.C59_partial e1 e2 q (fun i o as h a ha => (p1 i o as h a ha).1) p2, fun _ => rfl⟩
      · rw [if_neg q]
        exact ⟨nofun, fun h => absurd (Exe.C59_complete e1 e2 h fun i o as x hf hx => (p1 i o as hf _ hx).2 x rfl) q⟩

/-- 1024 bytes of output are not followed by a zero byte. -/
theorem C106_violated_full : ¬ C106Statement := by
  intro h
  have h1 := ((h.1 false (fun _ => .ok (some (List.replicate 1024 97))) [] [] (by decide)).2 _ rfl)
  have key : isUb (runRuntimeTest false (fun _ => .ok (some (List.replicate 1024 97))) [[], []]) = true := by decide +kernel
  rw [h1] at key
  cases key

/-- Of long output only the first 1023 bytes are compared. -/
theorem C106_violated_long : ¬ C106Statement := by
  intro h
  have h1 := ((h.1 true (fun _ => .ok (some (List.replicate 1024 97))) [] (List.replicate 1023 97) (fun m => by cases List.eq_of_mem_replicate m)).2 _ rfl)
  have key : (match runRuntimeTest true (fun _ => .ok (some (List.replicate 1024 97))) [[], List.replicate 1023 97] with
    | .ok .passed => true
    | _ => false) = true := by decide +kernel
  rw [h1, if_neg (by decide +kernel)] at key
  cases key

/-- What follows a zero byte is not compared. -/
theorem C106_violated_zero : ¬ C106Statement := by
  intro h
  have h1 := ((h.1 true (fun _ => .ok (some [97, 0, 98])) [] [97] (by decide)).2 _ rfl)
  rw [if_neg (by decide)] at h1
  have key : runRuntimeTest true (fun _ => .ok (some [97, 0, 98])) [[], [97]] = .ok .passed := by rfl
  rw [key] at h1
  cases h1

/-- That there is no memory for the second source is not noticed. -/
theorem C106_violated_memory : ¬ C106Statement := by
  intro h
  have := (h.2 (fun _ => .err) (fun _ => .err) (true, false) [] []).1 (by decide)
  cases this

/-- `PUSHINT 0` where `PUSHINT 4294967296` is expected. -/
theorem C106_violated_operand : ¬ C106Statement := by
  intro h
  obtain ⟨v, h1, -, h3⟩ := (h.2 (fun _ => .ok (Exe.pushInt 0)) (fun _ => .ok (Exe.pushInt 4294967296)) (true, true) [] []).2.2.2 _ _ rfl rfl rfl
  have key : runCompilerTest (fun _ => .ok (Exe.pushInt 0)) (fun _ => .ok (Exe.pushInt 4294967296)) (true, true) [[], []] = .ok .passed := by rfl
  rw [key] at h1
  cases h1
  have := h3.1 rfl 0
  revert this
  decide

example : runRuntimeTest false (fun _ => .ok (some [104, 105])) [[], [104, 105]] = .ok .passed :=
  (C106_runtime_partial false (run := fun _ => .ok (some [104, 105])) (code := []) [104, 105]).2 [104, 105] rfl (by decide) (by decide)

example : ∃ v, runCompilerTest (fun _ => .ok (Exe.pushInt 3)) (fun _ => .ok (Exe.pushInt 4)) (true, true) [[], []] = .ok v ∧ v ≠ .aborted := by
  obtain ⟨v, h1, h2, -⟩ := (C106_compiler_partial (fun _ => .ok (Exe.pushInt 3)) (fun _ => .ok (Exe.pushInt 4)) [] []).2.2.2 _ _ rfl rfl
    (fun i o as h a ha => by
      cases i with
      | zero =>
        cases h
        cases List.mem_singleton.1 ha
        exact ⟨show IsI32 3 by decide, nofun⟩
      | succ i => cases h)
    (fun i o as h a ha => by
      cases i with
      | zero =>
        cases h
        cases List.mem_singleton.1 ha
        exact (show IsI32 4 by decide)
      | succ i => cases h)
  exact ⟨v, h1, h2⟩

/-! ## The types of the tool -/

/-- main.c:15-19 `test_types`: `compiler` with `source` and `bytecode`, `runtime` with `bytecode` and `output`. -/
def testTypes (nul : Bool) (comp asm : Text → Exec Exe.Executable) (made : Bool × Bool) (run : Text → Exec (Option (List UInt8))) : List Kind :=
  [⟨[99, 111, 109, 112, 105, 108, 101, 114], [[115, 111, 117, 114, 99, 101], [98, 121, 116, 101, 99, 111, 100, 101]], runCompilerTest comp asm made⟩,
   ⟨[114, 117, 110, 116, 105, 109, 101], [[98, 121, 116, 101, 99, 111, 100, 101], [111, 117, 116, 112, 117, 116]], runRuntimeTest nul run⟩]

theorem testTypes_fair (nul : Bool) (comp asm : Text → Exec Exe.Executable) (made : Bool × Bool) (run : Text → Exec (Option (List UInt8))) :
    ∀ k ∈ testTypes nul comp asm made run, k.Fair := by
  intro k hk
  rcases List.mem_cons.1 hk with rfl | hk
  · unfold Kind.Fair
    exact ⟨by dsimp only; decide, by dsimp only; decide⟩
  · cases List.mem_singleton.1 hk
    unfold Kind.Fair
    exact ⟨by dsimp only; decide, by dsimp only; decide⟩

/-- From the text of a test to its verdict: a test `runtime` with the fields `bytecode` and `output` passes exactly if the program writes
what is expected. -/
theorem C106_text (nul : Bool) (comp asm : Text → Exec Exe.Executable) (made : Bool × Bool) (run : Text → Exec (Option (List UInt8)))
    {s rest code expected out : Text} {fs : List (Text × Text)} (hr : Reads s fs rest) (hd : (fs.map Prod.fst).Nodup)
    (hw : ∀ c ∈ rest, Blank c) (hn : fs.length < 8) (h1 : (typeName, [114, 117, 110, 116, 105, 109, 101]) ∈ fs)
    (h2 : ([98, 121, 116, 101, 99, 111, 100, 101], code) ∈ fs) (h3 : ([111, 117, 116, 112, 117, 116], expected) ∈ fs)
    (ho : run code = .ok (some out)) (hl : out.length < 1024) (hz : 0 ∉ out) :
    ∃ w t, runTestString (testTypes nul comp asm made run) s = .ok ⟨if out = expected then .passed else .failed, w, t⟩ ∧ Freed t ∧
      (w = none ↔ fs.length = 3) := by
  have key : ∀ {fs : List (Text × Text)} {n b : Text}, (fs.map Prod.fst).Nodup → (n, b) ∈ fs → bodyOf fs n = some b := by
    intro fs n b hd hm
    induction fs with
    | nil => cases hm
    | cons f fs ih =>
      rw [List.map_cons, List.nodup_cons] at hd
      unfold bodyOf
      rcases List.mem_cons.1 hm with rfl | hm
      · rw [List.find?_cons_of_pos (by simp)]
        rfl
      · rw [List.find?_cons_of_neg]
        · exact ih hd.2 hm
        · intro e
          have e : f.1 = n := of_decide_eq_true e
          exact hd.1 (e ▸ List.mem_map_of_mem (f := Prod.fst) hm)
  have hb : ([[98, 121, 116, 101, 99, 111, 100, 101], [111, 117, 116, 112, 117, 116]] : List Text).map (bodyOf fs) = [code, expected].map some := by
    rw [List.map_cons, List.map_cons, key hd h2, key hd h3]
    rfl
  have hc : Calls (testTypes nul comp asm made run) fs
      ⟨[114, 117, 110, 116, 105, 109, 101], [[98, 121, 116, 101, 99, 111, 100, 101], [111, 117, 116, 112, 117, 116]], runRuntimeTest nul run⟩ [code, expected] := by
    refine .mk (pre := [_]) (post := []) rfl (key hd h1) (fun k hk => ?_) hb
    cases List.mem_singleton.1 hk
    dsimp only
    decide
  obtain ⟨t, ht, hf⟩ := (C104_partial (testTypes_fair nul comp asm made run) hr hd (.void hw) hn nofun).2.2 rfl _ _ _ hc
    ((C106_runtime_partial nul expected).2 out ho hl hz)
  refine ⟨_, t, ht, hf, ?_⟩
  have hs := spare_eq (k := ⟨[114, 117, 110, 116, 105, 109, 101], [[98, 121, 116, 101, 99, 111, 100, 101], [111, 117, 116, 112, 117, 116]], runRuntimeTest nul run⟩)
    hd (by dsimp only; decide) (bodyOf_mem (key hd h1)) hb
  rw [if_neg (by dsimp only; decide)] at hs
  simp only [List.length_cons, List.length_nil] at hs
  constructor
  · intro e
    by_cases q : spare ⟨[114, 117, 110, 116, 105, 109, 101], [[98, 121, 116, 101, 99, 111, 100, 101], [111, 117, 116, 112, 117, 116]], runRuntimeTest nul run⟩ fs = 0
    · omega
    · rw [if_neg q] at e
      cases e
  · intro e
    rw [if_pos (by omega)]

end Noja.TestRun
