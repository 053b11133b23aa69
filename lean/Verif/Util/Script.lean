import Verif.Util.Path
import Verif.Str.Props

/-!
# Which file `import` opens (C86)

runtime.c:231-306, run.c:1242-1290 and basic.c:64-95.  The path of the script is the name of the source
of the newest frame of the language, if that source is a file; `Source_FromFile` has made it absolute
(`C72`).  `cwd` is what `getcwd` returns.
-/

set_option linter.unusedVariables false
set_option linter.unusedSimpArgs false

namespace Noja.Script

open Noja.Path (store isAbsolute cstring)

/-! ## Model -/

/-- runtime.c:26-33: what the functions below see of a frame: a source with a name and whether it is a
file, for the frames of the language. -/
inductive Fr where
  | normal (src : Option (List UInt8 × Bool))
  | other

/-- runtime.c:298-306 `Runtime_GetMostRecentExecutable`, runtime.c:280-296
`Runtime_GetCurrentScriptAbsolutePath`, source.c:79-84 `Source_GetAbsolutePath`. -/
def scriptPath : List Fr → Option (List UInt8)
  | [] => none
  | .other :: fs => scriptPath fs
  | .normal (some (name, true)) :: _ => some name
  | .normal _ :: _ => none

/-- runtime.c:260-266 and basic.c:75-78: the length of the path without what is behind the last slash;
`n` characters are left. -/
def dirLen (path : List UInt8) : (n : Nat) → Exec Nat
  | 0 => .ub
  | n + 1 =>
    match path[n]? with
    | none => .ub
    | some c => if c = 47 then .ok (n + 1) else dirLen path n

/-- runtime.c:231-278 `Runtime_GetCurrentScriptFolder(runtime, buff, buffsize)`: the buffer and the
number returned. -/
def scriptFolder (script cwd : Option (List UInt8)) (buf : List UInt8) : Exec (List UInt8 × Nat) :=
  match script with
  | none =>
    match cwd with
    | none => .ok (buf, 0)
    | some cwd =>
      if cwd.length + 1 > buf.length then .ok (buf, 0)
      else do
        let buf ← store buf 0 (cwd ++ [0])
        if cwd = [] then .ub
        else if cwd.getLast? = some 47 then .ok (buf, cwd.length)
        else if cwd.length + 1 ≥ buf.length then .ok (buf, 0)
        else do
          let buf ← store buf cwd.length [47]
          .ok (buf, cwd.length + 1)
  | some path => do
    let n ← dirLen path path.length
    if n ≥ buf.length then .ok (buf, 0)
    else do
      let buf ← store buf 0 (path.take n)
      let buf ← store buf n [0]
      .ok (buf, n)

/-- run.c:1242-1267 `makePathRelativeToScript`. -/
def makePath (script cwd : Option (List UInt8)) (file buf : List UInt8) : Exec (List UInt8 × Bool) :=
  if isAbsolute file then
    if file.length ≥ buf.length then .ok (buf, false)
    else do
      let buf ← store buf 0 (file ++ [0])
      .ok (buf, true)
  else do
    let (buf, written) ← scriptFolder script cwd buf
    if written = 0 then .ok (buf, false)
    else if written + file.length ≥ buf.length then .ok (buf, false)
    else do
      let buf ← store buf written file
      let buf ← store buf (written + file.length) [0]
      .ok (buf, true)

/-- basic.c:122-137 `bin_import`, run.c:1269-1285 `runFileRelativeToScript`: the path given to
`Source_FromFile`, if there is one.  `junk` is what the array `full` contains at the beginning. -/
def importPath (frames : List Fr) (cwd : Option (List UInt8)) (arg : Str.Str) (junk : List UInt8) : Exec (Option (List UInt8)) := do
  let (buf, ok) ← makePath (scriptPath frames) cwd (cstring arg.body) junk
  .ok (if ok then some (cstring buf) else none)

/-- basic.c:64-83 `bin_getCurrentScriptDirectory`; no string stands for `none`. -/
def scriptDirectory (frames : List Fr) : Exec (Option Str.Str) :=
  match scriptPath frames with
  | none => .ok none
  | some path => do
    let n ← dirLen path path.length
    let s ← Str.fromString (path ++ [0]) n
    .ok (some s)

/-! ## Property -/

/-- The script that is running: no frame of the language is in front of it. -/
inductive Runs : List Fr → Option (List UInt8) → Prop
  | file (name : List UInt8) (fs : List Fr) : Runs (.normal (some (name, true)) :: fs) (some name)
  | text (name : List UInt8) (fs : List Fr) : Runs (.normal (some (name, false)) :: fs) none
  | bare (fs : List Fr) : Runs (.normal none :: fs) none
  | skip {fs : List Fr} {p : Option (List UInt8)} : Runs fs p → Runs (.other :: fs) p
  | nothing : Runs [] none

theorem runs_iff (fs : List Fr) (p : Option (List UInt8)) : Runs fs p ↔ scriptPath fs = p := by
  constructor
  · intro h
    induction h with
    | file | text | bare | nothing => rfl
    | skip _ ih => exact ih
  · rintro rfl
    induction fs with
    | nil => exact .nothing
    | cons f fs ih =>
      match f with
      | .other => exact .skip ih
      | .normal none => exact .bare fs
      | .normal (some (name, true)) => exact .file name fs
      | .normal (some (name, false)) => exact .text name fs

/-- The folder of a script, or the working directory if the program is not in a file; it ends with a
slash. -/
inductive Folder (cwd : List UInt8) : Option (List UInt8) → List UInt8 → Prop
  | script (dir base : List UInt8) : (47 : UInt8) ∉ base → Folder cwd (some (dir ++ 47 :: base)) (dir ++ [47])
  | root (dir : List UInt8) : cwd = dir ++ [47] → Folder cwd none cwd
  | cwd : (∀ dir, cwd ≠ dir ++ [47]) → Folder cwd none (cwd ++ [47])

/-- **C86**: `import` opens the file with that name: the name itself if it is absolute, otherwise the file of
that name in the folder of the script that is running; it refuses exactly the paths of 1024 characters or more. -/
def C86Statement : Prop :=
  ∀ (frames : List Fr) (script : Option (List UInt8)) (cwd folder : List UInt8) (t : List Nat) (junk : List UInt8),
    Runs frames script → Folder cwd script folder → (0 : UInt8) ∉ folder → cwd ≠ [] → (∀ c ∈ t, Utf8.Spec.Valid c) →
    junk.length = 1024 →
    let file := Utf8.Spec.encodeText t
    let path := if file.head? = some 47 then file else folder ++ file
    importPath frames (some cwd) (Str.Spec.ofText t) junk = .ok (if path.length < 1024 then some path else none)

theorem dirLen_last (dir base : List UInt8) (h : (47 : UInt8) ∉ base) : ∀ n, n ≤ base.length →
    dirLen (dir ++ 47 :: base) (dir.length + 1 + n) = .ok (dir.length + 1) := by
  intro n
  induction n with
  | zero =>
    intro _
    rw [Nat.add_zero, dirLen, List.getElem?_append_right (Nat.le_refl _), Nat.sub_self]
    rfl
  | succ n ih =>
    intro hn
    have hi : (dir ++ 47 :: base)[dir.length + 1 + n]? = some base[n] := by
      rw [List.getElem?_append_right (by omega), show dir.length + 1 + n - dir.length = n + 1 by omega, List.getElem?_cons_succ,
        List.getElem?_eq_getElem]
    have hne : base[n] ≠ 47 := fun e => h (e ▸ List.getElem_mem _)
    rw [show dir.length + 1 + (n + 1) = (dir.length + 1 + n) + 1 by omega, dirLen, hi]
    simp only
    rw [if_neg hne, ih (by omega)]

theorem dirLen_path (dir base : List UInt8) (h : (47 : UInt8) ∉ base) :
    dirLen (dir ++ 47 :: base) (dir ++ 47 :: base).length = .ok (dir.length + 1) := by
  have := dirLen_last dir base h base.length (Nat.le_refl _)
  rw [← this]
  congr 1
  simp; omega

theorem store_zero {buf bs : List UInt8} (h : bs.length ≤ buf.length) : store buf 0 bs = .ok (bs ++ buf.drop bs.length) := by
  unfold store
  rw [if_pos (by omega)]
  simp

theorem store_at {bs pre rest : List UInt8} (h : bs.length ≤ rest.length) :
    store (pre ++ rest) pre.length bs = .ok (pre ++ bs ++ rest.drop bs.length) := by
  unfold store
  rw [if_pos (by simp; omega), List.take_left, List.drop_append, List.drop_of_length_le (by omega)]
  simp

theorem head_append {folder file : List UInt8} (hf : folder ≠ []) : (folder ++ file).head? = folder.head? := by
  cases folder with
  | nil => exact absurd rfl hf
  | cons => rfl

/-- The folder is in the buffer if it fits. -/
theorem folder_ok {cwd folder buf : List UInt8} {script : Option (List UInt8)} (h : Folder cwd script folder) (hc : cwd ≠ []) :
    folder ≠ [] ∧ ((folder.length < buf.length ∧ ∃ rest, scriptFolder script (some cwd) buf = .ok (folder ++ rest, folder.length) ∧
        folder.length + rest.length = buf.length) ∨
      (buf.length ≤ folder.length ∧ ∃ buf', scriptFolder script (some cwd) buf = .ok (buf', 0))) := by
  cases h with
  | script dir base hb =>
    have hl : (dir ++ [47]).length = dir.length + 1 := by simp
    refine ⟨by simp, ?_⟩
    unfold scriptFolder
    simp only
    rw [dirLen_path dir base hb, Exec.bind_ok]
    by_cases hn : dir.length + 1 ≥ buf.length
    · right
      rw [if_pos hn]
      exact ⟨by omega, _, rfl⟩
    · left
      refine ⟨by omega, ?_⟩
      rw [if_neg hn]
      have ht : (dir ++ 47 :: base).take (dir.length + 1) = dir ++ [47] := by
        rw [List.take_append, List.take_of_length_le (by omega), show dir.length + 1 - dir.length = 1 by omega]
        rfl
      rw [ht, store_zero (by omega), Exec.bind_ok, ← hl, store_at (by simp; omega), Exec.bind_ok]
      refine ⟨[0] ++ (buf.drop (dir ++ [47]).length).drop 1, by simp, ?_⟩
      simp; omega
  | root dir hd =>
    refine ⟨hc, ?_⟩
    unfold scriptFolder
    simp only
    by_cases h1 : cwd.length + 1 > buf.length
    · right; rw [if_pos h1]; exact ⟨by omega, _, rfl⟩
    · left
      refine ⟨by omega, ?_⟩
      rw [if_neg h1, store_zero (by simp; omega), Exec.bind_ok, if_neg hc, if_pos (by rw [hd]; simp)]
      refine ⟨[0] ++ buf.drop (cwd ++ [0]).length, by simp, ?_⟩
      simp; omega
  | cwd hd =>
    refine ⟨by simp, ?_⟩
    have hl : (cwd ++ [47]).length = cwd.length + 1 := by simp
    unfold scriptFolder
    simp only
    by_cases h1 : cwd.length + 1 > buf.length
    · right; rw [if_pos h1]; exact ⟨by omega, _, rfl⟩
    · rw [if_neg h1, store_zero (by simp; omega), Exec.bind_ok, if_neg hc]
      have hlast : ¬ cwd.getLast? = some 47 := by
        intro e
        obtain ⟨dir, rfl⟩ := List.getLast?_eq_some_iff.mp e
        exact hd dir rfl
      rw [if_neg hlast]
      have hbl : (cwd ++ [0] ++ buf.drop (cwd ++ [(0 : UInt8)]).length).length = buf.length := by simp; omega
      rw [hbl]
      by_cases h2 : cwd.length + 1 ≥ buf.length
      · right; rw [if_pos h2]; exact ⟨by omega, _, rfl⟩
      · left
        refine ⟨by omega, ?_⟩
        rw [if_neg h2, List.append_assoc cwd, store_at (by simp), Exec.bind_ok]
        refine ⟨(([0] : List UInt8) ++ buf.drop (cwd ++ [(0 : UInt8)]).length).drop 1, by simp, ?_⟩
        simp; omega

theorem path_ok {cwd folder file buf : List UInt8} {script : Option (List UInt8)} (h : Folder cwd script folder) (hc : cwd ≠ []) :
    let path := if file.head? = some 47 then file else folder ++ file
    (path.length < buf.length → ∃ rest, makePath script (some cwd) file buf = .ok (path ++ 0 :: rest, true)) ∧
    (buf.length ≤ path.length → ∃ buf', makePath script (some cwd) file buf = .ok (buf', false)) := by
  intro path
  unfold makePath
  by_cases ha : file.head? = some 47
  · have hp : path = file := if_pos ha
    rw [if_pos (by simp [isAbsolute, ha]), hp]
    refine ⟨fun hl => ?_, fun hl => ⟨_, if_pos hl⟩⟩
    rw [if_neg (by omega), store_zero (by simp; omega), Exec.bind_ok]
    exact ⟨buf.drop (file ++ [0]).length, by simp⟩
  · have hp : path = folder ++ file := if_neg ha
    rw [if_neg (by simp [isAbsolute, ha]), hp]
    obtain ⟨hne, ⟨hl, rest, e, hr⟩ | ⟨hl, buf', e⟩⟩ := folder_ok (buf := buf) h hc
    · have hpos : folder.length ≠ 0 := by
        cases folder with
        | nil => exact absurd rfl hne
        | cons => simp
      rw [e, Exec.bind_ok]
      simp only
      rw [if_neg hpos]
      have hfl : (folder ++ rest).length = buf.length := by simp; omega
      rw [hfl]
      have hpl : (folder ++ file).length = folder.length + file.length := by simp
      refine ⟨fun hlt => ?_, fun hge => ⟨_, if_pos (by omega)⟩⟩
      rw [if_neg (by omega), store_at (by omega), Exec.bind_ok, ← hpl, store_at (by simp; omega), Exec.bind_ok]
      exact ⟨(rest.drop file.length).drop 1, by simp⟩
    · rw [e, Exec.bind_ok]
      simp only [if_true]
      refine ⟨fun hlt => ?_, fun _ => ⟨_, rfl⟩⟩
      simp at hlt; omega

theorem takeWhile_nul {l : List UInt8} (h : (0 : UInt8) ∉ l) : cstring (l ++ [0]) = l := Path.takeWhile_append_nul l [] h

/-- C86 for names without NUL.  Missing: others, of which only the part before the NUL is looked at. -/
theorem C86_partial (frames : List Fr) (script : Option (List UInt8)) (cwd folder : List UInt8) (t : List Nat) (junk : List UInt8)
    (hr : Runs frames script) (hf : Folder cwd script folder) (h0 : (0 : UInt8) ∉ folder) (hc : cwd ≠ [])
    (ht : (0 : UInt8) ∉ Utf8.Spec.encodeText t) (hj : junk.length = 1024) :
    let file := Utf8.Spec.encodeText t
    let path := if file.head? = some 47 then file else folder ++ file
    importPath frames (some cwd) (Str.Spec.ofText t) junk = .ok (if path.length < 1024 then some path else none) := by
  intro file path
  unfold importPath
  rw [(runs_iff _ _).mp hr, show cstring (Str.Spec.ofText t).body = file from takeWhile_nul ht]
  obtain ⟨h1, h2⟩ := path_ok (file := file) (buf := junk) hf hc
  have hp0 : (0 : UInt8) ∉ path := by
    show (0 : UInt8) ∉ (if file.head? = some 47 then file else folder ++ file)
    split
    · exact ht
    · simp [h0]; exact ht
  by_cases hl : path.length < 1024
  · obtain ⟨rest, e⟩ := h1 (by rw [hj]; exact hl)
    rw [e, Exec.bind_ok, if_pos hl]
    show Exec.ok (some (cstring (path ++ 0 :: rest))) = _
    rw [show cstring (path ++ 0 :: rest) = path from Path.takeWhile_append_nul _ _ hp0]
  · obtain ⟨buf', e⟩ := h2 (by rw [hj]; exact Nat.le_of_not_lt hl)
    rw [e, Exec.bind_ok, if_neg hl]
    rfl

/-- The directory of the script, as a builtin gives it. -/
theorem C86_directory (frames : List Fr) (t : List Nat) (ht : ∀ c ∈ t, Utf8.Spec.Valid c) (base : List UInt8)
    (hb : (47 : UInt8) ∉ base) (dir : List UInt8) (hd : dir ++ [47] = Utf8.Spec.encodeText t)
    (hr : Runs frames (some (dir ++ 47 :: base))) : scriptDirectory frames = .ok (some (Str.Spec.ofText t)) := by
  unfold scriptDirectory
  rw [(runs_iff _ _).mp hr]
  simp only
  rw [dirLen_path dir base hb, Exec.bind_ok]
  have e : dir ++ 47 :: base ++ [0] = Utf8.Spec.encodeText t ++ (base ++ [0]) := by rw [← hd]; simp
  have l : dir.length + 1 = (Utf8.Spec.encodeText t).length := by rw [← hd]; simp
  rw [e, l, Str.C03_fromString t ht, Exec.bind_ok]

/-- No directory if the program is not in a file. -/
theorem C86_no_directory (frames : List Fr) (hr : Runs frames none) : scriptDirectory frames = .ok none := by
  unfold scriptDirectory
  rw [(runs_iff _ _).mp hr]

/-- `import` of the name `a`, NUL, `b` opens `a`. -/
theorem C86_violated : ¬ C86Statement := by
  intro h
  have := h [] none [47, 99] [47, 99, 47] [97, 0, 98] (List.replicate 1024 0) .nothing
    (.cwd (by intro dir e; have := congrArg List.getLast? e; simp at this)) (by decide) (by decide)
    (by simp [Utf8.Spec.Valid]) List.length_replicate
  have e : importPath [] (some [47, 99]) (Str.Spec.ofText [97, 0, 98]) (List.replicate 1024 0) = .ok (some [47, 99, 47, 97]) := by
    obtain ⟨rest, hr⟩ := (path_ok (cwd := [47, 99]) (folder := [47, 99, 47]) (file := [97]) (buf := List.replicate 1024 0) (script := none)
      (.cwd (by intro dir e; have := congrArg List.getLast? e; simp at this)) (by decide)).1 (by rw [List.length_replicate]; decide)
    unfold importPath
    rw [show scriptPath [] = none from rfl, show cstring (Str.Spec.ofText [97, 0, 98]).body = [97] by decide, hr, Exec.bind_ok]
    show Exec.ok (some (cstring ([47, 99, 47, 97] ++ 0 :: rest))) = _
    rw [show cstring ([47, 99, 47, 97] ++ 0 :: rest) = [47, 99, 47, 97] from Path.takeWhile_append_nul _ _ (by decide)]
  rw [e] at this
  have h2 := Exec.ok.inj this
  rw [if_pos (by decide)] at h2
  exact absurd h2 (by decide)

/-- A script `/s/m` that imports `x`, called from a native function. -/
example : importPath [.other, .normal (some ([47, 115, 47, 109], true)), .normal none] (some [47]) (Str.Spec.ofText [120]) (List.replicate 1024 9) =
    .ok (some [47, 115, 47, 120]) := by
  have h := C86_partial [.other, .normal (some ([47, 115, 47, 109], true)), .normal none] (some ([47, 115] ++ 47 :: [109])) [47] _ [120]
    (List.replicate 1024 9) (.skip (.file _ _)) (.script [47, 115] [109] (by decide)) (by decide) (by decide) (by decide) List.length_replicate
  dsimp only at h
  rw [if_pos (by decide)] at h
  exact h

example : scriptDirectory [.normal (some ([47, 115, 47, 109], true))] = .ok (some (Str.Spec.ofText [47, 115, 47])) :=
  C86_directory _ [47, 115, 47] (by simp [Utf8.Spec.Valid]) [109] (by decide) [47, 115] (by decide) (.file _ _)

end Noja.Script
