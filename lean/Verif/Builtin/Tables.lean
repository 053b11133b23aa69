import Verif.Builtin.Args

/-! # Tables of builtins (src/lib/builtins), their lookup (src/lib/o_staticmap.c) and the scope they
form (src/lib/runtime.c, src/lib/objects/o_closure.c) -/

namespace Noja.Builtin

set_option linter.unusedSimpArgs false

/-- How a builtin gets at its arguments: `direct n` reads `argv[0..n)`, `each` loops over all `argc`
arguments, `format` calls `parseArgs`. -/
inductive Access where
  | direct (n : Nat)
  | each
  | format (s : String)

/-- An entry of a table.  For functions: the registered number of parameters (`none`: variadic) and
how it reads its arguments. -/
structure Slot where
  name : String
  fn : Option (Option Nat × Access)

def Slot.value (name : String) : Slot := ⟨name, none⟩
def Slot.funct (name : String) (argc : Option Nat) (a : Access) : Slot := ⟨name, some (argc, a)⟩

/-- A table: its slots, and whether an `SM_END` slot (whose name is NULL) follows. -/
structure Table where
  slots : List Slot
  terminated : Bool

/-- basic.c:315-352 -/
def basic : Table := ⟨[.value "Type", .value "None", .value "int", .value "bool", .value "float",
  .value "String", .value "Buffer", .value "List", .value "Map", .value "File", .value "Directory",
  .value "NullableType", .value "SumType", .value "any", .value "net", .value "math", .value "files",
  .value "buffer", .value "string", .value "random",
  .funct "import" (some 1) (.format "s"), .funct "type" (some 1) (.direct 1),
  .funct "print" none .each, .funct "input" (some 0) (.direct 0), .funct "count" (some 1) (.direct 1),
  .funct "error" (some 1) (.direct 1), .funct "assert" none .each,
  .funct "istypeof" (some 2) (.direct 2), .funct "typename" (some 1) (.direct 1),
  .funct "keysof" (some 1) (.direct 1), .funct "getCurrentWorkingDirectory" (some 0) (.direct 0),
  .funct "getCurrentScriptDirectory" (some 0) (.direct 0),
  .funct "getCurrentScriptLocation" (some 0) (.direct 0)], true⟩

/-- net.c:191-203 -/
def net : Table := ⟨[.value "AF_INET", .value "SOCK_STREAM", .value "SOCK_DGRAM",
  .funct "socket" (some 4) (.format "iii?b"), .funct "bind" (some 4) (.format "iii?s"),
  .funct "listen" (some 2) (.format "ii"), .funct "accept" (some 1) (.format "i"),
  .funct "recv" (some 3) (.format "iB?i"), .funct "send" (some 3) (.format "iB?i"),
  .funct "close" (some 1) (.format "i")], true⟩

/-- math.c:139-162; `pow` is defined by `WRAP_FUNC_2` (57-82, 95). -/
def math : Table := ⟨[.value "PI", .value "E",
  .funct "floor" (some 1) (.direct 1), .funct "ceil" (some 1) (.direct 1),
  .funct "cos" (some 1) (.direct 1), .funct "sin" (some 1) (.direct 1), .funct "tan" (some 1) (.direct 1),
  .funct "acos" (some 1) (.direct 1), .funct "asin" (some 1) (.direct 1), .funct "atan" (some 1) (.direct 1),
  .funct "atan2" (some 2) (.direct 2), .funct "exp" (some 1) (.direct 1), .funct "log" (some 1) (.direct 1),
  .funct "log10" (some 1) (.direct 1), .funct "pow" (some 1) (.direct 2), .funct "sqrt" (some 1) (.direct 1)],
  true⟩

/-- files.c:243-253 -/
def files : Table := ⟨[.value "READ", .value "WRITE", .value "APPEND",
  .funct "openFile" (some 2) (.format "si"), .funct "openDir" (some 1) (.direct 1),
  .funct "nextDirItem" (some 1) (.direct 1), .funct "read" (some 3) (.format "FB?i"),
  .funct "write" (some 3) (.format "FB?i")], true⟩

/-- buffer.c:93-98 -/
def buffer : Table := ⟨[.funct "new" (some 1) (.direct 1), .funct "sliceUp" (some 3) (.format "Bii"),
  .funct "toString" (some 1) (.direct 1), .funct "fromString" (some 1) (.format "s")], false⟩

/-- string.c:268-275 -/
def string : Table := ⟨[.funct "ord" (some 1) (.direct 1), .funct "chr" (some 1) (.direct 1),
  .funct "cat" none .each, .funct "trim" (some 1) (.format "s"), .funct "slice" (some 3) (.format "s?i?i"),
  .funct "toInt" (some 1) (.format "s")], false⟩

/-- random.c:38-42 -/
def random : Table := ⟨[.funct "seed" (some 1) (.format "i"), .funct "generate" (some 2) (.format "?i?i")],
  true⟩

def tables : List Table := [basic, net, math, files, buffer, string, random]

/-! ## C65: arity -/

/-- Reads `argv[i..n)`. -/
def readFrom (argv : List Arg) : (k i : Nat) → Exec Unit
  | 0, _ => .ok ()
  | k + 1, i => do
    let _ ← rd argv i
    readFrom argv k (i + 1)

/-- The reads of the argument array by a builtin; for `direct` all the reads it may do. -/
def Access.run : Access → (argv : List Arg) → (argc : Nat) → Exec Unit
  | .direct n, argv, _ => readFrom argv n 0
  | .each, argv, argc => readFrom argv argc 0
  | .format s, argv, argc => do
    let _ ← parseArgs argv argc s.toList 0
    .ok ()

theorem readFrom_ok (argv : List Arg) (k i : Nat) (h : i + k ≤ argv.length) : readFrom argv k i = .ok () := by
  induction k generalizing i with
  | zero => rfl
  | succ k ih =>
    unfold readFrom
    rw [rd_of_lt (by omega), Exec.bind_ok]
    exact ih _ (by omega)

theorem readFrom_ub (argv : List Arg) (k i : Nat) (hi : i ≤ argv.length) (h : argv.length < i + k) :
    readFrom argv k i = .ub := by
  induction k generalizing i with
  | zero => omega
  | succ k ih =>
    unfold readFrom
    by_cases c : i = argv.length
    · have : rd argv i = .ub := by unfold rd; rw [List.getElem?_eq_none (by omega)]
      rw [this]; rfl
    · rw [rd_of_lt (by omega), Exec.bind_ok]
      exact ih _ (by omega) (by omega)

/-- `parseArgs` stops at `argc`, whatever the format. -/
theorem parseArgs_no_ub (argv : List Arg) (argc : Nat) (hc : argc ≤ argv.length) (fmt : List Char) :
    ∀ i, i ≤ argc → parseArgs argv argc fmt i ≠ .ub := by
  have one : ∀ c a, parseOne c a ≠ .ub := by
    intro c a
    unfold parseOne
    repeat' split
    all_goals simp
  intro i hi
  fun_induction parseArgs argv argc fmt i with
  | case1 => simp
  | case2 => simp
  | case3 c fmt i h ih1 ih2 =>
    rw [rd_of_lt (by omega), Exec.bind_ok]
    split
    · split
      · simp
      · intro hh
        rcases Exec.bind_eq_ub.mp hh with h1 | ⟨p, h1, h2⟩
        · split at h1
          · cases h1
          · exact one _ _ h1
        · rcases Exec.bind_eq_ub.mp h2 with h1 | ⟨p, h1, h2⟩
          · exact ih1 (by omega) h1
          · cases h2
    · intro hh
      rcases Exec.bind_eq_ub.mp hh with h1 | ⟨p, h1, h2⟩
      · exact one _ _ h1
      · rcases Exec.bind_eq_ub.mp h2 with h1 | ⟨p, h1, h2⟩
        · exact ih2 (by omega) h1
        · cases h2

/-- What the called builtin does with its arguments. -/
def callReads (argc : Option Nat) (a : Access) (args : List Arg) : Exec Unit :=
  a.run (passArgs argc args).1 (passArgs argc args).2

/-- The full statement. -/
def C65Statement : Prop := ∀ t ∈ tables, ∀ s ∈ t.slots, ∀ argc a, s.fn = some (argc, a) →
  ∀ args : List Arg, callReads argc a args ≠ .ub

/-- A declaration of a builtin is consistent: `direct n` needs `n` registered parameters. -/
def Consistent (argc : Option Nat) : Access → Prop
  | .direct n => ∃ k, argc = some k ∧ n ≤ k
  | _ => True

theorem passArgs_length (argc : Option Nat) (args : List Arg) :
    (passArgs argc args).2 ≤ (passArgs argc args).1.length ∧
    ∀ k, argc = some k → (passArgs argc args).2 = k := by
  unfold passArgs
  cases argc with
  | none => simp
  | some k =>
    simp only []
    split
    · rename_i h; exact ⟨Nat.le_refl _, fun _ e => by cases e; exact h.symm⟩
    · split
      · exact ⟨by simp; omega, fun _ e => by cases e; rfl⟩
      · exact ⟨by simp; omega, fun _ e => by cases e; rfl⟩

theorem consistent_no_ub (argc : Option Nat) (a : Access) (h : Consistent argc a) (args : List Arg) :
    callReads argc a args ≠ .ub := by
  obtain ⟨h1, h2⟩ := passArgs_length argc args
  unfold callReads
  cases a with
  | direct n =>
    obtain ⟨k, rfl, hk⟩ := h
    simp only [Access.run]
    rw [readFrom_ok _ _ _ (by have := h2 k rfl; omega)]
    simp
  | each =>
    simp only [Access.run]
    rw [readFrom_ok _ _ _ (by omega)]
    simp
  | format s =>
    simp only [Access.run]
    intro hh
    rcases Exec.bind_eq_ub.mp hh with h3 | ⟨p, h3, h4⟩
    · exact parseArgs_no_ub _ _ h1 _ 0 (Nat.zero_le _) h3
    · cases h4

/-- C65 for every builtin but `math.pow`. -/
theorem C65_arity_partial : ∀ t ∈ tables, ∀ s ∈ t.slots, s.name ≠ "pow" → ∀ argc a, s.fn = some (argc, a) →
    ∀ args : List Arg, callReads argc a args ≠ .ub := by
  have key : ∀ t ∈ tables, ∀ s ∈ t.slots, s.name ≠ "pow" → ∀ argc a, s.fn = some (argc, a) →
      Consistent argc a := by
    intro t ht s hs hn argc a hf
    simp only [tables, List.mem_cons, List.not_mem_nil, or_false] at ht
    rcases ht with rfl | rfl | rfl | rfl | rfl | rfl | rfl <;>
      simp only [basic, net, math, files, buffer, string, random, List.mem_cons, List.not_mem_nil, or_false] at hs <;>
      (repeat' (rcases hs with rfl | hs)) <;> first
        | (exfalso; exact hn rfl)
        | (simp [Slot.value, Slot.funct] at hf; done)
        | (subst hs; simp [Slot.value, Slot.funct] at hf; obtain ⟨rfl, rfl⟩ := hf; simp [Consistent])
        | (simp [Slot.value, Slot.funct] at hf; obtain ⟨rfl, rfl⟩ := hf; simp [Consistent])
  intro t ht s hs hn argc a hf
  exact consistent_no_ub argc a (key t ht s hs hn argc a hf)

/-- How many arguments a builtin takes: the reads it does itself, or the letters of its format, of
which `?` (the next argument may be missing) is none. -/
def Access.takes : Access → Option Nat
  | .direct n => some n
  | .each => none
  | .format s => some (s.toList.filter (· != '?')).length

/-- Every builtin but `math.pow` is registered with exactly the number of arguments it takes, so
none of them is cut off from a call and no call carries one that is never looked at. -/
theorem C65_exact_partial : ∀ t ∈ tables, ∀ s ∈ t.slots, s.name ≠ "pow" → ∀ argc a,
    s.fn = some (argc, a) → argc = a.takes := by
  have key : ∀ t ∈ tables, ∀ s ∈ t.slots, s.name ≠ "pow" →
      ∀ f ∈ s.fn, f.1 = f.2.takes := by decide +kernel
  intro t ht s hs hn argc a hf
  exact key t ht s hs hn (argc, a) hf

/-- Violated for `math.pow`, which takes two and is registered with one. -/
theorem C65_exact_violated : ¬ ∀ t ∈ tables, ∀ s ∈ t.slots, ∀ argc a,
    s.fn = some (argc, a) → argc = a.takes := by
  intro h
  have := h math (by simp [tables]) (.funct "pow" (some 1) (.direct 2)) (by simp [math]) _ _ rfl
  simp [Access.takes] at this

example : Access.takes (.format "FB?i") = some 3 := by decide

/-- Violated: `math.pow(x)` reads a second argument that is not there. -/
theorem C65_violated : ¬ C65Statement := by
  intro h
  refine h math (by simp [tables]) (.funct "pow" (some 1) (.direct 2)) (by simp [math]) _ _ rfl [.float 0] ?_
  exact readFrom_ub _ _ _ (by simp [passArgs]) (by simp [passArgs])

/-- Also when a first argument alone is missing. -/
theorem C65_violated_none : callReads (some 1) (.direct 2) [] = .ub :=
  readFrom_ub _ _ _ (by simp [passArgs]) (by simp [passArgs])

example : callReads (some 3) (.format "FB?i") [.file 1] = .err := by decide

/-! ## C66: lookup -/

/-- The bytes of a name in the source (all names are ASCII). -/
def cstr (s : String) : List UInt8 := s.toList.map fun c => UInt8.ofNat c.toNat

/-- The part of a string that `strcmp` sees. -/
def untilNul (bs : List UInt8) : List UInt8 := bs.takeWhile (· ≠ 0)

/-- o_staticmap.c:123-145, the loop over the slots; reading past the end of the table is `ub`. -/
def findSlot (key : List UInt8) (terminated : Bool) : List Slot → Exec (Option Slot)
  | [] => if terminated then .ok none else .ub
  | s :: slots => if untilNul key = cstr s.name then .ok (some s) else findSlot key terminated slots

/-- o_staticmap.c:107-146 `select_`; the key is `none` if it is not a string. -/
def Table.select (t : Table) : Option (List UInt8) → Exec (Option Slot)
  | none => .ok none
  | some key => findSlot key t.terminated t.slots

/-- What looking up a name must give: the first entry of that name. -/
def IsEntry (t : Table) (key : List UInt8) : Option Slot → Prop
  | none => ∀ s ∈ t.slots, cstr s.name ≠ key
  | some s => ∃ pre post, t.slots = pre ++ s :: post ∧ cstr s.name = key ∧ ∀ x ∈ pre, cstr x.name ≠ key

/-- The full statement, for names without NUL bytes. -/
def C66Statement : Prop := ∀ t ∈ tables, ∀ key : List UInt8, 0 ∉ key →
  ∃ r, t.select (some key) = .ok r ∧ IsEntry t key r

theorem untilNul_eq {key : List UInt8} (h : 0 ∉ key) : untilNul key = key := by
  unfold untilNul
  induction key with
  | nil => rfl
  | cons b key ih =>
    simp at h
    rw [List.takeWhile_cons_of_pos (by simpa using fun e => h.1 e.symm), ih h.2]

theorem findSlot_spec (key : List UInt8) (h : 0 ∉ key) (terminated : Bool) (slots : List Slot)
    (ht : terminated = true ∨ ∃ s ∈ slots, cstr s.name = key) :
    ∃ r, findSlot key terminated slots = .ok r ∧ IsEntry ⟨slots, terminated⟩ key r := by
  induction slots with
  | nil =>
    rcases ht with rfl | ⟨s, hs, _⟩
    · exact ⟨none, rfl, by simp [IsEntry]⟩
    · simp at hs
  | cons s slots ih =>
    unfold findSlot
    rw [untilNul_eq h]
    by_cases c : key = cstr s.name
    · rw [if_pos c]
      exact ⟨some s, rfl, [], slots, rfl, c.symm, by simp⟩
    · rw [if_neg c]
      obtain ⟨r, h1, h2⟩ := ih (by
        rcases ht with h | ⟨x, hx, e⟩
        · exact .inl h
        · simp at hx
          rcases hx with rfl | hx
          · exact absurd e.symm c
          · exact .inr ⟨x, hx, e⟩)
      refine ⟨r, h1, ?_⟩
      cases r with
      | none =>
        intro x hx
        simp at hx
        rcases hx with rfl | hx
        · exact fun e => c e.symm
        · exact h2 x hx
      | some y =>
        obtain ⟨pre, post, e1, e2, e3⟩ := h2
        simp only [] at e1
        refine ⟨s :: pre, post, by simp [e1], e2, ?_⟩
        intro x hx
        simp at hx
        rcases hx with rfl | hx
        · exact fun e => c e.symm
        · exact e3 x hx

/-- C66 for the namespaces that have an end marker (all but `string` and `buffer`), and in each
of them for names that are there.  Missing: other names in `string` and `buffer`. -/
theorem C66_lookup_partial :
    (∀ t ∈ [basic, net, math, files, random], ∀ key : List UInt8, 0 ∉ key →
      ∃ r, t.select (some key) = .ok r ∧ IsEntry t key r) ∧
    (∀ t ∈ tables, ∀ key : List UInt8, 0 ∉ key → (∃ s ∈ t.slots, cstr s.name = key) →
      ∃ r, t.select (some key) = .ok r ∧ IsEntry t key r) := by
  constructor
  · intro t ht key hk
    have : t.terminated = true := by
      simp only [List.mem_cons, List.not_mem_nil, or_false] at ht
      rcases ht with rfl | rfl | rfl | rfl | rfl <;> rfl
    exact findSlot_spec key hk t.terminated t.slots (.inl this)
  · intro t _ key hk hs
    exact findSlot_spec key hk t.terminated t.slots (.inr hs)

/-- In the two other namespaces looking up any name that is not there runs off the table. -/
theorem C66_missing (t : Table) (h : t = string ∨ t = buffer) (key : List UInt8) (hk : 0 ∉ key)
    (hn : ∀ s ∈ t.slots, cstr s.name ≠ key) : t.select (some key) = .ub := by
  have ht : t.terminated = false := by rcases h with rfl | rfl <;> rfl
  simp only [Table.select]
  rw [ht]
  clear ht h
  generalize t.slots = slots at *
  induction slots with
  | nil => rfl
  | cons s slots ih =>
    unfold findSlot
    rw [untilNul_eq hk, if_neg (fun e => hn s (by simp) e.symm)]
    exact ih (fun x hx => hn x (by simp [hx]))

theorem C66_violated : ¬ C66Statement := by
  intro h
  obtain ⟨r, h1, -⟩ := h string (by simp [tables]) [] (by simp)
  rw [C66_missing string (.inl rfl) [] (by simp) (by decide)] at h1
  cases h1

example : ∃ s ∈ string.slots, cstr s.name = cstr "trim" := ⟨.funct "trim" (some 1) (.format "s"), by simp [string], rfl⟩

/-! ## C73: the scope of builtins -/

/-- The objects that make up the scope of builtins; `leaf` is any object that selects by key. -/
inductive Scope (K V : Type) where
  | leaf (lookup : K → Exec (Option V))
  /-- a closure without `prev` -/
  | root (vars : Scope K V)
  | closure (prev vars : Scope K V)

/-- o_closure.c:66-79 `select_`. -/
def Scope.select {K V : Type} : Scope K V → K → Exec (Option V)
  | .leaf f, k => f k
  | .root vars, k => vars.select k
  | .closure prev vars, k => do
    let r ← vars.select k
    match r with
    | none => prev.select k
    | some v => .ok (some v)

/-- runtime.c:92-110 `Runtime_plugBuiltins`. -/
def plug {K V : Type} (builtins : Option (Scope K V)) (object : Scope K V) : Option (Scope K V) :=
  match builtins with
  | none => some object
  | some old => some (.closure object old)

/-- Plugging several sets. -/
def plugAll {K V : Type} (builtins : Option (Scope K V)) (objects : List (Scope K V)) : Option (Scope K V) :=
  objects.foldl plug builtins

/-- The meaning of a builtin name (runtime.c, `Runtime_GetVariable`). -/
def meaning {K V : Type} (builtins : Option (Scope K V)) (k : K) : Exec (Option V) :=
  match builtins with
  | none => .ok none
  | some s => s.select k

/-- C73: a name that means something keeps its meaning, whatever is plugged in later; a name that
means nothing gets the meaning the new set gives it. -/
theorem C73_earlier_wins {K V : Type} (b : Option (Scope K V)) (k : K) :
    (∀ (objects : List (Scope K V)) (v : V), meaning b k = .ok (some v) →
      meaning (plugAll b objects) k = .ok (some v)) ∧
    (∀ object : Scope K V, meaning b k = .ok none → meaning (plug b object) k = object.select k) := by
  have step : ∀ (b : Option (Scope K V)) object v, meaning b k = .ok (some v) →
      meaning (plug b object) k = .ok (some v) := by
    intro b object v h
    cases b with
    | none => simp [meaning] at h
    | some s =>
      simp only [meaning, plug, Scope.select] at h ⊢
      rw [h]; rfl
  constructor
  · intro objects
    induction objects generalizing b with
    | nil => intro v h; exact h
    | cons o objects ih => intro v h; exact ih (plug b o) v (step b o v h)
  · intro object h
    cases b with
    | none => rfl
    | some s =>
      simp only [meaning, plug, Scope.select] at h ⊢
      rw [h]; rfl

/-- After any plugging the first set that has the name decides. -/
theorem C73_first_wins {K V : Type} (pre post : List (Scope K V)) (o : Scope K V) (k : K) (v : V)
    (hp : ∀ x ∈ pre, x.select k = .ok none) (ho : o.select k = .ok (some v)) :
    meaning (plugAll none (pre ++ o :: post)) k = .ok (some v) := by
  have key : ∀ (pre : List (Scope K V)) (b : Option (Scope K V)), meaning b k = .ok none →
      (∀ x ∈ pre, x.select k = .ok none) → meaning (plugAll b pre) k = .ok none := by
    intro pre
    induction pre with
    | nil => intro b h _; exact h
    | cons x pre ih =>
      intro b h hx
      refine ih (plug b x) ?_ (fun y hy => hx y (by simp [hy]))
      rw [(C73_earlier_wins b k).2 x h]
      exact hx x (by simp)
  have h1 := key pre none rfl hp
  have h2 : meaning (plug (plugAll none pre) o) k = .ok (some v) := by
    rw [(C73_earlier_wins _ k).2 o h1]; exact ho
  have := (C73_earlier_wins (plug (plugAll none pre) o) k).1 post v h2
  simpa [plugAll, List.foldl_append] using this

example : meaning (plugAll none [(.leaf fun k : Nat => .ok (if k = 0 then some 'a' else none)),
    .leaf fun _ => .ok (some 'b')]) 0 = .ok (some 'a') := by
  simp [plugAll, plug, meaning, Scope.select]

end Noja.Builtin
