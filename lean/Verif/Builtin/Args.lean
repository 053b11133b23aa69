import Verif.Str.Model

/-! # Argument parsing of builtins (src/lib/builtins/utils.c) -/

namespace Noja.Builtin

/-- An argument as `parseArgs` looks at it. -/
inductive Arg where
  | none
  | bool (b : Bool)
  | int (v : Int)
  | float (x : BitVec 64)
  | str (s : Str.Str)
  /-- address of the bytes: what is left of the payload from there on, and the length -/
  | buffer (mem : List UInt8) (size : Nat)
  | list
  | map
  | file (fd : Nat)
  | other
deriving DecidableEq

/-- `ParsedArgument`; `unset` is a slot whose `defined` field was not written. -/
inductive PArg where
  | undef
  | any
  | bool (b : Bool)
  | int (v : Int)
  | float (x : BitVec 64)
  | str (s : Str.Str)
  | buffer (mem : List UInt8) (size : Nat)
  | list
  | unset
  | file (fd : Nat)
deriving DecidableEq

/-- utils.c:66-146, the `switch` on one format letter. -/
def parseOne (c : Char) (a : Arg) : Exec PArg :=
  if c = 'o' then .ok .any
  else if c = 'b' then (match a with | .bool b => .ok (.bool b) | _ => .err)
  else if c = 'B' then (match a with | .buffer m n => .ok (.buffer m n) | _ => .err)
  else if c = 'i' then (match a with | .int v => .ok (.int v) | _ => .err)
  else if c = 'f' then (match a with | .float x => .ok (.float x) | _ => .err)
  else if c = 'l' then (match a with | .list => .ok .list | _ => .err)
  else if c = 'm' then (match a with | .map => .ok .unset | _ => .err)
  else if c = 's' then (match a with | .str s => .ok (.str s) | _ => .err)
  else if c = 'F' then (match a with | .file f => .ok (.file f) | _ => .err)
  else .err

/-- utils.c:35-161 `parseArgs`; `i` is `current_arg`, `argv` the argument array, `argc` the number
of arguments. -/
def parseArgs (argv : List Arg) (argc : Nat) : (fmt : List Char) → (i : Nat) → Exec (List PArg)
  | [], _ => .ok []
  | c :: fmt, i =>
    if i = argc then .err
    else do
      let a ← rd argv i
      if c = '?' then
        match fmt with
        | [] => .err
        | c' :: fmt => do
          let p ← (if a = .none then .ok .undef else parseOne c' a)
          let ps ← parseArgs argv argc fmt (i + 1)
          .ok (p :: ps)
      else do
        let p ← parseOne c a
        let ps ← parseArgs argv argc fmt (i + 1)
        .ok (p :: ps)

/-- run.c:207-288 `native_func_call`: the arguments a builtin registered with `expected` parameters
gets (`none` for a variadic one). -/
def passArgs (expected : Option Nat) (args : List Arg) : List Arg × Nat :=
  match expected with
  | none => (args, args.length)
  | some n =>
    if n = args.length then (args, args.length)
    else if n < args.length then (args, n)
    else (args ++ List.replicate (n - args.length) .none, n)

/-! ## C68 -/

/-- The declared types. -/
inductive ArgType where
  | any | bool | buffer | int | float | list | map | string | file
deriving DecidableEq

def ArgType.letter : ArgType → Char
  | .any => 'o' | .bool => 'b' | .buffer => 'B' | .int => 'i' | .float => 'f' | .list => 'l'
  | .map => 'm' | .string => 's' | .file => 'F'

/-- The value has the declared type. -/
def HasType : ArgType → Arg → Prop
  | .any, _ => True
  | .bool, a => ∃ b, a = .bool b
  | .buffer, a => ∃ m n, a = .buffer m n
  | .int, a => ∃ v, a = .int v
  | .float, a => ∃ x, a = .float x
  | .list, a => a = .list
  | .map, a => a = .map
  | .string, a => ∃ s, a = .str s
  | .file, a => ∃ f, a = .file f

/-- A declaration: for every parameter whether it is optional and its type. -/
abbrev Decl := List (Bool × ArgType)

/-- The format string of a declaration. -/
def Decl.format : Decl → List Char
  | [] => []
  | (opt, t) :: d => (if opt then ['?'] else []) ++ t.letter :: Decl.format d

/-- The value parsed for an argument. -/
def parsed (d : Bool × ArgType) (a : Arg) : PArg :=
  if d.1 ∧ a = .none then .undef
  else match d.2, a with
    | .any, _ => .any
    | .bool, .bool b => .bool b
    | .buffer, .buffer m n => .buffer m n
    | .int, .int v => .int v
    | .float, .float x => .float x
    | .list, _ => .list
    | .map, _ => .unset
    | .string, .str s => .str s
    | .file, .file f => .file f
    | _, _ => .undef

/-- Every parameter got an argument of its type (or none where optional). -/
def Accepts (d : Decl) (args : List Arg) : Prop :=
  d.length ≤ args.length ∧ ∀ (i : Nat) p a, d[i]? = some p → args[i]? = some a →
    (p.1 = true ∧ a = .none) ∨ HasType p.2 a

theorem parseOne_letter (t : ArgType) (a : Arg) :
    (HasType t a ∧ ∀ opt, ¬ (opt = true ∧ a = .none) → parseOne t.letter a = .ok (parsed (opt, t) a)) ∨
    (¬ HasType t a ∧ parseOne t.letter a = .err) := by
  cases t <;> cases a <;> simp [HasType, parseOne, ArgType.letter, parsed]

theorem letter_ne (t : ArgType) : t.letter ≠ '?' := by cases t <;> decide

theorem parseArgs_spec (argv : List Arg) (argc : Nat) (hc : argc ≤ argv.length) :
    ∀ (d : Decl) (i : Nat), i ≤ argc →
      (Accepts d ((argv.take argc).drop i) ∧ parseArgs argv argc d.format i =
        .ok ((d.zip ((argv.take argc).drop i)).map fun p => parsed p.1 p.2)) ∨
      (¬ Accepts d ((argv.take argc).drop i) ∧ parseArgs argv argc d.format i = .err) := by
  intro d
  induction d with
  | nil => intro i _; left; exact ⟨⟨by simp, by simp⟩, by simp [Decl.format, parseArgs]⟩
  | cons p d ih =>
    intro i hi
    obtain ⟨opt, t⟩ := p
    by_cases e : i = argc
    · right
      refine ⟨fun h => ?_, ?_⟩
      · have := h.1; simp at this; omega
      · cases opt
        · simp [Decl.format, parseArgs, e]
        · simp [Decl.format, parseArgs, e]
    · have li : i < argv.length := by omega
      have dr : (argv.take argc).drop i = argv[i] :: (argv.take argc).drop (i + 1) := by
        rw [List.drop_eq_getElem_cons (by simp; omega)]
        simp
      rw [dr]
      obtain ⟨a, ha⟩ : ∃ a, a = argv[i] := ⟨_, rfl⟩
      rw [← ha]
      have step : ∀ r, parseArgs argv argc (Decl.format ((opt, t) :: d)) i = r ↔
          (do
            let q ← (if opt = true ∧ a = .none then .ok .undef else parseOne t.letter a)
            let ps ← parseArgs argv argc (Decl.format d) (i + 1)
            .ok (q :: ps)) = r := by
        intro r
        cases opt
        · simp only [Decl.format, parseArgs, e, if_false, rd_of_lt li, Exec.bind_ok, letter_ne,
            Bool.false_eq_true, List.nil_append, false_and, ha]
        · simp only [Decl.format, parseArgs, e, if_false, rd_of_lt li, Exec.bind_ok,
            if_true, List.cons_append, List.nil_append, true_and, ha]
      have iff : Accepts ((opt, t) :: d) (a :: (argv.take argc).drop (i + 1)) ↔
          ((opt = true ∧ a = .none) ∨ HasType t a) ∧ Accepts d ((argv.take argc).drop (i + 1)) := by
        constructor
        · rintro ⟨h1, h2⟩
          refine ⟨h2 0 (opt, t) a rfl rfl, by simpa using h1, ?_⟩
          intro j p b hp hb
          exact h2 (j + 1) p b (by simpa using hp) (by simpa using hb)
        · rintro ⟨h1, h2, h3⟩
          refine ⟨by simpa using h2, ?_⟩
          intro j p b hp hb
          cases j with
          | zero => simp at hp hb; subst hp; subst hb; exact h1
          | succ j => exact h3 j p b (by simpa using hp) (by simpa using hb)
      rw [iff]
      by_cases ho : opt = true ∧ a = .none
      · rcases ih (i + 1) (by omega) with ⟨h1, h2⟩ | ⟨h1, h2⟩
        · left
          refine ⟨⟨.inl ho, h1⟩, ?_⟩
          rw [step, if_pos ho, h2]
          simp [parsed, ho]
        · right
          refine ⟨fun h => h1 h.2, ?_⟩
          rw [step, if_pos ho, h2]; rfl
      · rcases parseOne_letter t a with ⟨p1, p2⟩ | ⟨p1, p2⟩
        · rcases ih (i + 1) (by omega) with ⟨h1, h2⟩ | ⟨h1, h2⟩
          · left
            refine ⟨⟨.inr p1, h1⟩, ?_⟩
            rw [step, if_neg ho, p2 opt ho, h2]; rfl
          · right
            refine ⟨fun h => h1 h.2, ?_⟩
            rw [step, if_neg ho, p2 opt ho, h2]; rfl
        · right
          refine ⟨fun h => ?_, ?_⟩
          · rcases h.1 with h | h
            · exact ho h
            · exact p1 h
          · rw [step, if_neg ho, p2]; rfl

/-- C68: for every declaration and arguments, parsing succeeds, with the values of the arguments,
exactly when every parameter got an argument of its type (or none where optional), and is an error
otherwise; it never reads past the arguments. -/
theorem C68_arguments (d : Decl) (args : List Arg) :
    (Accepts d args → parseArgs args args.length d.format 0 =
      .ok ((d.zip args).map fun p => parsed p.1 p.2)) ∧
    (¬ Accepts d args → parseArgs args args.length d.format 0 = .err) := by
  have := parseArgs_spec args args.length (Nat.le_refl _) d 0 (by omega)
  simp only [List.take_length, List.drop_zero] at this
  rcases this with ⟨h1, h2⟩ | ⟨h1, h2⟩
  · exact ⟨fun _ => h2, fun h => absurd h1 h⟩
  · exact ⟨fun h => absurd h h1, fun _ => h2⟩

/-- The declaration of `string.slice` is its format, and a call with one argument is accepted. -/
example : Decl.format [(false, .string), (true, .int), (true, .int)] = "s?i?i".toList ∧
    Accepts [(false, .string), (true, .int), (true, .int)]
      ((passArgs (some 3) [.str ⟨1, 1, [65, 0]⟩]).1) := by
  refine ⟨by decide, by decide, ?_⟩
  intro i p a hp ha
  match i with
  | 0 => cases hp; cases ha; exact .inr ⟨_, rfl⟩
  | 1 => cases hp; cases ha; exact .inl ⟨rfl, rfl⟩
  | 2 => cases hp; cases ha; exact .inl ⟨rfl, rfl⟩
  | n + 3 => simp at hp

end Noja.Builtin
