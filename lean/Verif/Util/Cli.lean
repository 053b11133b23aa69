import Verif.Exec
import Verif.CInt

/-!
# The command line (cli/main.c:78-136) and property C93

The arguments behind the name of the program are C strings, given without their terminators.
-/

set_option linter.unusedVariables false
set_option linter.unusedSimpArgs false

namespace Noja.Cli

abbrev Arg := List UInt8

namespace W
/-- `-h` -/
def hS : List UInt8 := [45, 104]
/-- `--help` -/
def hL : List UInt8 := [45, 45, 104, 101, 108, 112]
/-- `-i` -/
def iS : List UInt8 := [45, 105]
/-- `--inline` -/
def iL : List UInt8 := [45, 45, 105, 110, 108, 105, 110, 101]
/-- `-a` -/
def aS : List UInt8 := [45, 97]
/-- `--assembly` -/
def aL : List UInt8 := [45, 45, 97, 115, 115, 101, 109, 98, 108, 121]
/-- `--diagram-ast` -/
def dL : List UInt8 := [45, 45, 100, 105, 97, 103, 114, 97, 109, 45, 97, 115, 116]
/-- `-p` -/
def pS : List UInt8 := [45, 112]
/-- `--profile` -/
def pL : List UInt8 := [45, 45, 112, 114, 111, 102, 105, 108, 101]
/-- `-o` -/
def oS : List UInt8 := [45, 111]
/-- `--output` -/
def oL : List UInt8 := [45, 45, 111, 117, 116, 112, 117, 116]
/-- `-H` -/
def HS : List UInt8 := [45, 72]
/-- `--heap` -/
def HL : List UInt8 := [45, 45, 104, 101, 97, 112]
end W

/-! ## Model -/

/-- main.c:62-67 -/
inductive Mode where
  | diagram | assembly | default | help
  deriving DecidableEq, Repr

/-- main.c:80-85: the variables. -/
structure Opts where
  mode : Mode := .default
  profile : Bool := false
  noFile : Bool := false
  output : Option Arg := none
  input : Option Arg := none
  heap : Nat := 1024 * 1024
  deriving DecidableEq, Repr

def isSpace (c : UInt8) : Bool := decide (c = 32 ∨ (9 ≤ c ∧ c ≤ 13))

def isDigit (c : UInt8) : Bool := decide (48 ≤ c ∧ c ≤ 57)

def digits : List UInt8 → Nat → Nat
  | [], n => n
  | c :: s, n => if isDigit c then digits s (10 * n + (c.toNat - 48)) else n

/-- `atoi`: undefined if the number is not an `int`. -/
def atoi (s : List UInt8) : Exec Int :=
  let v : Int :=
    match s.dropWhile isSpace with
    | 45 :: s => -(digits s 0 : Int)
    | 43 :: s => digits s 0
    | s => digits s 0
  if IsI32 v then .ok v else .ub

/-- main.c:105, 115: there is no further argument, or it looks like an option. -/
def missing : List Arg → Bool
  | [] => true
  | a :: _ => a.head? = some 45

/-- main.c:87-136: the loop; `none` if there is something wrong. -/
def options : List Arg → Opts → Exec (Option Opts)
  | [], o => .ok (some o)
  | a :: l, o =>
    if a = W.hS ∨ a = W.hL then options l { o with mode := .help }
    else if a = W.iS ∨ a = W.iL then options l { o with noFile := true }
    else if a = W.aS ∨ a = W.aL then options l { o with mode := .assembly }
    else if a = W.dL then options l { o with mode := .diagram }
    else if a = W.pS ∨ a = W.pL then options l { o with profile := true }
    else if a = W.oS ∨ a = W.oL then
      match l with
      | [] => .ok none
      | b :: l => if missing (b :: l) then .ok none else options l { o with output := some b }
    else if a = W.HS ∨ a = W.HL then
      match l with
      | [] => .ok none
      | b :: l =>
        if missing (b :: l) then .ok none
        else do
          let v ← atoi b
          if toSize v = 0 then .ok none else options l { o with heap := toSize v }
    else .ok (some { o with input := some a })

/-- What is done then (main.c:138-260). -/
inductive Action where
  | usage
  | help
  | noInput
  | diagram (inline : Bool) (input : Arg) (output : Option Arg)
  | run (assembly inline profile : Bool) (input : Arg) (output : Option Arg) (heap : Nat)
  deriving DecidableEq, Repr

def action (o : Opts) : Action :=
  match o.mode, o.input with
  | .help, _ => .help
  | _, none => .noInput
  | .diagram, some f => .diagram o.noFile f o.output
  | .assembly, some f => .run true o.noFile o.profile f o.output o.heap
  | .default, some f => .run false o.noFile o.profile f o.output o.heap

def main (argv : List Arg) : Exec Action := do
  let o ← options argv {}
  .ok (match o with
    | none => .usage
    | some o => action o)

/-! ## Property -/

/-- What can be asked for (main.c:46-60). -/
inductive Opt where
  | help | inline | assembly | diagram | profile
  | output (file : Arg)
  | heap (size : Nat)

/-- The number that these digits mean. -/
def number : List UInt8 → Nat
  | [] => 0
  | c :: s => (c.toNat - 48) * 10 ^ s.length + number s

/-- How it is written. -/
inductive Writes : Opt → List Arg → Prop
  | helpS : Writes .help [W.hS]
  | helpL : Writes .help [W.hL]
  | inlineS : Writes .inline [W.iS]
  | inlineL : Writes .inline [W.iL]
  | assemblyS : Writes .assembly [W.aS]
  | assemblyL : Writes .assembly [W.aL]
  | diagram : Writes .diagram [W.dL]
  | profileS : Writes .profile [W.pS]
  | profileL : Writes .profile [W.pL]
  | outputS {f : Arg} : f.head? ≠ some 45 → Writes (.output f) [W.oS, f]
  | outputL {f : Arg} : f.head? ≠ some 45 → Writes (.output f) [W.oL, f]
  | heapS {s : Arg} : (∀ c ∈ s, 48 ≤ c ∧ c ≤ 57) → 0 < number s → Writes (.heap (number s)) [W.HS, s]
  | heapL {s : Arg} : (∀ c ∈ s, 48 ≤ c ∧ c ≤ 57) → 0 < number s → Writes (.heap (number s)) [W.HL, s]

inductive WritesAll : List Opt → List Arg → Prop
  | nil : WritesAll [] []
  | cons {o : Opt} {os : List Opt} {as bs : List Arg} : Writes o as → WritesAll os bs → WritesAll (o :: os) (as ++ bs)

def words : List Arg := [W.hS, W.hL, W.iS, W.iL, W.aS, W.aL, W.dL, W.pS, W.pL, W.oS, W.oL, W.HS, W.HL]

def Opt.mode? : Opt → Option Mode
  | .help => some .help
  | .assembly => some .assembly
  | .diagram => some .diagram
  | _ => none

def Opt.output? : Opt → Option Arg
  | .output f => some f
  | _ => none

def Opt.heap? : Opt → Option Nat
  | .heap n => some n
  | _ => none

def Opt.isInline : Opt → Bool
  | .inline => true
  | _ => false

def Opt.isProfile : Opt → Bool
  | .profile => true
  | _ => false

/-- What the options mean: of those that contradict each other the last one counts. -/
def want (os : List Opt) (file : Arg) : Action :=
  match (os.filterMap Opt.mode?).getLast? with
  | some .help => .help
  | some .diagram => .diagram (os.any Opt.isInline) file (os.filterMap Opt.output?).getLast?
  | some .assembly => .run true (os.any Opt.isInline) (os.any Opt.isProfile) file (os.filterMap Opt.output?).getLast?
      ((os.filterMap Opt.heap?).getLast?.getD 1048576)
  | _ => .run false (os.any Opt.isInline) (os.any Opt.isProfile) file (os.filterMap Opt.output?).getLast?
      ((os.filterMap Opt.heap?).getLast?.getD 1048576)

/-- **C93**: the interpreter does what the options in front of the file say. -/
def C93Statement : Prop :=
  ∀ (os : List Opt) (args : List Arg) (file : Arg) (rest : List Arg), WritesAll os args → file ∉ words →
    main (args ++ file :: rest) = .ok (want os file)

/-! ## Numbers -/

theorem digits_number : ∀ (s : List UInt8) (n : Nat), (∀ c ∈ s, isDigit c = true) → digits s n = n * 10 ^ s.length + number s
  | [], n, _ => by simp [digits, number]
  | c :: s, n, h => by
    rw [digits, if_pos (h c (List.mem_cons_self ..)), digits_number s _ fun d hd => h d (List.mem_cons_of_mem _ hd), number,
      List.length_cons, Nat.pow_succ, Nat.add_mul]
    have : 10 * n * 10 ^ s.length = n * (10 ^ s.length * 10) := by
      rw [Nat.mul_comm (10 ^ s.length) 10, ← Nat.mul_assoc, Nat.mul_comm n 10]
    omega

theorem digit_facts {c : UInt8} (h : isDigit c = true) : isSpace c = false ∧ c ≠ 45 ∧ c ≠ 43 := by
  simp only [isDigit, decide_eq_true_eq] at h
  obtain ⟨h1, h2⟩ := h
  have h1 : 48 ≤ c.toNat := h1
  have h2 : c.toNat ≤ 57 := h2
  refine ⟨?_, ?_, ?_⟩
  · simp only [isSpace, decide_eq_false_iff_not, not_or, not_and]
    refine ⟨?_, fun _ => ?_⟩
    · rintro rfl; simp at h1
    · intro h3
      have h3 : c.toNat ≤ 13 := h3
      omega
  · rintro rfl; simp at h1
  · rintro rfl; simp at h1

theorem atoi_eq {s : List UInt8} (h : ∀ c ∈ s, isDigit c = true) : atoi s = if number s < 2 ^ 31 then .ok (number s) else .ub := by
  have hv : (match s.dropWhile isSpace with
      | 45 :: s => -(digits s 0 : Int)
      | 43 :: s => (digits s 0 : Int)
      | s => (digits s 0 : Int)) = (number s : Int) := by
    match s, h with
    | [], _ => rfl
    | c :: s, h =>
      obtain ⟨h1, h2, h3⟩ := digit_facts (h c (List.mem_cons_self ..))
      rw [List.dropWhile_cons_of_neg (by simp [h1])]
      have := digits_number (c :: s) 0 h
      rw [Nat.zero_mul, Nat.zero_add] at this
      split
      · rename_i e; cases e; exact absurd rfl h2
      · rename_i e; cases e; exact absurd rfl h3
      · rw [this]
  unfold atoi
  rw [hv]
  by_cases hn : number s < 2 ^ 31
  · rw [if_pos hn]; exact if_pos (by unfold IsI32; omega)
  · rw [if_neg hn]; exact if_neg (by unfold IsI32; omega)

/-! ## The loop -/

def Opt.set : Opt → Opts → Opts
  | .help, o => { o with mode := .help }
  | .inline, o => { o with noFile := true }
  | .assembly, o => { o with mode := .assembly }
  | .diagram, o => { o with mode := .diagram }
  | .profile, o => { o with profile := true }
  | .output f, o => { o with output := some f }
  | .heap n, o => { o with heap := n }

def Opt.small : Opt → Prop
  | .heap n => n < 2 ^ 31
  | _ => True

theorem not_dash {f : Arg} (h : f.head? ≠ some 45) (l : List Arg) : missing (f :: l) = false := by
  simp [missing, h]

theorem digits_head {s : Arg} (h : ∀ c ∈ s, isDigit c = true) : s.head? ≠ some 45 := by
  match s, h with
  | [], _ => nofun
  | c :: s, h =>
    intro e
    cases e
    exact (digit_facts (h 45 (List.mem_cons_self ..))).2.1 rfl

theorem options_output (a f : Arg) (h : a = W.oS ∨ a = W.oL) (hf : f.head? ≠ some 45) (l : List Arg) (o : Opts) :
    options (a :: f :: l) o = options l { o with output := some f } := by
  rcases h with rfl | rfl <;> (conv => lhs; unfold options) <;>
    rw [if_neg (by decide), if_neg (by decide), if_neg (by decide), if_neg (by decide), if_neg (by decide), if_pos (by decide)] <;>
    dsimp only <;> rw [not_dash hf] <;> rfl

theorem options_heap (a s : Arg) (h : a = W.HS ∨ a = W.HL) (hs : ∀ c ∈ s, isDigit c = true) (h0 : 0 < number s) (l : List Arg) (o : Opts) :
    options (a :: s :: l) o = if number s < 2 ^ 31 then options l { o with heap := number s } else .ub := by
  have key : options (a :: s :: l) o = (do
      let v ← atoi s
      if toSize v = 0 then .ok none else options l { o with heap := toSize v }) := by
    rcases h with rfl | rfl <;> (conv => lhs; unfold options) <;>
      rw [if_neg (by decide), if_neg (by decide), if_neg (by decide), if_neg (by decide), if_neg (by decide), if_neg (by decide),
        if_pos (by decide)] <;> dsimp only <;> rw [not_dash (digits_head hs)] <;> rfl
  rw [key, atoi_eq hs]
  by_cases hn : number s < 2 ^ 31
  · rw [if_pos hn, if_pos hn, Exec.bind_ok]
    have : toSize (number s : Int) = number s := by unfold toSize; omega
    rw [this, if_neg (by omega)]
  · rw [if_neg hn, if_neg hn, Exec.bind_ub]

theorem options_one {p : Opt} {as : List Arg} (h : Writes p as) (hs : p.small) (l : List Arg) (o : Opts) :
    options (as ++ l) o = options l (p.set o) := by
  cases h with
  | outputS hf => exact options_output _ _ (.inl rfl) hf l o
  | outputL hf => exact options_output _ _ (.inr rfl) hf l o
  | heapS hd h0 => rw [List.cons_append, List.cons_append, List.nil_append, options_heap _ _ (.inl rfl) (fun c q => decide_eq_true (hd c q)) h0 l o]; exact if_pos hs
  | heapL hd h0 => rw [List.cons_append, List.cons_append, List.nil_append, options_heap _ _ (.inr rfl) (fun c q => decide_eq_true (hd c q)) h0 l o]; exact if_pos hs
  | _ =>
    rw [List.cons_append, List.nil_append]
    conv => lhs; unfold options
    repeat first
      | rw [if_pos (by decide)]; rfl
      | rw [if_neg (by decide)]

theorem options_file {file : Arg} (h : file ∉ words) (rest : List Arg) (o : Opts) :
    options (file :: rest) o = .ok (some { o with input := some file }) := by
  simp only [words, List.mem_cons, List.not_mem_nil, or_false, not_or] at h
  obtain ⟨h1, h2, h3, h4, h5, h6, h7, h8, h9, h10, h11, h12, h13⟩ := h
  unfold options
  rw [if_neg (by simp [h1, h2]), if_neg (by simp [h3, h4]), if_neg (by simp [h5, h6]), if_neg h7, if_neg (by simp [h8, h9]),
    if_neg (by simp [h10, h11]), if_neg (by simp [h12, h13])]

theorem options_all {os : List Opt} {args : List Arg} (h : WritesAll os args) : (∀ o ∈ os, o.small) → ∀ (l : List Arg) (o : Opts),
    options (args ++ l) o = options l (os.foldl (fun o p => p.set o) o) := by
  induction h with
  | nil => intro _ l o; rfl
  | @cons p os as bs h1 _ ih =>
    intro hs l o
    rw [List.append_assoc, options_one h1 (hs _ (List.mem_cons_self ..)), ih fun q hq => hs q (List.mem_cons_of_mem _ hq)]
    rfl

/-- What the options leave in the variables. -/
theorem final : ∀ (os : List Opt) (o : Opts), os.foldl (fun o p => p.set o) o =
    { mode := (os.filterMap Opt.mode?).getLast?.getD o.mode
      profile := o.profile || os.any Opt.isProfile
      noFile := o.noFile || os.any Opt.isInline
      output := (os.filterMap Opt.output?).getLast?.or o.output
      input := o.input
      heap := (os.filterMap Opt.heap?).getLast?.getD o.heap }
  | [], o => by simp
  | p :: os, o => by
    rw [List.foldl_cons, final os]
    cases p <;> simp [Opt.set, Opt.mode?, Opt.output?, Opt.heap?, Opt.isInline, Opt.isProfile, List.filterMap_cons,
      List.getLast?_cons, Bool.or_assoc, Option.or_some]

/-- C93 for heaps of less than 2 GB. -/
theorem C93_partial (os : List Opt) (args : List Arg) (file : Arg) (rest : List Arg) (h : WritesAll os args) (hf : file ∉ words)
    (hs : ∀ n, Opt.heap n ∈ os → n < 2 ^ 31) : main (args ++ file :: rest) = .ok (want os file) := by
  have hs : ∀ o ∈ os, o.small := by
    intro o ho
    cases o with
    | heap n => exact hs n ho
    | _ => trivial
  unfold main
  rw [options_all h hs, options_file hf, Exec.bind_ok, final]
  simp only [want, action, Bool.false_or, Option.or_none]
  cases (os.filterMap Opt.mode?).getLast? with
  | none => rfl
  | some m => cases m <;> rfl

/-- Without a file there is help, if it is asked for last, or a message. -/
theorem C93_no_file (os : List Opt) (args : List Arg) (h : WritesAll os args) (hs : ∀ n, Opt.heap n ∈ os → n < 2 ^ 31) :
    main args = .ok (if (os.filterMap Opt.mode?).getLast? = some .help then .help else .noInput) := by
  have hs : ∀ o ∈ os, o.small := by
    intro o ho
    cases o with
    | heap n => exact hs n ho
    | _ => trivial
  unfold main
  have := options_all h hs [] {}
  rw [List.append_nil] at this
  rw [this, final, options, Exec.bind_ok]
  simp only [action]
  cases (os.filterMap Opt.mode?).getLast? with
  | none => rfl
  | some m => cases m <;> rfl

/-- An option that needs an argument, without one: what follows begins with a dash, if there is anything. -/
theorem C93_usage (os : List Opt) (args : List Arg) (a : Arg) (l : List Arg) (h : WritesAll os args) (hs : ∀ n, Opt.heap n ∈ os → n < 2 ^ 31)
    (ha : a ∈ [W.oS, W.oL, W.HS, W.HL]) (hl : ∀ b, l.head? = some b → b.head? = some 45) : main (args ++ a :: l) = .ok .usage := by
  have hs : ∀ o ∈ os, o.small := by
    intro o ho
    cases o with
    | heap n => exact hs n ho
    | _ => trivial
  have hm : missing l = true := by
    cases l with
    | nil => rfl
    | cons b l => simpa [missing] using hl b rfl
  have key : ∀ o, options (a :: l) o = .ok none := by
    intro o
    simp only [List.mem_cons, List.not_mem_nil, or_false] at ha
    rcases ha with rfl | rfl | rfl | rfl <;> (conv => lhs; unfold options) <;>
      (repeat first | rw [if_pos (by decide)] | rw [if_neg (by decide)]) <;> cases l <;> first | rfl | (dsimp only; rw [if_pos hm])
  unfold main
  rw [options_all h hs, key]
  rfl

/-- A heap of no bytes. -/
theorem C93_no_heap (os : List Opt) (args : List Arg) (a s : Arg) (l : List Arg) (h : WritesAll os args) (hs : ∀ n, Opt.heap n ∈ os → n < 2 ^ 31)
    (ha : a = W.HS ∨ a = W.HL) (hd : ∀ c ∈ s, c = 48) : main (args ++ a :: s :: l) = .ok .usage := by
  have hs : ∀ o ∈ os, o.small := by
    intro o ho
    cases o with
    | heap n => exact hs n ho
    | _ => trivial
  have hdig : ∀ c ∈ s, isDigit c = true := by
    intro c hc
    rw [hd c hc]
    rfl
  have h0 : number s = 0 := by
    clear hdig
    induction s with
    | nil => rfl
    | cons c s ih =>
      rw [number, ih fun c q => hd c (List.mem_cons_of_mem _ q), hd c (List.mem_cons_self ..)]
      simp
  have key : ∀ o, options (a :: s :: l) o = .ok none := by
    intro o
    have key : options (a :: s :: l) o = (do
        let v ← atoi s
        if toSize v = 0 then .ok none else options l { o with heap := toSize v }) := by
      rcases ha with rfl | rfl <;> (conv => lhs; unfold options) <;>
        rw [if_neg (by decide), if_neg (by decide), if_neg (by decide), if_neg (by decide), if_neg (by decide), if_neg (by decide),
          if_pos (by decide)] <;> dsimp only <;> rw [not_dash (digits_head hdig)] <;> rfl
    rw [key, atoi_eq hdig, h0, if_pos (by decide), Exec.bind_ok]
    rfl
  unfold main
  rw [options_all h hs, key]
  rfl

/-- `-p -o -a` and `-a -H 00 x` -/
example : main ([W.pS] ++ W.oS :: [W.aS]) = .ok .usage ∧ main ([W.aS] ++ W.HS :: [48, 48] :: [[120]]) = .ok .usage :=
  ⟨C93_usage [.profile] _ _ _ (.cons .profileS .nil) (by simp) (by decide) (by intro b q; cases q; rfl),
    C93_no_heap [.assembly] _ _ _ _ (.cons .assemblyS .nil) (by simp) (.inl rfl) (by decide)⟩

/-- `-p --heap 64 -p x` -/
example : main ([W.pS, W.HL, [54, 52], W.pL] ++ [120] :: []) = .ok (.run false false true [120] none 64) :=
  C93_partial [.profile, .heap 64, .profile] _ _ _
    (.cons .profileS (.cons (.heapL (s := [54, 52]) (by decide) (by decide)) (.cons .profileL .nil))) (by decide)
    (by intro n h; simp at h; omega)

/-- `-H 2147483648 x` -/
theorem C93_violated : ¬ C93Statement := by
  intro h
  have := h [.heap 2147483648] ([W.HS, [50, 49, 52, 55, 52, 56, 51, 54, 52, 56]] ++ []) [120] []
    (.cons (.heapS (s := [50, 49, 52, 55, 52, 56, 51, 54, 52, 56]) (by decide) (by decide)) .nil) (by decide)
  rw [show main ([W.HS, [50, 49, 52, 55, 52, 56, 51, 54, 52, 56]] ++ [] ++ [120] :: []) = .ub by decide +kernel] at this
  cases this

end Noja.Cli
