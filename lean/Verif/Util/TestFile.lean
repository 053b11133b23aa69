import Verif.Exec

/-!
# Test files (src/test/scanner.c, field.c, test.c) and properties C94, C95

The files that the test suite consists of are sequences of fields.  A field has room for short names and
bodies in itself, `name_maybe` and `body_maybe`, and pointers to whatever place they are in.

Simplifications: `malloc` and `realloc` succeed. What `realloc` was given is gone afterwards, as the C standard has it, also if
the new array is where the old one was. The text is what is before the first NUL. The functions of ctype.h are those of the C
locale, and no character is below zero to them.
-/

set_option linter.unusedVariables false
set_option linter.unusedSimpArgs false

namespace Noja.TestFile

abbrev Text := List UInt8

/-! ## Model -/

def isSpace (c : UInt8) : Bool := (9 ≤ c && c ≤ 13) || c == 32

def isAlpha (c : UInt8) : Bool := (65 ≤ c && c ≤ 90) || (97 ≤ c && c ≤ 122)

/-- field.c:53-56 `isFieldNameCharacter`. -/
def isName (c : UInt8) : Bool := isAlpha c || c == 95

/-- error.h:4-11. -/
inductive ErrorID
  | void | dupl | noname | noat | nofield
deriving DecidableEq

/-- field.c:96, the condition of the loop. -/
def goesOn (term : Option UInt8) (c : UInt8) : Bool := c != 64 && term != some c

/-- scanner.c:18-24 `ifFollowsConsumeCharacter`. -/
def skip (c : UInt8) (s : Text) : Text := if s.head? = some c then s.tail else s

/-- field.c:76-103 `parseFieldBody`: the body and what follows it. -/
def parseBody (s : Text) : Text × Text :=
  match s.dropWhile isSpace with
  | 91 :: s => (s.takeWhile (goesOn (some 93)), skip 93 (s.dropWhile (goesOn (some 93))))
  | 123 :: s => (s.takeWhile (goesOn (some 125)), skip 125 (s.dropWhile (goesOn (some 125))))
  | s => (s.takeWhile (goesOn none), s.dropWhile (goesOn none))

/-- field.c:105-136 `findField`, `parseField`, with the name and the body as texts. -/
def parseField (s : Text) : ErrorID ⊕ (Text × Text × Text) :=
  match s.dropWhile isSpace with
  | [] => .inl .nofield
  | c :: s =>
    if c ≠ 64 then .inl .noat
    else if s.takeWhile isName = [] then .inl .noname
    else .inr (s.takeWhile isName, (parseBody (s.dropWhile isName)).1, (parseBody (s.dropWhile isName)).2)

/-- A place for a text: `body_maybe` or `name_maybe` of a field of an array, or a block of memory. -/
inductive Loc
  | own (arr idx : Nat) (body : Bool)
  | block (id : Nat)
deriving DecidableEq

/-- field.h:8-15. -/
structure Field where
  name : Loc
  body : Loc

/-- test.h:4-9 (`NojaTest`).  Array 0 is `fields_maybe`. `text` is what is in memory. -/
structure Test where
  arr : Nat
  cap : Nat
  fields : List Field
  text : Loc → Option Text
  blocks : Nat

/-- field.c:25-51 `setFieldName`, `setFieldBody`: where the text goes. -/
def place (t : Test) (body : Bool) (txt : Text) : Loc :=
  if txt.length < (if body then 512 else 128) then .own t.arr t.fields.length body else .block t.blocks

def put (t : Test) (body : Bool) (txt : Text) : Test :=
  { t with
    text := fun l => if l = place t body txt then some txt else t.text l
    blocks := t.blocks + 1 }

/-- test.c:8-26 `growFieldsArray`: the fields are copied; the pointers in them stay as they are. -/
def grow (t : Test) : Test :=
  { t with
    arr := t.arr + 1
    cap := 2 * t.cap
    text := fun l =>
      match l with
      | .own a i b =>
        if a = t.arr + 1 then (if i < t.fields.length then t.text (.own t.arr i b) else none)
        else if a = t.arr ∧ t.arr ≠ 0 then none
        else t.text l
      | l => t.text l }

def read (t : Test) (l : Loc) : Exec Text :=
  match t.text l with
  | some x => .ok x
  | none => .ub

/-- test.c:36-42 `queryTest`. -/
def find (t : Test) (name : Text) : List Field → Exec (Option Loc)
  | [] => .ok none
  | f :: fs => (read t f.name).bind fun x => if name = x then .ok (some f.body) else find t name fs

/-- The text that `queryTest` points to. -/
def query (t : Test) (name : Text) : Exec (Option Text) :=
  (find t name t.fields).bind fun
    | none => .ok none
    | some l => (read t l).bind fun x => .ok (some x)

/-- `free`. -/
def freeLoc (t : Test) (l : Loc) : Exec Test :=
  match l with
  | .own _ _ _ => .ub
  | .block i =>
    match t.text (.block i) with
    | none => .ub
    | some _ => .ok { t with text := fun l => if l = .block i then none else t.text l }

/-- field.c:7-23 `freeField`, of field number `i`. -/
def freeField (t : Test) (i : Nat) (f : Field) : Exec Test :=
  (if f.name = .own t.arr i false then .ok t else freeLoc t f.name).bind fun t =>
    if f.body = .own t.arr i true then .ok t else freeLoc t f.body

def freeFields (t : Test) : Nat → List Field → Exec Test
  | _, [] => .ok t
  | i, f :: fs => (freeField t i f).bind fun t => freeFields t (i + 1) fs

/-- test.c:32-33: the array, if it is not `fields_maybe`. -/
def freeArray (t : Test) : Test :=
  { t with
    text := fun l =>
      match l with
      | .own a i b => if a = t.arr ∧ t.arr ≠ 0 then none else t.text l
      | l => t.text l }

/-- test.c:28-34 `freeTest`. -/
def freeTest (t : Test) : Exec Test := (freeFields t 0 t.fields).bind fun t => .ok (freeArray t)

/-- test.c:52-84. -/
def parseLoop : (fuel : Nat) → Text → Test → Exec (ErrorID × Test)
  | 0, _, _ => .diverge
  | fuel + 1, s, t =>
    let t := if t.fields.length = t.cap then grow t else t
    match parseField s with
    | .inl .nofield => .ok (.void, t)
    | .inl e => (freeTest t).bind fun t => .ok (e, t)
    | .inr (name, body, rest) =>
      let f : Field := ⟨place t false name, place (put t false name) true body⟩
      let t := put (put t false name) true body
      (read t f.name).bind fun name => (find t name t.fields).bind fun
        | some _ => .ok (.dupl, t)
        | none => parseLoop fuel rest { t with fields := t.fields ++ [f] }

/-- test.c:46-50. -/
def empty : Test := ⟨0, 8, [], fun _ => none, 0⟩

/-- test.c:44-86 `parseTest`. -/
def parseTest (s : Text) : Exec (ErrorID × Test) := parseLoop (s.length + 1) s empty

/-! ## What test files are -/

/-- Space, tab, newline, vertical tab, form feed, carriage return. -/
def Blank (c : UInt8) : Prop := c ∈ [(32 : UInt8), 9, 10, 11, 12, 13]

/-- `A` to `Z`, `a` to `z` and `_`. -/
def Letter (c : UInt8) : Prop := (65 ≤ c ∧ c ≤ 90) ∨ (97 ≤ c ∧ c ≤ 122) ∨ c = 95

/-- The first character of a text is not of this kind. -/
def Not (p : UInt8 → Prop) (s : Text) : Prop := ∀ c, s.head? = some c → ¬ p c

/-- A text that is the end of a file or goes on with a new field. -/
def Next (s : Text) : Prop := s = [] ∨ s.head? = some 64

/-- A body and what follows it. -/
inductive Body : Text → Text → Text → Prop
  /-- in brackets -/
  | closed {o c : UInt8} {b rest : Text} : (o, c) = (91, 93) ∨ (o, c) = (123, 125) → 64 ∉ b → c ∉ b → Body (o :: (b ++ c :: rest)) b rest
  /-- the closing bracket is missing -/
  | unclosed {o c : UInt8} {b rest : Text} : (o, c) = (91, 93) ∨ (o, c) = (123, 125) → 64 ∉ b → c ∉ b → Next rest → Body (o :: (b ++ rest)) b rest
  /-- without brackets -/
  | bare {b rest : Text} : 64 ∉ b → Next rest → b.head? ≠ some 91 → b.head? ≠ some 123 → Body (b ++ rest) b rest

/-- A field, with its name and body, and what follows it. -/
inductive IsField : Text → Text → Text → Text → Prop
  | mk {ws name ws' tail body rest : Text} : (∀ c ∈ ws, Blank c) → name ≠ [] → (∀ c ∈ name, Letter c) →
      Not Letter (ws' ++ tail) → (∀ c ∈ ws', Blank c) → Not Blank tail → Body tail body rest →
      IsField (ws ++ 64 :: (name ++ (ws' ++ tail))) name body rest

/-- A text begins with these fields. -/
inductive Reads : Text → List (Text × Text) → Text → Prop
  | nil {s : Text} : Reads s [] s
  | cons {s name body rest : Text} {fs : List (Text × Text)} {last : Text} : IsField s name body rest → Reads rest fs last →
      Reads s ((name, body) :: fs) last

/-- What the parser should say after some fields with different names. -/
inductive Verdict : List (Text × Text) → Text → ErrorID → Prop
  | void {fs : List (Text × Text)} {rest : Text} : (∀ c ∈ rest, Blank c) → Verdict fs rest .void
  | noat {fs : List (Text × Text)} {ws rest : Text} {c : UInt8} : (∀ c ∈ ws, Blank c) → ¬ Blank c → c ≠ 64 →
      Verdict fs (ws ++ c :: rest) .noat
  | noname {fs : List (Text × Text)} {ws rest : Text} : (∀ c ∈ ws, Blank c) → Not Letter rest →
      Verdict fs (ws ++ 64 :: rest) .noname
  | dupl {fs : List (Text × Text)} {s name body rest : Text} : IsField s name body rest → name ∈ fs.map Prod.fst → Verdict fs s .dupl

/-- The body of the field with this name. -/
def bodyOf (fs : List (Text × Text)) (name : Text) : Option Text := (fs.find? fun f => f.1 = name).map Prod.snd

/-- **C94**: the parser finds the fields and says what is wrong with the others. -/
def C94Statement : Prop :=
  ∀ (s rest : Text) (fs : List (Text × Text)) (e : ErrorID), Reads s fs rest → (fs.map Prod.fst).Nodup → Verdict fs rest e →
    ∃ t, parseTest s = .ok (e, t) ∧ (e = .void → ∀ name, query t name = .ok (bodyOf fs name))

/-- **C95**: what the parser has allocated is freed in the end, by itself if it fails. -/
def C95Statement : Prop :=
  ∀ (s rest : Text) (fs : List (Text × Text)) (e : ErrorID), Reads s fs rest → (fs.map Prod.fst).Nodup → Verdict fs rest e →
    ∃ t, parseTest s = .ok (e, t) ∧ ∃ t', (if e = .void then freeTest t else .ok t) = .ok t' ∧
      ∀ l, (∀ i b, l ≠ .own 0 i b) → t'.text l = none

/-! ## The text -/

instance (c : UInt8) : Decidable (Blank c) := inferInstanceAs (Decidable (c ∈ _))
instance (c : UInt8) : Decidable (Letter c) := inferInstanceAs (Decidable (_ ∨ _))

theorem blank_iff : ∀ c, isSpace c = true ↔ Blank c := by
  intro c
  simp only [isSpace, Blank, Bool.or_eq_true, Bool.and_eq_true, decide_eq_true_eq, beq_iff_eq, List.mem_cons, List.not_mem_nil, or_false,
    UInt8.le_iff_toNat_le, ← UInt8.toNat_inj]
  show (9 ≤ c.toNat ∧ c.toNat ≤ 13) ∨ c.toNat = 32 ↔ c.toNat = 32 ∨ c.toNat = 9 ∨ c.toNat = 10 ∨ c.toNat = 11 ∨ c.toNat = 12 ∨ c.toNat = 13
  omega

theorem letter_iff : ∀ c, isName c = true ↔ Letter c := by
  intro c
  simp only [isName, isAlpha, Letter, Bool.or_eq_true, Bool.and_eq_true, decide_eq_true_eq, beq_iff_eq, or_assoc]

/-- `Not`, for what the model tests. -/
def NotB (p : UInt8 → Bool) (s : Text) : Prop := ∀ c, s.head? = some c → p c = false

theorem not_iff {p : UInt8 → Bool} {q : UInt8 → Prop} (h : ∀ c, p c = true ↔ q c) (s : Text) : NotB p s ↔ Not q s := by
  constructor
  · intro k c hc r
    rw [← h, k c hc] at r
    cases r
  · intro k c hc
    cases e : p c with
    | false => rfl
    | true => exact absurd ((h c).1 e) (k c hc)

theorem blanks {s : Text} : (∀ c ∈ s, isSpace c = true) ↔ ∀ c ∈ s, Blank c := by simp only [blank_iff]

theorem letters_iff {s : Text} : (∀ c ∈ s, isName c = true) ↔ ∀ c ∈ s, Letter c := by simp only [letter_iff]


theorem take_app {p : UInt8 → Bool} : ∀ {a b : Text}, (∀ c ∈ a, p c = true) → NotB p b → (a ++ b).takeWhile p = a ∧ (a ++ b).dropWhile p = b
  | [], [], _, _ => ⟨rfl, rfl⟩
  | [], c :: b, _, h => by
    have := h c rfl
    simp [this]
  | c :: a, b, ha, hb => by
    obtain ⟨h1, h2⟩ := take_app (fun c q => ha c (List.mem_cons_of_mem _ q)) hb
    have := ha c (List.mem_cons_self ..)
    simp [this, h1, h2]

theorem take_all {p : UInt8 → Bool} {a : Text} (h : ∀ c ∈ a, p c = true) : a.dropWhile p = [] := by
  have := (take_app (b := []) h (by intro c q; cases q)).2
  rwa [List.append_nil] at this

theorem goesOn_all {term : Option UInt8} {b : Text} (h : 64 ∉ b) (ht : ∀ c, term = some c → c ∉ b) : ∀ c ∈ b, goesOn term c = true := by
  intro c hc
  have h1 : c ≠ 64 := fun q => h (q ▸ hc)
  have h2 : term ≠ some c := fun q => ht c q hc
  simp [goesOn, h1, h2]

theorem next_not {term : Option UInt8} {s : Text} (h : Next s) : NotB (goesOn term) s := by
  intro c hc
  rcases h with rfl | h
  · cases hc
  · rw [h] at hc
    cases hc
    rfl

theorem skip_next {c : UInt8} {s : Text} (h : Next s) (hc : c ≠ 64) : skip c s = s := by
  unfold skip
  rw [if_neg]
  intro q
  rcases h with rfl | h
  · cases q
  · rw [h] at q
    exact hc (Option.some.inj q).symm

/-- What the parser takes for a body is one. -/
theorem parseBody_of {ws tail body rest : Text} (hw : ∀ c ∈ ws, isSpace c = true) (ht : NotB isSpace tail) (h : Body tail body rest) :
    parseBody (ws ++ tail) = (body, rest) := by
  unfold parseBody
  rw [(take_app hw ht).2]
  cases h with
  | @closed o c b rest ho h1 h2 =>
    have hstop : NotB (goesOn (some c)) (c :: rest) := by
      intro x hx
      cases hx
      simp [goesOn]
    obtain ⟨e1, e2⟩ := take_app (goesOn_all (term := some c) h1 fun x q => by cases q; exact h2) hstop
    rcases ho with ho | ho
    · cases ho
      show ((body ++ 93 :: rest).takeWhile (goesOn (some 93)), skip 93 ((body ++ 93 :: rest).dropWhile (goesOn (some 93)))) = _
      rw [e1, e2]
      rfl
    · cases ho
      show ((body ++ 125 :: rest).takeWhile (goesOn (some 125)), skip 125 ((body ++ 125 :: rest).dropWhile (goesOn (some 125)))) = _
      rw [e1, e2]
      rfl
  | @unclosed o c b rest ho h1 h2 h3 =>
    obtain ⟨e1, e2⟩ := take_app (goesOn_all (term := some c) h1 fun x q => by cases q; exact h2) (next_not h3)
    rcases ho with ho | ho
    · cases ho
      show ((body ++ rest).takeWhile (goesOn (some 93)), skip 93 ((body ++ rest).dropWhile (goesOn (some 93)))) = _
      rw [e1, e2, skip_next h3 (by decide)]
    · cases ho
      show ((body ++ rest).takeWhile (goesOn (some 125)), skip 125 ((body ++ rest).dropWhile (goesOn (some 125)))) = _
      rw [e1, e2, skip_next h3 (by decide)]
  | bare h1 h2 h3 h4 =>
    obtain ⟨e1, e2⟩ := take_app (goesOn_all (term := none) h1 fun x q => by cases q) (next_not h2)
    have hh : ∀ x, x ≠ 64 → body.head? ≠ some x → (body ++ rest).head? ≠ some x := by
      intro x hx hb q
      cases body with
      | nil =>
        rcases h2 with rfl | h2
        · cases q
        · rw [List.nil_append, h2] at q
          exact hx (Option.some.inj q).symm
      | cons c b => exact hb q
    have q1 := hh 91 (by decide) h3
    have q2 := hh 123 (by decide) h4
    split
    · rename_i h; rw [h] at q1; exact absurd rfl q1
    · rename_i h; rw [h] at q2; exact absurd rfl q2
    · rw [e1, e2]

theorem parseField_of {s name body rest : Text} (h : IsField s name body rest) : parseField s = .inr (name, body, rest) := by
  cases h with
  | @mk ws name ws' tail body rest h1 h2 h3 h4 h5 h6 h7 =>
    replace h1 := blanks.2 h1
    replace h3 := letters_iff.2 h3
    replace h4 := (not_iff letter_iff _).2 h4
    replace h5 := blanks.2 h5
    replace h6 := (not_iff blank_iff _).2 h6
    unfold parseField
    rw [(take_app h1 (b := 64 :: (name ++ (ws' ++ tail))) (by intro c q; cases q; decide)).2]
    dsimp only
    rw [if_neg (by simp), (take_app h3 h4).1, (take_app h3 h4).2, if_neg h2, parseBody_of h5 h6 h7]

theorem field_shorter {s name body rest : Text} (h : IsField s name body rest) : rest.length < s.length := by
  cases h with
  | @mk ws name ws' tail body rest h1 h2 h3 h4 h5 h6 h7 =>
    have : rest.length ≤ tail.length := by
      cases h7 with
      | closed => simp only [List.length_cons, List.length_append]; omega
      | unclosed => simp only [List.length_cons, List.length_append]; omega
      | bare => simp only [List.length_append]; omega
    simp only [List.length_cons, List.length_append]
    omega

theorem parseBody_is (s : Text) : ∃ ws tail, s = ws ++ tail ∧ (∀ c ∈ ws, isSpace c = true) ∧ NotB isSpace tail ∧
    Body tail (parseBody s).1 (parseBody s).2 := by
  have split : ∀ (p : UInt8 → Bool) (s : Text), s = s.takeWhile p ++ s.dropWhile p ∧ (∀ c ∈ s.takeWhile p, p c = true) ∧
      NotB p (s.dropWhile p) := by
    intro p s
    refine ⟨(List.takeWhile_append_dropWhile (p := p)).symm, fun c hc => ?_, fun c hc => ?_⟩
    · have := List.all_takeWhile (l := s) (p := p)
      exact List.all_eq_true.1 this c hc
    · have := List.head?_dropWhile_not p s
      rw [hc] at this
      exact this
  obtain ⟨h1, h2, h3⟩ := split isSpace s
  refine ⟨_, _, h1, h2, h3, ?_⟩
  unfold parseBody
  have notin : ∀ (term : Option UInt8) (s : Text), 64 ∉ s.takeWhile (goesOn term) ∧ ∀ c, term = some c → c ∉ s.takeWhile (goesOn term) := by
    intro term s
    refine ⟨fun q => ?_, fun c hc q => ?_⟩
    · have := (split (goesOn term) s).2.1 _ q
      simp [goesOn] at this
    · have := (split (goesOn term) s).2.1 _ q
      subst hc
      simp [goesOn] at this
  have brackets : ∀ (o c : UInt8) (s : Text), (o, c) = (91, 93) ∨ (o, c) = (123, 125) →
      Body (o :: s) (s.takeWhile (goesOn (some c))) (skip c (s.dropWhile (goesOn (some c)))) := by
    intro o c s ho
    obtain ⟨q1, q2⟩ := notin (some c) s
    have e := (split (goesOn (some c)) s).1
    have hn := (split (goesOn (some c)) s).2.2
    generalize s.takeWhile (goesOn (some c)) = b at *
    generalize s.dropWhile (goesOn (some c)) = r at *
    subst e
    cases r with
    | nil => exact .unclosed (rest := []) ho q1 (q2 c rfl) (.inl rfl)
    | cons x r =>
      have := hn x rfl
      have : x = 64 ∨ c = x := by
        unfold goesOn at this
        by_cases qx : x = 64
        · exact .inl qx
        · right
          simp [qx] at this
          exact this
      by_cases hx : c = x
      · subst hx
        have : skip c (c :: r) = r := by simp [skip]
        rw [this]
        exact .closed ho q1 (q2 c rfl)
      · have hx2 : x = 64 := by rcases this with q | q; exact q; exact absurd q hx
        have : skip c (x :: r) = x :: r := by
          unfold skip
          rw [if_neg]
          intro q
          exact hx (Option.some.inj q).symm
        rw [this]
        exact .unclosed ho q1 (q2 c rfl) (.inr (by rw [hx2]; rfl))
  generalize s.dropWhile isSpace = r at *
  split
  · exact brackets 91 93 _ (.inl rfl)
  · exact brackets 123 125 _ (.inr rfl)
  · rename_i hn1 hn2
    have e := (split (goesOn none) r).1
    have hn := (split (goesOn none) r).2.2
    obtain ⟨q1, -⟩ := notin none r
    generalize hb : r.takeWhile (goesOn none) = b at *
    generalize r.dropWhile (goesOn none) = r' at *
    subst e
    refine .bare q1 ?_ ?_ ?_
    · cases r' with
      | nil => exact .inl rfl
      | cons x r' =>
        have := hn x rfl
        simp [goesOn] at this
        exact .inr (by rw [this]; rfl)
    · intro q
      cases b with
      | nil => cases q
      | cons x b => cases q; exact hn1 (b ++ r') rfl
    · intro q
      cases b with
      | nil => cases q
      | cons x b => cases q; exact hn2 (b ++ r') rfl

/-- Every text has a verdict. -/
theorem verdict_exists : ∀ (n : Nat) (s : Text) (seen : List Text), s.length < n → ∃ fs rest, Reads s fs rest ∧
    ((∃ e, Verdict fs rest e ∧ e ≠ .dupl) ∨ ∃ name body rest', IsField rest name body rest' ∧ (name ∈ seen ∨ name ∈ fs.map Prod.fst)) ∧
    (fs.map Prod.fst).Nodup ∧ ∀ n ∈ fs.map Prod.fst, n ∉ seen
  | 0, s, seen, h => absurd h (Nat.not_lt_zero _)
  | n + 1, s, seen, h => by
    have split : ∀ (p : UInt8 → Bool) (s : Text), s = s.takeWhile p ++ s.dropWhile p ∧ (∀ c ∈ s.takeWhile p, p c = true) ∧
        NotB p (s.dropWhile p) := by
      intro p s
      refine ⟨(List.takeWhile_append_dropWhile (p := p)).symm, fun c hc => ?_, fun c hc => ?_⟩
      · have := List.all_takeWhile (l := s) (p := p)
        exact List.all_eq_true.1 this c hc
      · have := List.head?_dropWhile_not p s
        rw [hc] at this
        exact this
    obtain ⟨h1, h2, h3⟩ := split isSpace s
    cases hd : s.dropWhile isSpace with
    | nil =>
      rw [hd, List.append_nil] at h1
      exact ⟨[], s, .nil, .inl ⟨.void, .void (blanks.1 (by rw [h1]; exact h2)), nofun⟩, List.nodup_nil, nofun⟩
    | cons c r =>
      rw [hd] at h1 h3
      by_cases hc : c = 64
      · subst hc
        obtain ⟨q1, q2, q3⟩ := split isName r
        by_cases hn : r.takeWhile isName = []
        · rw [hn, List.nil_append] at q1
          refine ⟨[], s, .nil, .inl ⟨.noname, ?_, nofun⟩, List.nodup_nil, nofun⟩
          rw [h1]
          exact .noname (blanks.1 h2) ((not_iff letter_iff _).1 (by rw [q1]; exact q3))
        · obtain ⟨ws, tail, b1, b2, b3, b4⟩ := parseBody_is (r.dropWhile isName)
          have hf : IsField s (r.takeWhile isName) (parseBody (r.dropWhile isName)).1 (parseBody (r.dropWhile isName)).2 := by
            rw [b1] at q1 q3
            have := IsField.mk (ws := s.takeWhile isSpace) (blanks.1 h2) hn (letters_iff.1 q2) ((not_iff letter_iff _).1 q3) (blanks.1 b2)
              ((not_iff blank_iff _).1 b3) b4
            rw [← q1, ← h1] at this
            exact this
          by_cases hs : r.takeWhile isName ∈ seen
          · exact ⟨[], s, .nil, .inr ⟨_, _, _, hf, .inl hs⟩, List.nodup_nil, nofun⟩
          · obtain ⟨fs, rest, r1, r2, r3, r4⟩ := verdict_exists n _ (r.takeWhile isName :: seen) (Nat.lt_of_lt_of_le (field_shorter hf) (Nat.le_of_lt_succ h))
            refine ⟨_ :: fs, rest, .cons hf r1, ?_, ?_, ?_⟩
            · rcases r2 with ⟨e, v, he⟩ | ⟨nm, bd, rs, v1, v2⟩
              · left
                cases v with
                | void v => exact ⟨_, .void v, he⟩
                | noat v1 v2 v3 => exact ⟨_, .noat v1 v2 v3, he⟩
                | noname v1 v2 => exact ⟨_, .noname v1 v2, he⟩
                | dupl => exact absurd rfl he
              · right
                refine ⟨nm, bd, rs, v1, ?_⟩
                rcases v2 with v2 | v2
                · rcases List.mem_cons.1 v2 with v2 | v2
                  · exact .inr (by rw [v2]; exact List.mem_cons_self ..)
                  · exact .inl v2
                · exact .inr (List.mem_cons_of_mem _ v2)
            · rw [List.map_cons, List.nodup_cons]
              exact ⟨fun q => r4 _ q (List.mem_cons_self ..), r3⟩
            · intro m hm
              rcases List.mem_cons.1 hm with rfl | hm
              · exact hs
              · exact fun q => r4 m hm (List.mem_cons_of_mem _ q)
      · refine ⟨[], s, .nil, .inl ⟨.noat, ?_, nofun⟩, List.nodup_nil, nofun⟩
        rw [h1]
        exact .noat (blanks.1 h2) ((not_iff blank_iff _).1 h3 c rfl) hc

/-- Every text begins with some fields of different names after which there is a verdict. -/
theorem covered (s : Text) : ∃ fs rest e, Reads s fs rest ∧ (fs.map Prod.fst).Nodup ∧ Verdict fs rest e := by
  obtain ⟨fs, rest, h1, h2, h3, -⟩ := verdict_exists (s.length + 1) s [] (Nat.lt_succ_self _)
  rcases h2 with ⟨e, v, -⟩ | ⟨name, body, r, v1, v2⟩
  · exact ⟨fs, rest, e, h1, h3, v⟩
  · refine ⟨fs, rest, .dupl, h1, h3, .dupl v1 ?_⟩
    rcases v2 with v2 | v2
    · cases v2
    · exact v2

/-! ## The fields in memory -/

/-- Field by field, the pointers are to these texts. -/
def Sees (t : Test) : List Field → List (Text × Text) → Prop
  | [], [] => True
  | f :: fs, p :: ps => t.text f.name = some p.1 ∧ t.text f.body = some p.2 ∧ Sees t fs ps
  | _, _ => False

theorem Sees.mono {t t' : Test} : ∀ {fs : List Field} {ps : List (Text × Text)},
    (∀ f ∈ fs, t'.text f.name = t.text f.name ∧ t'.text f.body = t.text f.body) → Sees t fs ps → Sees t' fs ps
  | [], [], _, _ => trivial
  | [], _ :: _, _, h => h.elim
  | _ :: _, [], _, h => h.elim
  | f :: fs, p :: ps, hm, ⟨h1, h2, h3⟩ => by
    obtain ⟨m1, m2⟩ := hm f (List.mem_cons_self ..)
    exact ⟨m1.trans h1, m2.trans h2, Sees.mono (fun g hg => hm g (List.mem_cons_of_mem _ hg)) h3⟩

theorem Sees.snoc {t : Test} {f : Field} {p : Text × Text} : ∀ {fs : List Field} {ps : List (Text × Text)},
    Sees t fs ps → t.text f.name = some p.1 → t.text f.body = some p.2 → Sees t (fs ++ [f]) (ps ++ [p])
  | [], [], _, h1, h2 => ⟨h1, h2, trivial⟩
  | [], _ :: _, h, _, _ => h.elim
  | _ :: _, [], h, _, _ => h.elim
  | g :: fs, q :: ps, ⟨a, b, c⟩, h1, h2 => ⟨a, b, Sees.snoc c h1 h2⟩

theorem Sees.length {t : Test} : ∀ {fs : List Field} {ps : List (Text × Text)}, Sees t fs ps → fs.length = ps.length
  | [], [], _ => rfl
  | [], _ :: _, h => h.elim
  | _ :: _, [], h => h.elim
  | g :: fs, q :: ps, ⟨_, _, c⟩ => by rw [List.length_cons, List.length_cons, Sees.length c]

theorem find_none {t : Test} {name : Text} : ∀ {fs : List Field} {ps : List (Text × Text)}, Sees t fs ps → name ∉ ps.map Prod.fst →
    find t name fs = .ok none
  | [], [], _, _ => rfl
  | [], _ :: _, h, _ => h.elim
  | _ :: _, [], h, _ => h.elim
  | f :: fs, p :: ps, ⟨a, b, c⟩, hn => by
    rw [List.map_cons, List.mem_cons, not_or] at hn
    unfold find read
    rw [a]
    show (if name = p.1 then _ else _) = _
    rw [if_neg hn.1]
    exact find_none c hn.2

theorem find_some {t : Test} {name : Text} : ∀ {fs : List Field} {ps : List (Text × Text)}, Sees t fs ps → name ∈ ps.map Prod.fst →
    ∃ l x, find t name fs = .ok (some l) ∧ t.text l = some x ∧ bodyOf ps name = some x
  | [], [], _, h => by cases h
  | [], _ :: _, h, _ => h.elim
  | _ :: _, [], h, _ => h.elim
  | f :: fs, p :: ps, ⟨a, b, c⟩, hn => by
    unfold find read
    rw [a]
    show ∃ l x, (if name = p.1 then Exec.ok (some f.body) else find t name fs) = .ok (some l) ∧ _
    by_cases hp : name = p.1
    · rw [if_pos hp]
      exact ⟨_, _, rfl, b, by simp [bodyOf, hp]⟩
    · rw [if_neg hp]
      rw [List.map_cons, List.mem_cons] at hn
      obtain ⟨l, x, h1, h2, h3⟩ := find_some c (hn.resolve_left hp)
      refine ⟨l, x, h1, h2, ?_⟩
      rw [← h3]
      unfold bodyOf
      rw [List.find?_cons_of_neg (by simpa using fun q => hp q.symm)]

theorem bodyOf_none {ps : List (Text × Text)} {name : Text} (h : name ∉ ps.map Prod.fst) : bodyOf ps name = none := by
  unfold bodyOf
  rw [List.find?_eq_none.2]
  · rfl
  · intro p hp q
    exact h (List.mem_map.2 ⟨p, hp, by simpa using q⟩)

theorem query_of {t : Test} {ps : List (Text × Text)} (h : Sees t t.fields ps) (name : Text) : query t name = .ok (bodyOf ps name) := by
  unfold query
  by_cases hn : name ∈ ps.map Prod.fst
  · obtain ⟨l, x, h1, h2, h3⟩ := find_some h hn
    rw [h1, h3]
    show (read t l).bind _ = _
    unfold read
    rw [h2]
    rfl
  · rw [find_none h hn, bodyOf_none hn]
    rfl

/-- A place that was given out before. -/
def Old (t : Test) : Loc → Prop
  | .own a i _ => a ≤ t.arr ∧ i < t.fields.length
  | .block i => i < t.blocks

/-- The loop of the parser after some fields. -/
structure Inv (t : Test) (ps : List (Text × Text)) : Prop where
  sees : Sees t t.fields ps
  old : ∀ f ∈ t.fields, Old t f.name ∧ Old t f.body
  stage : (t.arr = 0 ∧ t.cap = 8) ∨ (t.arr = 1 ∧ t.cap = 16 ∧ 8 ≤ t.fields.length)
  room : t.fields.length ≤ t.cap

/-- test.c:55-59. -/
def ready (t : Test) : Test := if t.fields.length = t.cap then grow t else t

/-- With the new field. -/
def stored (t : Test) (name body : Text) : Test := put (put t false name) true body

def newField (t : Test) (name body : Text) : Field := ⟨place t false name, place (put t false name) true body⟩

def added (t : Test) (name body : Text) : Test := { stored t name body with fields := t.fields ++ [newField t name body] }

theorem ready_inv {t : Test} {ps : List (Text × Text)} (h : Inv t ps) (hn : ps.length < 16) :
    Inv (ready t) ps ∧ (ready t).fields.length < (ready t).cap := by
  have hl := h.sees.length
  unfold ready
  by_cases hc : t.fields.length = t.cap
  · rw [if_pos hc]
    rcases h.stage with ⟨a, c⟩ | ⟨a, c, -⟩
    · have keep : ∀ l, Old t l → (grow t).text l = t.text l := by
        intro l hl
        cases l with
        | block i => rfl
        | own x i b =>
          have hx : x ≤ t.arr := hl.1
          show (if x = t.arr + 1 then _ else if x = t.arr ∧ t.arr ≠ 0 then none else t.text (.own x i b)) = _
          rw [if_neg (by omega), if_neg (by omega)]
      have oldg : ∀ l, Old t l → Old (grow t) l := by
        intro l hl
        cases l with
        | block i => exact hl
        | own x i b => exact ⟨Nat.le_succ_of_le hl.1, hl.2⟩
      refine ⟨⟨h.sees.mono fun f hf => ⟨keep _ (h.old f hf).1, keep _ (h.old f hf).2⟩, fun f hf => ⟨oldg _ (h.old f hf).1, oldg _ (h.old f hf).2⟩,
        .inr ⟨?_, ?_, ?_⟩, ?_⟩, ?_⟩
      · show t.arr + 1 = 1; omega
      · show 2 * t.cap = 16; omega
      · show 8 ≤ t.fields.length; omega
      · show t.fields.length ≤ 2 * t.cap; omega
      · show t.fields.length < 2 * t.cap; omega
    · omega
  · rw [if_neg hc]
    have := h.room
    exact ⟨h, by omega⟩

theorem place_new {t : Test} {body : Bool} {txt : Text} : ¬ Old t (place t body txt) := by
  unfold place
  by_cases h : txt.length < (if body then 512 else 128)
  · rw [if_pos h]
    exact fun q => Nat.lt_irrefl _ q.2
  · rw [if_neg h]
    exact fun q => Nat.lt_irrefl t.blocks q

theorem put_old {t : Test} {b : Bool} {txt : Text} {l : Loc} (h : Old t l) : (put t b txt).text l = t.text l ∧ Old (put t b txt) l := by
  constructor
  · show (if l = place t b txt then _ else _) = _
    rw [if_neg]
    rintro rfl
    exact place_new h
  · cases l with
    | own => exact h
    | block i => exact Nat.lt_succ_of_lt h

theorem places_differ (t : Test) (name body : Text) : place t false name ≠ place (put t false name) true body := by
  intro q
  by_cases h1 : name.length < 128 <;> by_cases h2 : body.length < 512 <;> simp [place, put, h1, h2] at q

theorem stored_name (t : Test) (name body : Text) : (stored t name body).text (newField t name body).name = some name := by
  show (if place t false name = place (put t false name) true body then _ else if place t false name = place t false name then some name else _) = _
  rw [if_neg (places_differ t name body), if_pos rfl]

theorem stored_body (t : Test) (name body : Text) : (stored t name body).text (newField t name body).body = some body := by
  show (if place (put t false name) true body = place (put t false name) true body then some body else _) = _
  rw [if_pos rfl]

theorem stored_old {t : Test} {name body : Text} {l : Loc} (h : Old t l) : (stored t name body).text l = t.text l :=
  (put_old (put_old h).2).1.trans (put_old h).1

theorem stored_sees {t : Test} {ps : List (Text × Text)} {name body : Text} (h : Inv t ps) : Sees (stored t name body) t.fields ps :=
  h.sees.mono fun f hf => ⟨stored_old (h.old f hf).1, stored_old (h.old f hf).2⟩

theorem added_inv {t : Test} {ps : List (Text × Text)} {name body : Text} (h : Inv t ps) (hr : t.fields.length < t.cap) :
    Inv (added t name body) (ps ++ [(name, body)]) := by
  have older : ∀ l, Old t l → Old (added t name body) l := by
    intro l hl
    cases l with
    | own a i b =>
      refine ⟨hl.1, ?_⟩
      show i < (t.fields ++ [_]).length
      rw [List.length_append]
      exact Nat.lt_of_lt_of_le hl.2 (Nat.le_add_right _ _)
    | block i => exact Nat.lt_succ_of_lt (Nat.lt_succ_of_lt hl)
  have new : ∀ (k : Nat) (b : Bool) (txt : Text) (u : Test), u.arr = t.arr → u.fields = t.fields → u.blocks < t.blocks + 2 →
      Old (added t name body) (place u b txt) := by
    intro k b txt u h1 h2 h3
    unfold place
    by_cases q : txt.length < (if b then 512 else 128)
    · rw [if_pos q, h1, h2]
      refine ⟨Nat.le_refl _, ?_⟩
      show t.fields.length < (t.fields ++ [_]).length
      rw [List.length_append]
      exact Nat.lt_succ_self _
    · rw [if_neg q]
      exact h3
  refine ⟨?_, ?_, h.stage.imp id (fun q => ⟨q.1, q.2.1, ?_⟩), ?_⟩
  · exact Sees.mono (t := stored t name body) (fun f hf => ⟨rfl, rfl⟩) ((stored_sees h).snoc (stored_name t name body) (stored_body t name body))
  · intro f hf
    rcases List.mem_append.1 hf with hf | hf
    · exact ⟨older _ (h.old f hf).1, older _ (h.old f hf).2⟩
    · rw [List.mem_singleton] at hf
      subst hf
      exact ⟨new 0 false name t rfl rfl (by omega), new 0 true body (put t false name) rfl rfl (by show t.blocks + 1 < _; omega)⟩
  · show 8 ≤ (t.fields ++ [_]).length
    rw [List.length_append]
    exact Nat.le_add_right_of_le q.2.2
  · show (t.fields ++ [_]).length ≤ t.cap
    rw [List.length_append]
    exact hr

/-- One round of the loop. -/
theorem round {n : Nat} {s name body rest : Text} {t : Test} {ps : List (Text × Text)} (h : IsField s name body rest) (hi : Inv (ready t) ps) :
    (name ∉ ps.map Prod.fst → parseLoop (n + 1) s t = parseLoop n rest (added (ready t) name body)) ∧
    (name ∈ ps.map Prod.fst → parseLoop (n + 1) s t = .ok (.dupl, stored (ready t) name body)) := by
  have hs := stored_sees (name := name) (body := body) hi
  have hr : read (stored (ready t) name body) (newField (ready t) name body).name = .ok name := by
    unfold read
    rw [stored_name]
  have e : parseLoop (n + 1) s t = (find (stored (ready t) name body) name (ready t).fields).bind fun
      | some _ => .ok (.dupl, stored (ready t) name body)
      | none => parseLoop n rest (added (ready t) name body) := by
    conv => lhs; unfold parseLoop
    rw [parseField_of h]
    show (read (stored (ready t) name body) (newField (ready t) name body).name).bind _ = _
    rw [hr]
    rfl
  rw [e]
  constructor
  · intro q
    rw [find_none hs q]
    rfl
  · intro q
    obtain ⟨l, x, h1, -⟩ := find_some hs q
    rw [h1]
    rfl

/-- A field that is not in blocks altogether, of the first array. -/
def Stuck (t : Test) : Prop := ∃ f ∈ t.fields, ∃ i b, f.name = .own 0 i b ∨ f.body = .own 0 i b

def Short (p : Text × Text) : Prop := p.1.length < 128 ∨ p.2.length < 512

theorem ready_fields (t : Test) : (ready t).fields = t.fields := by
  unfold ready
  by_cases h : t.fields.length = t.cap
  · rw [if_pos h]; rfl
  · rw [if_neg h]

theorem added_stuck {t : Test} {name body : Text} (h : Stuck t ∨ (t.arr = 0 ∧ Short (name, body))) : Stuck (added t name body) := by
  rcases h with ⟨f, hf, h⟩ | ⟨ha, h⟩
  · exact ⟨f, List.mem_append_left _ hf, h⟩
  · refine ⟨newField t name body, List.mem_append_right _ (List.mem_singleton.2 rfl), ?_⟩
    rcases h with h | h
    · refine ⟨t.fields.length, false, .inl ?_⟩
      show place t false name = _
      unfold place
      rw [if_pos (by simpa using h), ha]
    · refine ⟨t.fields.length, true, .inr ?_⟩
      show place (put t false name) true body = _
      unfold place
      rw [if_pos (by simpa using h), show (put t false name).arr = t.arr from rfl, ha]
      rfl

/-- The rounds for some fields. -/
theorem rounds {s last : Text} {fs : List (Text × Text)} (h : Reads s fs last) : ∀ {t : Test} {ps : List (Text × Text)} {n : Nat}, Inv t ps →
    ((ps ++ fs).map Prod.fst).Nodup → ps.length + fs.length < 16 → s.length < n →
    ∃ t' n', parseLoop n s t = parseLoop n' last t' ∧ Inv t' (ps ++ fs) ∧ last.length < n' ∧
      (Stuck t ∨ (∃ p ∈ fs.take (8 - ps.length), Short p) → Stuck t') := by
  induction h with
  | nil => exact fun {t ps n} hi hd hl hn => ⟨t, n, rfl, by rw [List.append_nil]; exact hi, hn, fun h => h.elim id (by simp)⟩
  | @cons s name body rest fs last hf hr ih =>
    intro t ps n hi hd hl hn
    rw [List.length_cons] at hl
    obtain ⟨r1, r2⟩ := ready_inv hi (by omega)
    obtain ⟨n, rfl⟩ : ∃ m, n = m + 1 := ⟨n - 1, by omega⟩
    have hnew : name ∉ ps.map Prod.fst := by
      intro q
      rw [List.map_append, List.nodup_append] at hd
      exact hd.2.2 name q name (List.mem_cons_self ..) rfl
    have hs := field_shorter hf
    obtain ⟨t', n', e, hi', hn', hk⟩ := ih (n := n) (added_inv (name := name) (body := body) r1 r2) (by rw [List.append_assoc]; exact hd)
      (by rw [List.length_append]; show ps.length + 1 + _ < _; omega) (by omega)
    rw [List.append_assoc] at hi'
    refine ⟨t', n', ((round hf r1).1 hnew).trans e, hi', hn', fun h => hk ?_⟩
    rcases h with h | ⟨p, hp, h⟩
    · exact .inl (added_stuck (.inl (by unfold Stuck; rw [ready_fields]; exact h)))
    · have h8 : ps.length < 8 := by
        refine Nat.lt_of_not_le fun q => ?_
        rw [show 8 - ps.length = 0 by omega] at hp
        cases hp
      rw [show 8 - ps.length = (8 - (ps.length + 1)) + 1 by omega, List.take_succ_cons] at hp
      rcases List.mem_cons.1 hp with rfl | hp
      · refine .inl (added_stuck (.inr ⟨?_, h⟩))
        have hlen := r1.sees.length
        rcases r1.stage with q | q
        · exact q.1
        · omega
      · exact .inr ⟨p, by rw [List.length_append]; exact hp, h⟩

theorem empty_inv : Inv empty [] := ⟨trivial, nofun, .inl ⟨rfl, rfl⟩, Nat.zero_le _⟩

/-! ## The blocks -/

def ids : Loc → List Nat
  | .own _ _ _ => []
  | .block i => [i]

def blocksOf (fs : List Field) : List Nat := fs.flatMap fun f => ids f.name ++ ids f.body

/-- The texts of a field are in the field itself or in blocks. -/
def Shape : Nat → List Field → Prop
  | _, [] => True
  | k, f :: fs => (f.name = .own 0 k false ∨ ∃ i, f.name = .block i) ∧ (f.body = .own 0 k true ∨ ∃ i, f.body = .block i) ∧ Shape (k + 1) fs

theorem Shape.snoc {f : Field} : ∀ {fs : List Field} {k : Nat}, Shape k fs → Shape (k + fs.length) [f] → Shape k (fs ++ [f])
  | [], k, _, h => h
  | g :: fs, k, ⟨a, b, c⟩, h => by
    refine ⟨a, b, Shape.snoc c ?_⟩
    rw [List.length_cons] at h
    rw [show k + 1 + fs.length = k + (fs.length + 1) by omega]
    exact h

/-- These blocks and no other are allocated, and no array is. -/
structure Live (t : Test) (L : List Nat) : Prop where
  nodup : L.Nodup
  live : ∀ i, (∃ x, t.text (.block i) = some x) ↔ i ∈ L
  arrays : ∀ a i b, a ≠ 0 → t.text (.own a i b) = none

theorem release {t : Test} {l own : Loc} {L : List Nat} (h : Live t (ids l ++ L)) (hl : l = own ∨ ∃ i, l = .block i) (ho : ∀ i, own ≠ .block i) :
    ∃ t', (if l = own then Exec.ok t else freeLoc t l) = .ok t' ∧ Live t' L ∧ t'.arr = t.arr ∧ t'.fields = t.fields := by
  by_cases q : l = own
  · rw [if_pos q]
    refine ⟨t, rfl, ?_, rfl, rfl⟩
    cases l with
    | own => exact h
    | block i => exact absurd q.symm (ho i)
  · rw [if_neg q]
    obtain ⟨i, rfl⟩ := hl.resolve_left q
    have hn := List.nodup_cons.1 h.nodup
    obtain ⟨x, hx⟩ := (h.live i).2 (List.mem_cons_self ..)
    unfold freeLoc
    dsimp only
    rw [hx]
    refine ⟨_, rfl, ⟨hn.2, fun j => ?_, fun a k b ha => ?_⟩, rfl, rfl⟩
    · by_cases hj : j = i
      · subst hj
        have hn1 : j ∉ L := hn.1
        simp [hn1]
      · have := h.live j
        simp only [ids, List.cons_append, List.nil_append, List.mem_cons, hj, false_or] at this
        rw [← this]
        simp [hj]
    · show (if Loc.own a k b = .block i then none else t.text (.own a k b)) = none
      rw [if_neg (by simp), h.arrays a k b ha]

theorem freeFields_live : ∀ {fs : List Field} {k : Nat} {t : Test}, Shape k fs → Live t (blocksOf fs) → t.arr = 0 →
    ∃ t', freeFields t k fs = .ok t' ∧ Live t' [] ∧ t'.arr = 0
  | [], k, t, _, h, ha => ⟨t, rfl, h, ha⟩
  | f :: fs, k, t, ⟨s1, s2, s3⟩, h, ha => by
    have e : blocksOf (f :: fs) = ids f.name ++ (ids f.body ++ blocksOf fs) := by
      unfold blocksOf
      rw [List.flatMap_cons, List.append_assoc]
    rw [e] at h
    obtain ⟨t1, e1, l1, a1, -⟩ := release h s1 nofun
    obtain ⟨t2, e2, l2, a2, -⟩ := release l1 s2 nofun
    obtain ⟨t3, e3, l3, a3⟩ := freeFields_live s3 l2 (a2.trans (a1.trans ha))
    refine ⟨t3, ?_, l3, a3⟩
    unfold freeFields freeField
    rw [ha, e1]
    show ((if f.body = .own t1.arr k true then Exec.ok t1 else freeLoc t1 f.body)).bind _ = _
    rw [a1, ha, e2]
    exact e3

/-- The test owns its blocks. -/
structure Owns (t : Test) : Prop where
  arr : t.arr = 0
  shape : Shape 0 t.fields
  live : Live t (blocksOf t.fields)

theorem freeTest_owns {t : Test} (h : Owns t) : ∃ t', freeTest t = .ok t' ∧ ∀ l, (∀ i b, l ≠ .own 0 i b) → t'.text l = none := by
  obtain ⟨t1, e, l, a⟩ := freeFields_live h.shape h.live h.arr
  refine ⟨freeArray t1, ?_, fun x hx => ?_⟩
  · unfold freeTest
    rw [e]
    rfl
  · cases x with
    | block i =>
      show t1.text (.block i) = none
      cases q : t1.text (.block i) with
      | none => rfl
      | some y => cases (l.live i).1 ⟨y, q⟩
    | own c i b =>
      show (if c = t1.arr ∧ t1.arr ≠ 0 then none else t1.text (.own c i b)) = none
      rw [if_neg (by omega)]
      refine l.arrays c i b ?_
      rintro rfl
      exact hx i b rfl

theorem empty_owns : Owns empty := 
  ⟨rfl, trivial, List.nodup_nil, fun i => Iff.intro (fun h => by obtain ⟨x, h⟩ := h; cases h) (fun h => by cases h), fun _ _ _ _ => rfl⟩

theorem ids_old {t : Test} {l : Loc} {i : Nat} (h : Old t l) (hi : i ∈ ids l) : i < t.blocks := by
  cases l with
  | own => cases hi
  | block j =>
    rw [List.mem_singleton.1 hi]
    exact h

theorem put_live {t : Test} {L : List Nat} {b : Bool} {txt : Text} (h : Live t L) (ha : t.arr = 0) (hL : ∀ i ∈ L, i < t.blocks) :
    Live (put t b txt) (L ++ ids (place t b txt)) ∧ ∀ i ∈ L ++ ids (place t b txt), i < (put t b txt).blocks := by
  by_cases q : txt.length < (if b then 512 else 128)
  · have hp : place t b txt = .own 0 t.fields.length b := by unfold place; rw [if_pos q, ha]
    have hi : ids (place t b txt) = [] := by rw [hp]; rfl
    rw [hi, List.append_nil]
    refine ⟨⟨h.nodup, fun i => ?_, fun a i c hz => ?_⟩, fun i hi => Nat.lt_succ_of_lt (hL i hi)⟩
    · rw [← h.live i]
      show (∃ x, (if Loc.block i = place t b txt then some txt else t.text (.block i)) = some x) ↔ _
      rw [hp, if_neg (by simp)]
    · show (if Loc.own a i c = place t b txt then some txt else t.text (.own a i c)) = none
      rw [hp, if_neg (by simp [hz]), h.arrays a i c hz]
  · have hp : place t b txt = .block t.blocks := by unfold place; rw [if_neg q]
    have hi : ids (place t b txt) = [t.blocks] := by rw [hp]; rfl
    rw [hi]
    refine ⟨⟨?_, fun i => ?_, fun a i c hz => ?_⟩, fun i hi => ?_⟩
    · rw [List.nodup_append]
      refine ⟨h.nodup, by simp, fun a ha' c hc e => ?_⟩
      rw [List.mem_singleton] at hc
      have := hL a ha'
      omega
    · show (∃ x, (if Loc.block i = place t b txt then some txt else t.text (.block i)) = some x) ↔ _
      rw [hp, List.mem_append, List.mem_singleton, ← h.live i]
      by_cases hb : i = t.blocks
      · subst hb
        simp
      · simp [hb]
    · show (if Loc.own a i c = place t b txt then some txt else t.text (.own a i c)) = none
      rw [hp, if_neg (by simp), h.arrays a i c hz]
    · rcases List.mem_append.1 hi with hi | hi
      · exact Nat.lt_succ_of_lt (hL i hi)
      · rw [List.mem_singleton.1 hi]
        exact Nat.lt_succ_self _

theorem place_shape {t : Test} {b : Bool} {txt : Text} (h : t.arr = 0) : place t b txt = .own 0 t.fields.length b ∨ ∃ i, place t b txt = .block i := by
  unfold place
  by_cases q : txt.length < (if b then 512 else 128)
  · rw [if_pos q, h]
    exact .inl rfl
  · rw [if_neg q]
    exact .inr ⟨_, rfl⟩

theorem added_owns {t : Test} {ps : List (Text × Text)} {name body : Text} (hi : Inv t ps) (h : Owns t) : Owns (added t name body) := by
  have hL : ∀ i ∈ blocksOf t.fields, i < t.blocks := by
    intro i q
    obtain ⟨f, hf, hm⟩ := List.mem_flatMap.1 q
    rcases List.mem_append.1 hm with hm | hm
    · exact ids_old (hi.old f hf).1 hm
    · exact ids_old (hi.old f hf).2 hm
  obtain ⟨l1, b1⟩ := put_live (b := false) (txt := name) h.live h.arr hL
  obtain ⟨l2, -⟩ := put_live (b := true) (txt := body) l1 h.arr b1
  refine ⟨h.arr, ?_, ?_⟩
  · refine Shape.snoc h.shape ⟨?_, ?_, trivial⟩
    · rw [Nat.zero_add]
      exact place_shape h.arr
    · rw [Nat.zero_add]
      exact place_shape (t := put t false name) h.arr
  · have e : blocksOf (added t name body).fields = blocksOf t.fields ++ ids (place t false name) ++ ids (place (put t false name) true body) := by
      show blocksOf (t.fields ++ [newField t name body]) = _
      unfold blocksOf
      rw [List.flatMap_append, List.flatMap_cons, List.flatMap_nil, List.append_nil, List.append_assoc]
      rfl
    rw [e]
    exact ⟨l2.nodup, l2.live, l2.arrays⟩

/-- As long as there are fewer than eight fields the array does not grow. -/
theorem rounds_own {s last : Text} {fs : List (Text × Text)} (h : Reads s fs last) : ∀ {t : Test} {ps : List (Text × Text)} {n : Nat}, Inv t ps → Owns t →
    ((ps ++ fs).map Prod.fst).Nodup → ps.length + fs.length < 8 → s.length < n →
    ∃ t' n', parseLoop n s t = parseLoop n' last t' ∧ Inv t' (ps ++ fs) ∧ Owns t' ∧ last.length < n' := by
  induction h with
  | nil => exact fun {t ps n} hi ho hd hl hn => ⟨t, n, rfl, by rw [List.append_nil]; exact hi, ho, hn⟩
  | @cons s name body rest fs last hf hr ih =>
    intro t ps n hi ho hd hl hn
    rw [List.length_cons] at hl
    obtain ⟨n, rfl⟩ : ∃ m, n = m + 1 := ⟨n - 1, by omega⟩
    have hlen := hi.sees.length
    have hcap : t.cap = 8 := by
      rcases hi.stage with q | q
      · exact q.2
      · rw [ho.arr] at q; exact absurd q.1 (by decide)
    have hready : ready t = t := by
      unfold ready
      rw [if_neg (by omega)]
    have r1 : Inv (ready t) ps := by rw [hready]; exact hi
    have hnew : name ∉ ps.map Prod.fst := by
      intro q
      rw [List.map_append, List.nodup_append] at hd
      exact hd.2.2 name q name (List.mem_cons_self ..) rfl
    have hs := field_shorter hf
    obtain ⟨t', n', e, hi', ho', hn'⟩ := ih (n := n) (added_inv (name := name) (body := body) hi (by omega)) (added_owns hi ho)
      (by rw [List.append_assoc]; exact hd) (by rw [List.length_append]; show ps.length + 1 + _ < _; omega) (by omega)
    rw [List.append_assoc] at hi'
    refine ⟨t', n', Eq.trans ?_ e, hi', ho', hn'⟩
    have := (round (n := n) hf r1).1 hnew
    rw [hready] at this
    exact this

theorem ready_owns {t : Test} {ps : List (Text × Text)} (hi : Inv t ps) (ho : Owns t) (hl : ps.length < 8) : ready t = t := by
  have hlen := hi.sees.length
  have hcap : t.cap = 8 := by
    rcases hi.stage with q | q
    · exact q.2
    · rw [ho.arr] at q; exact absurd q.1 (by decide)
  unfold ready
  rw [if_neg (by omega)]

/-! ## The end of the loop -/

theorem last_void {n : Nat} {s : Text} {t : Test} (h : ∀ c ∈ s, Blank c) : parseLoop (n + 1) s t = .ok (.void, ready t) := by
  replace h := blanks.2 h
  conv => lhs; unfold parseLoop
  have : parseField s = .inl .nofield := by
    unfold parseField
    rw [take_all h]
  rw [this]
  rfl

theorem last_noat {n : Nat} {ws s : Text} {c : UInt8} {t : Test} (h : ∀ c ∈ ws, Blank c) (hc : ¬ Blank c) (h64 : c ≠ 64) :
    parseLoop (n + 1) (ws ++ c :: s) t = (freeTest (ready t)).bind fun t => .ok (.noat, t) := by
  replace h := blanks.2 h
  rw [← blank_iff, Bool.not_eq_true] at hc
  conv => lhs; unfold parseLoop
  have : parseField (ws ++ c :: s) = .inl .noat := by
    unfold parseField
    rw [(take_app h (b := c :: s) (by intro x q; cases q; exact hc)).2]
    dsimp only
    rw [if_pos h64]
  rw [this]
  rfl

theorem last_noname {n : Nat} {ws s : Text} {t : Test} (h : ∀ c ∈ ws, Blank c) (hs : Not Letter s) :
    parseLoop (n + 1) (ws ++ 64 :: s) t = (freeTest (ready t)).bind fun t => .ok (.noname, t) := by
  replace h := blanks.2 h
  replace hs := (not_iff letter_iff _).2 hs
  conv => lhs; unfold parseLoop
  have : parseField (ws ++ 64 :: s) = .inl .noname := by
    unfold parseField
    rw [(take_app h (b := 64 :: s) (by intro x q; cases q; decide)).2]
    dsimp only
    have e : s.takeWhile isName = [] := (take_app (a := []) (b := s) nofun hs).1
    rw [if_neg (by simp), if_pos e]
  rw [this]
  rfl

/-- **C94, partial**: the parser finds the fields and says what is wrong with the others, for texts with fewer than eight fields
before what is wrong, and with fewer than 16 if nothing is wrong or a name occurs twice.  (`C94_violated`,
`C94_violated_syntax`: not with more.) -/
theorem C94_partial {s rest : Text} {fs : List (Text × Text)} {e : ErrorID} (hr : Reads s fs rest) (hd : (fs.map Prod.fst).Nodup)
    (hv : Verdict fs rest e) (hn : fs.length < 8 ∨ (fs.length < 16 ∧ (e = .void ∨ e = .dupl))) :
    ∃ t, parseTest s = .ok (e, t) ∧ (e = .void → ∀ name, query t name = .ok (bodyOf fs name)) := by
  have h16 : fs.length < 16 := by omega
  obtain ⟨t, n, e1, hi, hl, -⟩ := rounds hr (t := empty) (ps := []) (n := s.length + 1) empty_inv hd (by simpa using h16) (Nat.lt_succ_self _)
  rw [List.nil_append] at hi
  obtain ⟨n, rfl⟩ : ∃ m, n = m + 1 := ⟨n - 1, by omega⟩
  have hp : parseTest s = parseLoop (n + 1) rest t := e1
  obtain ⟨r1, r2⟩ := ready_inv hi h16
  have own : fs.length < 8 → ∃ t1 m t2, parseTest s = parseLoop (m + 1) rest t1 ∧ freeTest (ready t1) = .ok t2 := by
    intro h8
    obtain ⟨t', n', e2, hi', ho', hl'⟩ := rounds_own hr (t := empty) (ps := []) (n := s.length + 1) empty_inv empty_owns hd (by simpa using h8) (Nat.lt_succ_self _)
    rw [List.nil_append] at hi'
    obtain ⟨n', rfl⟩ : ∃ m, n' = m + 1 := ⟨n' - 1, by omega⟩
    obtain ⟨t2, f2, -⟩ := freeTest_owns ho'
    exact ⟨t', n', t2, e2, by rw [ready_owns hi' ho' h8]; exact f2⟩
  cases hv with
  | void hw => exact ⟨_, hp.trans (last_void hw), fun _ => query_of r1.sees⟩
  | dupl hf hm => exact ⟨_, hp.trans ((round hf r1).2 hm), nofun⟩
  | noat h1 h2 h3 =>
    obtain ⟨t1, m, t2, f1, f2⟩ := own (hn.resolve_right fun q => by rcases q.2 with q | q <;> cases q)
    refine ⟨t2, ?_, nofun⟩
    rw [f1, last_noat h1 h2 h3, f2]
    rfl
  | noname h1 h2 =>
    obtain ⟨t1, m, t2, f1, f2⟩ := own (hn.resolve_right fun q => by rcases q.2 with q | q <;> cases q)
    refine ⟨t2, ?_, nofun⟩
    rw [f1, last_noname h1 h2, f2]
    rfl

/-- **C95, partial**: everything is freed in the end, for texts with fewer than eight fields in which no name occurs twice.
(`C95_violated`, `C95_violated_twice`: not otherwise.) -/
theorem C95_partial {s rest : Text} {fs : List (Text × Text)} {e : ErrorID} (hr : Reads s fs rest) (hd : (fs.map Prod.fst).Nodup)
    (hv : Verdict fs rest e) (hn : fs.length < 8) (he : e ≠ .dupl) :
    ∃ t, parseTest s = .ok (e, t) ∧ ∃ t', (if e = .void then freeTest t else .ok t) = .ok t' ∧
      ∀ l, (∀ i b, l ≠ .own 0 i b) → t'.text l = none := by
  obtain ⟨t, n, e1, hi, ho, hl⟩ := rounds_own hr (t := empty) (ps := []) (n := s.length + 1) empty_inv empty_owns hd (by simpa using hn) (Nat.lt_succ_self _)
  rw [List.nil_append] at hi
  obtain ⟨n, rfl⟩ : ∃ m, n = m + 1 := ⟨n - 1, by omega⟩
  have hp : parseTest s = parseLoop (n + 1) rest t := e1
  have hready := ready_owns hi ho hn
  obtain ⟨t2, f2, hf⟩ := freeTest_owns ho
  cases hv with
  | void hw =>
    refine ⟨t, ?_, t2, ?_, hf⟩
    · rw [hp, last_void hw, hready]
    · rw [if_pos rfl]
      exact f2
  | dupl => exact absurd rfl he
  | noat h1 h2 h3 =>
    refine ⟨t2, ?_, t2, ?_, hf⟩
    · rw [hp, last_noat h1 h2 h3, hready, f2]
      rfl
    · rw [if_neg nofun]
  | noname h1 h2 =>
    refine ⟨t2, ?_, t2, ?_, hf⟩
    · rw [hp, last_noname h1 h2, hready, f2]
      rfl
    · rw [if_neg nofun]

/-! ## What goes wrong -/

theorem freeLoc_arr {t t' : Test} {l : Loc} (h : freeLoc t l = .ok t') : t'.arr = t.arr := by
  unfold freeLoc at h
  cases l with
  | own => cases h
  | block i =>
    dsimp only at h
    cases q : t.text (.block i) with
    | none => rw [q] at h; cases h
    | some x => rw [q] at h; cases h; rfl

theorem freeLoc_cases (t : Test) (l : Loc) : freeLoc t l = .ub ∨ ∃ t', freeLoc t l = .ok t' ∧ t'.arr = t.arr := by
  cases h : freeLoc t l with
  | ok t' => exact .inr ⟨t', rfl, freeLoc_arr h⟩
  | ub => exact .inl rfl
  | err =>
    unfold freeLoc at h
    cases l with
    | own => cases h
    | block i => dsimp only at h; cases q : t.text (.block i) <;> rw [q] at h <;> cases h
  | diverge =>
    unfold freeLoc at h
    cases l with
    | own => cases h
    | block i => dsimp only at h; cases q : t.text (.block i) <;> rw [q] at h <;> cases h

/-- A text in the first array cannot be freed as part of another one. -/
theorem freeFields_stuck : ∀ {fs : List Field} {k : Nat} {t : Test}, t.arr = 1 →
    (∃ f ∈ fs, ∃ i b, f.name = .own 0 i b ∨ f.body = .own 0 i b) → freeFields t k fs = .ub
  | [], _, _, _, ⟨_, h, _⟩ => by cases h
  | g :: fs, k, t, ha, ⟨f, hf, i, b, h⟩ => by
    have part : ∀ (t : Test) (l own : Loc), t.arr = 1 → (if l = own then Exec.ok t else freeLoc t l) = .ub ∨
        ∃ t', (if l = own then Exec.ok t else freeLoc t l) = .ok t' ∧ t'.arr = 1 := by
      intro t l own ha
      by_cases q : l = own
      · rw [if_pos q]; exact .inr ⟨t, rfl, ha⟩
      · rw [if_neg q]
        rcases freeLoc_cases t l with h | ⟨t', h1, h2⟩
        · exact .inl h
        · exact .inr ⟨t', h1, h2.trans ha⟩
    unfold freeFields freeField
    rcases part t g.name (.own t.arr k false) ha with e1 | ⟨t1, e1, a1⟩
    · rw [e1]; rfl
    rw [e1]
    show (Exec.bind (if g.body = .own t1.arr k true then Exec.ok t1 else freeLoc t1 g.body) _) = _
    rcases part t1 g.body (.own t1.arr k true) a1 with e2 | ⟨t2, e2, a2⟩
    · rw [e2]; rfl
    rw [e2]
    rcases List.mem_cons.1 hf with rfl | hf
    · rcases h with h | h
      · rw [h, if_neg (by simp [ha])] at e1
        cases e1
      · rw [h, if_neg (by simp [a1])] at e2
        cases e2
    · exact freeFields_stuck a2 ⟨f, hf, i, b, h⟩

/-- A test with at least eight fields, and not more than the new array has room for, can be queried but not be freed, unless
names and bodies of the first eight are all too long to be in the fields. -/
theorem C95_never {s rest : Text} {fs : List (Text × Text)} (hr : Reads s fs rest) (hd : (fs.map Prod.fst).Nodup)
    (hw : ∀ c ∈ rest, Blank c) (h8 : 8 ≤ fs.length) (h16 : fs.length < 16) (hs : ∃ p ∈ fs.take 8, Short p) :
    ∃ t, parseTest s = .ok (.void, t) ∧ freeTest t = .ub := by
  obtain ⟨t, n, e1, hi, hl, hk⟩ := rounds hr (t := empty) (ps := []) (n := s.length + 1) empty_inv hd (by simpa using h16) (Nat.lt_succ_self _)
  rw [List.nil_append] at hi
  obtain ⟨n, rfl⟩ : ∃ m, n = m + 1 := ⟨n - 1, by omega⟩
  have hp : parseTest s = parseLoop (n + 1) rest t := e1
  obtain ⟨r1, r2⟩ := ready_inv hi h16
  have hlen := r1.sees.length
  have ha : (ready t).arr = 1 := by
    rcases r1.stage with q | q
    · omega
    · exact q.1
  refine ⟨_, hp.trans (last_void hw), ?_⟩
  unfold freeTest
  rw [freeFields_stuck ha]
  · rfl
  · have := hk (.inr hs)
    unfold Stuck at this
    rw [ready_fields]
    exact this

def isUb {α : Type} : Exec α → Bool
  | .ub => true
  | _ => false

/-- `@a @b … ` -/
def letters (n : Nat) : Text := (List.range n).flatMap fun i => [64, UInt8.ofNat (97 + i), 32]

/-- With 16 fields the names of some of them are gone when one asks for a field that is not there. -/
theorem C94_violated : ¬ C94Statement := by
  intro h
  obtain ⟨fs, rest, e, h1, h2, h3⟩ := covered (letters 16)
  obtain ⟨t, ht, hq⟩ := h _ _ _ _ h1 h2 h3
  have key : (match parseTest (letters 16) with
    | .ok (.void, t) => isUb (query t [122])
    | _ => false) = true := by decide +kernel
  rw [ht] at key
  cases e <;> first | (cases key; done) | skip
  have : query t [122] = .ok (bodyOf fs [122]) := hq rfl _
  dsimp only at key
  rw [this] at key
  cases key

/-- With eight fields and something wrong after them the parser itself frees what it must not. -/
theorem C94_never {s rest : Text} {fs : List (Text × Text)} {e : ErrorID} (hr : Reads s fs rest) (hd : (fs.map Prod.fst).Nodup)
    (hv : Verdict fs rest e) (he : e = .noat ∨ e = .noname) (h8 : 8 ≤ fs.length) (h16 : fs.length < 16) (hs : ∃ p ∈ fs.take 8, Short p) :
    parseTest s = .ub := by
  obtain ⟨t, n, e1, hi, hl, hk⟩ := rounds hr (t := empty) (ps := []) (n := s.length + 1) empty_inv hd (by simpa using h16) (Nat.lt_succ_self _)
  rw [List.nil_append] at hi
  obtain ⟨n, rfl⟩ : ∃ m, n = m + 1 := ⟨n - 1, by omega⟩
  have hp : parseTest s = parseLoop (n + 1) rest t := e1
  obtain ⟨r1, r2⟩ := ready_inv hi h16
  have hlen := r1.sees.length
  have ha : (ready t).arr = 1 := by
    rcases r1.stage with q | q
    · omega
    · exact q.1
  have hf : freeTest (ready t) = .ub := by
    unfold freeTest
    rw [freeFields_stuck ha]
    · rfl
    · have := hk (.inr hs)
      unfold Stuck at this
      rw [ready_fields]
      exact this
  cases hv with
  | void => rcases he with he | he <;> cases he
  | dupl => rcases he with he | he <;> cases he
  | noat h1 h2 h3 => rw [hp, last_noat h1 h2 h3, hf]; rfl
  | noname h1 h2 => rw [hp, last_noname h1 h2, hf]; rfl

theorem C94_violated_syntax : ¬ C94Statement := by
  intro h
  obtain ⟨fs, rest, e, h1, h2, h3⟩ := covered (letters 8 ++ [64, 49])
  obtain ⟨t, ht, -⟩ := h _ _ _ _ h1 h2 h3
  have key : isUb (parseTest (letters 8 ++ [64, 49])) = true := by decide +kernel
  rw [ht] at key
  cases key

/-- With eight fields the test cannot be freed. -/
theorem C95_violated : ¬ C95Statement := by
  intro h
  obtain ⟨fs, rest, e, h1, h2, h3⟩ := covered (letters 8)
  obtain ⟨t, ht, t', hf, -⟩ := h _ _ _ _ h1 h2 h3
  have key : (match parseTest (letters 8) with
    | .ok (.void, t) => isUb (freeTest t)
    | _ => false) = true := by decide +kernel
  rw [ht] at key
  cases e <;> first | (cases key; done) | skip
  rw [if_pos rfl] at hf
  dsimp only at key
  rw [hf] at key
  cases key

/-- Two fields of the same name, the second with a long body. -/
def twice : Text := [64, 97, 64, 97, 91] ++ List.replicate 512 120

/-- If a name occurs twice then the blocks stay allocated. -/
theorem C95_violated_twice : ¬ C95Statement := by
  intro h
  obtain ⟨fs, rest, e, h1, h2, h3⟩ := covered twice
  obtain ⟨t, ht, t', hf, hl⟩ := h _ _ _ _ h1 h2 h3
  have key : (match parseTest twice with
    | .ok (.dupl, t) => (t.text (.block 3)).isSome
    | _ => false) = true := by decide +kernel
  rw [ht] at key
  cases e <;> first | (cases key; done) | skip
  rw [if_neg (by decide)] at hf
  cases hf
  dsimp only at key
  rw [hl (.block 3) (by intro i b q; cases q)] at key
  cases key

/-! ## Examples -/

/-- `@t [r] @c x`: two fields. -/
theorem two : Reads [64, 116, 32, 91, 114, 93, 32, 64, 99, 32, 120] [([116], [114]), ([99], [120])] [] :=
  .cons (IsField.mk (ws := []) (name := [116]) (ws' := [32]) (by decide) (by decide) (by decide) (by intro c q; cases q; decide) (by decide)
      (by intro c q; cases q; decide) (.closed (b := [114]) (.inl rfl) (by decide) (by decide)))
    (.cons (IsField.mk (ws := [32]) (name := [99]) (ws' := [32]) (by decide) (by decide) (by decide) (by intro c q; cases q; decide) (by decide)
      (by intro c q; cases q; decide) (.bare (b := [120]) (rest := []) (by decide) (.inl rfl) (by decide) (by decide))) .nil)

example : ∃ t, parseTest [64, 116, 32, 91, 114, 93, 32, 64, 99, 32, 120] = .ok (.void, t) ∧ query t [99] = .ok (some [120]) ∧ query t [98] = .ok none := by
  obtain ⟨t, h1, h2⟩ := C94_partial two (by decide) (.void nofun) (.inl (by decide))
  exact ⟨t, h1, h2 rfl _, h2 rfl _⟩

example : ∃ t t', parseTest [64, 116, 32, 91, 114, 93, 32, 64, 99, 32, 120] = .ok (.void, t) ∧ freeTest t = .ok t' := by
  obtain ⟨t, h1, t', h2, -⟩ := C95_partial two (by decide) (.void nofun) (by decide) nofun
  exact ⟨t, t', h1, h2⟩

/-- What is read of `@a @b …`. -/
theorem letters_read : ∀ (l : List UInt8), (∀ c ∈ l, Letter c) →
    Reads (l.flatMap fun c => [64, c, 32]) (l.map fun c => ([c], [])) []
  | [], _ => .nil
  | c :: l, h => by
    have hn : Next (l.flatMap fun c => [64, c, 32]) := by
      cases l with
      | nil => exact .inl rfl
      | cons d l => exact .inr rfl
    have hs : Not Blank (l.flatMap fun c => [64, c, 32]) := by
      intro x hx
      rcases hn with q | q
      · rw [q] at hx; cases hx
      · rw [q] at hx; cases hx; decide
    exact .cons (IsField.mk (ws := []) (name := [c]) (ws' := [32]) nofun nofun
      (fun x q => by rw [List.mem_singleton.1 q]; exact h c (List.mem_cons_self ..)) (by intro x q; cases q; decide) (by decide) hs
      (.bare (b := []) nofun hn nofun nofun)) (letters_read l fun x q => h x (List.mem_cons_of_mem _ q))

example : ∃ t, parseTest ([97, 98, 99, 100, 101, 102, 103, 104, 105].flatMap fun c => [64, c, 32]) = .ok (.void, t) ∧ freeTest t = .ub :=
  C95_never (letters_read _ (by decide)) (by decide) nofun (by decide) (by decide) ⟨([97], []), by decide, .inl (by decide)⟩

/-- `@a [] … @i [] !` -/
example : ∃ s fs rest, Reads s fs rest ∧ Verdict fs rest .noname ∧ 8 ≤ fs.length ∧ parseTest s = .ub := by
  have bad : Verdict [] [64, 49] .noname := .noname (ws := []) nofun (by intro c q; cases q; decide)
  have chain : ∀ {s : Text} {fs : List (Text × Text)} (l : List UInt8), (∀ c ∈ l, Letter c) →
      Reads ((l.flatMap fun c => [64, c, 32]) ++ [64, 49]) (l.map fun c => ([c], [])) [64, 49] := by
    intro _ _ l
    induction l with
    | nil => exact fun _ => .nil
    | cons c l ih =>
      intro h
      have hn : Next ((l.flatMap fun c => [64, c, 32]) ++ [64, 49]) := by cases l <;> exact .inr rfl
      have hs : Not Blank ((l.flatMap fun c => [64, c, 32]) ++ [64, 49]) := by
        intro x hx
        rcases hn with q | q
        · rw [q] at hx; cases hx
        · rw [q] at hx; cases hx; decide
      exact .cons (IsField.mk (ws := []) (name := [c]) (ws' := [32]) nofun nofun
        (fun x q => by rw [List.mem_singleton.1 q]; exact h c (List.mem_cons_self ..)) (by intro x q; cases q; decide) (by decide) hs
        (.bare (b := []) nofun hn nofun nofun)) (ih fun x q => h x (List.mem_cons_of_mem _ q))
  have hr := chain (s := []) (fs := []) [97, 98, 99, 100, 101, 102, 103, 104, 105] (by decide)
  have hv : Verdict ([97, 98, 99, 100, 101, 102, 103, 104, 105].map fun c : UInt8 => ([c], ([] : Text))) [64, 49] .noname :=
    .noname (ws := []) nofun (by intro c q; cases q; decide)
  exact ⟨_, _, _, hr, hv, by decide, C94_never hr (by decide) hv (.inr rfl) (by decide) (by decide) ⟨([97], []), by decide, .inl (by decide)⟩⟩

end Noja.TestFile
