import Verif.Parse.Token
import Verif.Asm.Scan
import Verif.Asm.Total

/-!
# What the tokens of a text are (C50)

`Split` says, without reference to the tokenizer, how a text is divided into gaps and words;
`tokenize` accepts a text exactly if it can be divided, and its tokens are the words.
-/

namespace Noja.Parse

open Noja.Asm (takeWhile_run dropWhile_run dropWhile_head)

set_option linter.unusedSimpArgs false
set_option linter.unusedVariables false

/-- What may lie between tokens: spaces and comments.  A comment lasts until a newline or the end of
the text (`r` is what follows). -/
inductive Blank : List UInt8 → (r : List UInt8) → Prop where
  | nil {r} : Blank [] r
  | space {c g r} : isSpace c = true → Blank g r → Blank (c :: g) r
  | comment {b g r} : (10 : UInt8) ∉ b → (g ++ r).head? = some 10 ∨ g ++ r = [] → Blank g r → Blank (35 :: (b ++ g)) r

/-- The text between the quotes of a string literal: the quote itself only after a backslash, and a
backslash before a quote or a backslash belongs to it. -/
inductive Quoted (q : UInt8) : List UInt8 → Prop where
  | nil : Quoted q []
  | plain {c b} : c ≠ q → c ≠ 92 → Quoted q b → Quoted q (c :: b)
  | escape {c b} : c = 39 ∨ c = 34 ∨ c = 92 → Quoted q b → Quoted q (92 :: c :: b)
  | other {c b} : c ≠ 39 → c ≠ 34 → c ≠ 92 → Quoted q (c :: b) → Quoted q (92 :: c :: b)

/-- `w`, followed by `r`, is a token of kind `k`. -/
inductive Lexeme : Kind → (w r : List UInt8) → Prop where
  /-- identifiers and keywords: letters, digits and underscores, as many as there are -/
  | word {c w r} : identStart c = true → (∀ d ∈ w, identChar d = true) → (∀ d, r.head? = some d → identChar d = false) →
      Lexeme ((kwords.lookup (c :: w)).getD .ident) (c :: w) r
  | int {w r} : w ≠ [] → (∀ d ∈ w, isDigit d = true) → (∀ d, r.head? = some d → isDigit d = false) →
      (∀ d s, r = 46 :: d :: s → isDigit d = false) → Lexeme .int w r
  | float {a b r} : a ≠ [] → b ≠ [] → (∀ d ∈ a, isDigit d = true) → (∀ d ∈ b, isDigit d = true) →
      (∀ d, r.head? = some d → isDigit d = false) → Lexeme .float (a ++ 46 :: b) r
  | string {q b r} : q = 39 ∨ q = 34 → Quoted q b → Lexeme .string (q :: (b ++ [q])) r
  /-- a run of operator characters that is an operator -/
  | oper {k w r} : (∀ d ∈ w, isOper d = true) → (∀ d, r.head? = some d → isOper d = false) →
      optable.lookup w = some k → Lexeme k w r
  /-- the first of a run of operator characters that is none -/
  | operFirst {c w r s} : isOper c = true → (∀ d ∈ w, isOper d = true) → (∀ d, s.head? = some d → isOper d = false) →
      optable.lookup (c :: w) = none → r = w ++ s → Lexeme (.ch c) [c] r
  /-- any other character -/
  | single {c r} : identStart c = false → isDigit c = false → isOper c = false → c ≠ 39 → c ≠ 34 →
      isSpace c = false → c ≠ 35 → Lexeme (.ch c) [c] r

/-- The text `t`, `n` bytes into the source, is divided into these tokens. -/
inductive Split : (t : List UInt8) → (n : Nat) → List Token → Prop where
  | done {g n} : Blank g [] → Split g n [⟨.done, (n + g.length : Nat), []⟩]
  | token {g w r k n ts} : Blank g (w ++ r) → w ≠ [] → Lexeme k w r → Split r (n + g.length + w.length) ts →
      Split (g ++ (w ++ r)) n (⟨k, (n + g.length : Nat), w⟩ :: ts)

/-! ## Gaps -/

theorem span_while (p : UInt8 → Bool) : ∀ t : List UInt8, ∃ a r, t = a ++ r ∧ (∀ c ∈ a, p c = true) ∧
    (∀ c, r.head? = some c → p c = false) ∧ t.takeWhile p = a ∧ t.dropWhile p = r
  | [] => ⟨[], [], rfl, by simp, by simp, by simp, by simp⟩
  | c :: t => by
    by_cases h : p c = true
    · obtain ⟨a, r, e, ha, hr, h1, h2⟩ := span_while p t
      refine ⟨c :: a, r, by rw [e]; rfl, ?_, hr, by rw [List.takeWhile_cons_of_pos h, h1],
        by rw [List.dropWhile_cons_of_pos h, h2]⟩
      intro d hd
      rcases List.mem_cons.mp hd with rfl | hd
      · exact h
      · exact ha d hd
    · refine ⟨[], c :: t, rfl, by simp, ?_, by rw [List.takeWhile_cons_of_neg h], by rw [List.dropWhile_cons_of_neg h]⟩
      intro d hd
      cases hd
      simpa using h

theorem Blank.spaces {a g r : List UInt8} (h : ∀ c ∈ a, isSpace c = true) (hb : Blank g r) : Blank (a ++ g) r := by
  induction a with
  | nil => exact hb
  | cons c a ih =>
    exact .space (h c (by simp)) (ih (fun d hd => h d (List.mem_cons_of_mem _ hd)))

/-- Nothing blank at the start. -/
def Starts (t : List UInt8) : Prop := ∀ c, t.head? = some c → isSpace c = false ∧ c ≠ 35

theorem skipBlank_spec : ∀ (n : Nat) (t : List UInt8), t.length < n →
    ∃ g r, t = g ++ r ∧ Blank g r ∧ Starts r ∧ skipBlank n t = .ok r
  | 0, _, h => by omega
  | n + 1, [], _ => ⟨[], [], rfl, .nil, by simp [Starts], rfl⟩
  | n + 1, c :: t, h => by
    unfold skipBlank
    dsimp only
    by_cases hc : (isSpace c || c == 35) = true
    · rw [if_pos hc]
      obtain ⟨a, r, e, ha, hr, h1, h2⟩ := span_while isSpace (c :: t)
      rw [h2]
      have hl : (c :: t).length = a.length + r.length := by rw [e]; simp
      rw [List.length_cons] at hl h
      cases r with
      | nil =>
        obtain ⟨g, r', e', hb, hs, hk⟩ := skipBlank_spec n [] (by
          have : a.length ≤ t.length + 1 := by omega
          simp; omega)
        have : g = [] ∧ r' = [] := by
          have := congrArg List.length e'
          simp only [List.length_nil, List.length_append] at this
          exact ⟨List.eq_nil_of_length_eq_zero (by omega), List.eq_nil_of_length_eq_zero (by omega)⟩
        obtain ⟨rfl, rfl⟩ := this
        exact ⟨a, [], e, by simpa using hb.spaces ha, hs, hk⟩
      | cons d r =>
        by_cases hd : d = 35
        · subst hd
          obtain ⟨b, s, eb, hbb, hsb, _, h2b⟩ := span_while (· != 10) r
          rw [List.length_cons] at hl
          have hls : r.length = b.length + s.length := by rw [eb]; simp
          obtain ⟨g, r', e', hb, hs, hk⟩ := skipBlank_spec n s (by omega)
          refine ⟨a ++ 35 :: (b ++ g), r', ?_, ?_, hs, by
            show skipBlank n (r.dropWhile (· != 10)) = _
            rw [h2b]; exact hk⟩
          · rw [e, eb, e']; simp
          · refine Blank.spaces ha (.comment ?_ ?_ hb)
            · intro hm
              have := hbb 10 hm
              simp at this
            · rw [← e']
              cases s with
              | nil => exact .inr rfl
              | cons x s =>
                have := hsb x rfl
                left
                simpa using this
        · have ha0 : a ≠ [] := by
            intro h0
            subst h0
            have : d = c := by
              have := congrArg List.head? e
              simpa using this.symm
            subst this
            have h1 := hr d rfl
            simp [h1, hd] at hc
          have : 0 < a.length := List.length_pos_iff.mpr ha0
          obtain ⟨g, r', e', hb, hs, hk⟩ := skipBlank_spec n (d :: r) (by omega)
          refine ⟨a ++ g, r', by rw [e, e']; simp, hb.spaces ha, hs, ?_⟩
          split
          · rename_i e; cases e; exact absurd rfl hd
          · exact hk
    · rw [if_neg hc]
      refine ⟨[], c :: t, rfl, .nil, ?_, rfl⟩
      intro d hd
      cases hd
      simpa using hc

/-- A gap is skipped, whatever follows. -/
theorem Blank.unique {g r : List UInt8} (h : Blank g r) : ∀ {g' r' : List UInt8}, Starts r → Blank g' r' → Starts r' →
    g ++ r = g' ++ r' → r = r' := by
  induction h with
  | nil =>
    intro g' r' hs hb hs' e
    cases hb with
    | nil => simpa using e
    | space hc _ =>
      have := hs _ (by rw [List.nil_append] at e; rw [e]; rfl)
      simp [hc] at this
    | comment _ _ _ =>
      have := hs 35 (by rw [List.nil_append] at e; rw [e]; rfl)
      exact absurd rfl this.2
  | @space c g r hc hb ih =>
    intro g' r' hs hb' hs' e
    cases hb' with
    | nil =>
      have := hs' c (by rw [List.nil_append] at e; rw [← e]; rfl)
      simp [hc] at this
    | space hc' hb' =>
      rw [List.cons_append, List.cons_append] at e
      exact ih hs hb' hs' (List.cons.inj e).2
    | comment _ _ _ =>
      rw [List.cons_append, List.cons_append] at e
      have := (List.cons.inj e).1
      subst this
      simp [isSpace] at hc
  | @comment b g r hn he hb ih =>
    intro g' r' hs hb' hs' e
    cases hb' with
    | nil =>
      have := hs' 35 (by rw [List.nil_append] at e; rw [← e]; rfl)
      exact absurd rfl this.2
    | space hc' hb' =>
      rw [List.cons_append, List.cons_append] at e
      have := (List.cons.inj e).1
      subst this
      simp [isSpace] at hc'
    | @comment b' g' _ hn' he' hb' =>
      rw [List.cons_append, List.cons_append] at e
      have e2 := (List.cons.inj e).2
      rw [List.append_assoc, List.append_assoc] at e2
      have key : ∀ (b : List UInt8) (s : List UInt8), (10 : UInt8) ∉ b → s.head? = some 10 ∨ s = [] →
          (b ++ s).dropWhile (· != 10) = s := by
        intro b s h1 h2
        apply dropWhile_run
        · intro c hc
          simp only [bne_iff_ne, ne_eq]
          rintro rfl
          exact h1 hc
        · intro c hc
          rcases h2 with h2 | h2
          · rw [h2] at hc; cases hc; rfl
          · rw [h2] at hc; cases hc
      have := key b (g ++ r) hn he
      rw [e2, key b' (g' ++ r') hn' he'] at this
      exact ih hs hb' hs' this.symm

theorem skipBlank_blank {g r : List UInt8} (h : Blank g r) (hs : Starts r) {n : Nat} (hn : (g ++ r).length < n) :
    skipBlank n (g ++ r) = .ok r := by
  obtain ⟨g', r', e, hb, hs', hk⟩ := skipBlank_spec n (g ++ r) hn
  rw [hk, h.unique hs hb hs' e]

/-! ## Strings -/

/-- What the scan of a string literal finds. -/
theorem scanString_spec (past q : UInt8) (hq : q = 39 ∨ q = 34) : ∀ (n : Nat) (t : List UInt8), t.length + 1 < n →
    (∃ b r, t = b ++ q :: r ∧ Quoted q b ∧ scanString past q n t = .ok r) ∨
    (scanString past q n t = if past = 92 then .ub else .err)
  | 0, _, h => by omega
  | n + 1, t, h => by
    unfold scanString
    obtain ⟨a, s, e, ha, hs, h1, h2⟩ := span_while (fun c => c != 92 && c != q) t
    rw [h2]
    clear h1
    have hqa : ∀ b, Quoted q b → Quoted q (a ++ b) := by
      intro b hb
      clear h2 e
      induction a with
      | nil => exact hb
      | cons c a ih =>
        have := ha c (by simp)
        simp at this
        exact .plain this.2 this.1 (ih (fun d hd => ha d (List.mem_cons_of_mem _ hd)))
    have hl : t.length = a.length + s.length := by rw [e]; simp
    cases s with
    | nil => exact .inr rfl
    | cons c s =>
      have hc := hs c rfl
      dsimp only
      rw [List.length_cons] at hl
      by_cases hc92 : c = 92
      · subst hc92
        rw [if_pos rfl]
        cases s with
        | nil =>
          dsimp only
          rcases scanString_spec past q hq n [] (by simp at hl ⊢; omega) with ⟨b, r, e', hb, hk⟩ | hk
          · simp at e'
          · exact .inr hk
        | cons d s =>
          rw [List.length_cons] at hl
          dsimp only
          by_cases hd : (d = 39 || d = 34 || d = 92) = true
          · rw [if_pos hd]
            rcases scanString_spec past q hq n s (by omega) with ⟨b, r, e', hb, hk⟩ | hk
            · refine .inl ⟨a ++ 92 :: d :: b, r, by rw [e, e']; simp, hqa _ (.escape ?_ hb), hk⟩
              simpa [or_assoc] using hd
            · exact .inr hk
          · rw [if_neg hd]
            simp at hd
            rcases scanString_spec past q hq n (d :: s) (by simp; omega) with ⟨b, r, e', hb, hk⟩ | hk
            · cases b with
              | nil =>
                exfalso
                cases e'
                rcases hq with rfl | rfl <;> simp at hd
              | cons d' b =>
                cases e'
                exact .inl ⟨a ++ 92 :: d :: b, r, by rw [e]; simp, hqa _ (.other hd.1.1 hd.1.2 hd.2 hb), hk⟩
            · exact .inr hk
      · rw [if_neg hc92]
        have hcq : c = q := by simp [hc92] at hc; exact hc
        subst hcq
        exact .inl ⟨a, s, e, by simpa using hqa _ .nil, rfl⟩

/-- A plain character is skipped. -/
theorem scanString_plain (past q c : UInt8) (t : List UInt8) (h1 : c ≠ q) (h2 : c ≠ 92) (n : Nat) :
    scanString past q (n + 1) (c :: t) = scanString past q (n + 1) t := by
  unfold scanString
  rw [List.dropWhile_cons_of_pos (by simp [h1, h2])]

theorem scanString_quoted (past q : UInt8) (hq : q = 39 ∨ q = 34) {b : List UInt8} (h : Quoted q b) (r : List UInt8) :
    ∀ n, (b ++ q :: r).length + 1 < n → scanString past q n (b ++ q :: r) = .ok r := by
  have h92 : q ≠ 92 := by rcases hq with rfl | rfl <;> decide
  induction h with
  | nil =>
    intro n hn
    obtain ⟨m, rfl⟩ : ∃ m, n = m + 1 := ⟨n - 1, by omega⟩
    unfold scanString
    rw [List.nil_append, List.dropWhile_cons_of_neg (by simp)]
    dsimp only
    rw [if_neg h92]
  | @plain c b h1 h2 _ ih =>
    intro n hn
    obtain ⟨m, rfl⟩ : ∃ m, n = m + 1 := ⟨n - 1, by omega⟩
    rw [List.cons_append, scanString_plain past q c _ h1 h2]
    exact ih _ (by simp at hn ⊢; omega)
  | @escape c b hc _ ih =>
    intro n hn
    obtain ⟨m, rfl⟩ : ∃ m, n = m + 1 := ⟨n - 1, by omega⟩
    unfold scanString
    rw [List.cons_append, List.cons_append, List.dropWhile_cons_of_neg (by simp)]
    dsimp only
    rw [if_pos rfl, if_pos (by simpa [or_assoc] using hc)]
    exact ih _ (by simp at hn ⊢; omega)
  | @other c b h1 h2 h3 _ ih =>
    intro n hn
    obtain ⟨m, rfl⟩ : ∃ m, n = m + 1 := ⟨n - 1, by omega⟩
    unfold scanString
    rw [List.cons_append, List.cons_append, List.dropWhile_cons_of_neg (by simp)]
    dsimp only
    rw [if_pos rfl, if_neg (by simp [h1, h2, h3])]
    exact ih _ (by simp at hn ⊢; omega)

/-! ## One token -/

/-- Something about every byte. -/
theorem byte_all (p : UInt8 → Bool) (h : ∀ i : Fin 256, p (UInt8.ofNat i.val) = true) (c : UInt8) : p c = true := by
  have := h ⟨c.toNat, c.toNat_lt⟩
  simpa using this

theorem identStart_char (c : UInt8) (h : identStart c = true) : identChar c = true := by
  simp only [identStart, identChar, Bool.or_eq_true] at h ⊢
  rcases h with h | h
  · exact .inl (.inl h)
  · exact .inr h

set_option maxRecDepth 4000 in
/-- Characters by which the cases are told apart. -/
theorem starts_of (c : UInt8) (h : identStart c = true ∨ isDigit c = true ∨ c = 39 ∨ c = 34 ∨ isOper c = true) :
    isSpace c = false ∧ c ≠ 35 := by
  have := byte_all (fun c => !(identStart c || isDigit c || c == 39 || c == 34 || isOper c) || (!isSpace c && c != 35))
    (by decide +kernel) c
  simp only [Bool.or_eq_true, Bool.not_eq_true', Bool.and_eq_true, bne_iff_ne, Bool.or_eq_false_iff, beq_eq_false_iff_ne,
    ne_eq] at this
  rcases this with h' | h'
  · obtain ⟨⟨⟨⟨a, b⟩, c⟩, d⟩, e⟩ := h'
    rcases h with h | h | h | h | h <;> simp_all
  · exact h'

theorem digit_class (c : UInt8) (h : isDigit c = true) : identStart c = false ∧ isOper c = false := by
  have := byte_all (fun c => !isDigit c || (!identStart c && !isOper c)) (by decide +kernel) c
  simpa [h] using this

theorem quote_class (c : UInt8) (h : c = 39 ∨ c = 34) : identStart c = false ∧ isDigit c = false ∧ isOper c = false := by
  rcases h with rfl | rfl <;> decide

theorem oper_class (c : UInt8) (h : isOper c = true) : identStart c = false ∧ isDigit c = false ∧ c ≠ 39 ∧ c ≠ 34 := by
  have := byte_all (fun c => !isOper c || (!identStart c && !isDigit c && c != 39 && c != 34)) (by decide +kernel) c
  simpa [h, and_assoc] using this

theorem Lexeme.starts {k : Kind} {w r : List UInt8} (h : Lexeme k w r) : w ≠ [] → Starts (w ++ r) := by
  intro hne c hc
  cases h with
  | word h1 _ _ => cases hc; exact starts_of _ (.inl h1)
  | int _ h2 _ _ =>
    cases w with
    | nil => exact absurd rfl hne
    | cons d w => cases hc; exact starts_of _ (.inr (.inl (h2 _ (by simp))))
  | @float a b _ h1 _ h3 _ _ =>
    cases a with
    | nil => exact absurd rfl h1
    | cons d a => cases hc; exact starts_of _ (.inr (.inl (h3 _ (by simp))))
  | string hq _ =>
    cases hc
    exact starts_of _ (.inr (.inr (by rcases hq with h | h <;> simp [h])))
  | oper h1 _ _ =>
    cases w with
    | nil => exact absurd rfl hne
    | cons d w => cases hc; exact starts_of _ (.inr (.inr (.inr (.inr (h1 _ (by simp))))))
  | operFirst h1 _ _ _ => cases hc; exact starts_of _ (.inr (.inr (.inr (.inr h1))))
  | single _ _ _ _ _ h1 h2 => cases hc; exact ⟨h1, h2⟩

theorem afterDigits_int {w r : List UInt8} (h2 : ∀ d ∈ w, isDigit d = true)
    (h3 : ∀ d, r.head? = some d → isDigit d = false) (h4 : ∀ d s, r = 46 :: d :: s → isDigit d = false) :
    afterDigits (w ++ r) = (.int, r) := by
  unfold afterDigits
  rw [dropWhile_run isDigit w r h2 h3]
  split
  · rename_i d s
    rw [if_neg (by rw [h4 d s rfl]; decide)]
  · rfl

theorem afterDigits_float {a b r : List UInt8} (hb : b ≠ []) (h2 : ∀ d ∈ a, isDigit d = true) (h3 : ∀ d ∈ b, isDigit d = true)
    (h4 : ∀ d, r.head? = some d → isDigit d = false) : afterDigits (a ++ 46 :: b ++ r) = (.float, r) := by
  unfold afterDigits
  rw [List.append_assoc, dropWhile_run isDigit a (46 :: b ++ r) h2 (by intro d hd; cases hd; decide)]
  cases b with
  | nil => exact absurd rfl hb
  | cons d b =>
    show (if isDigit d then (Kind.float, (d :: (b ++ r)).dropWhile isDigit) else _) = _
    rw [if_pos (h3 d (by simp)), ← List.cons_append, dropWhile_run isDigit (d :: b) r h3 h4]

/-- Every token is recognised. -/
theorem lexOne_lexeme (past : UInt8) {k : Kind} {w r : List UInt8} (h : Lexeme k w r) (hne : w ≠ []) :
    lexOne past (w ++ r) = .ok (k, r) := by
  cases h with
  | @word c w r h1 h2 h3 =>
    have hall : ∀ d ∈ c :: w, identChar d = true := by
      intro d hd
      rcases List.mem_cons.mp hd with rfl | hd
      · exact identStart_char _ h1
      · exact h2 d hd
    show (if identStart c = true then _ else _) = _
    rw [if_pos h1]
    have e1 := takeWhile_run identChar (c :: w) r hall h3
    have e2 := dropWhile_run identChar (c :: w) r hall h3
    rw [e1, e2]
  | int h1 h2 h3 h4 =>
    cases w with
    | nil => exact absurd rfl hne
    | cons d w =>
      have hd := h2 d (by simp)
      show (if identStart d = true then _ else if isDigit d = true then _ else _) = _
      rw [if_neg (by rw [(digit_class d hd).1]; decide), if_pos hd]
      rw [afterDigits_int h2 h3 h4]
  | @float a b _ h1 hb h2 h3 h4 =>
    cases a with
    | nil => exact absurd rfl h1
    | cons d w =>
      have hd := h2 d (by simp)
      show (if identStart d = true then _ else if isDigit d = true then _ else _) = _
      rw [if_neg (by rw [(digit_class d hd).1]; decide), if_pos hd]
      rw [afterDigits_float (r := r) hb h2 h3 h4]
  | @string q b r hq hb =>
    have hc := quote_class q hq
    show (if identStart q = true then _ else if isDigit q = true then _ else if (q = 39 || q = 34) = true then _ else _) = _
    rw [if_neg (by rw [hc.1]; decide), if_neg (by rw [hc.2.1]; decide), if_pos (by rcases hq with h | h <;> simp [h])]
    have e : b ++ [q] ++ r = b ++ q :: r := by simp
    show (scanString past q ((b ++ [q] ++ r).length + 2) (b ++ [q] ++ r) >>= _) = _
    rw [e, scanString_quoted past q hq hb r _ (by omega)]
    rfl
  | oper h1 h2 h3 =>
    cases w with
    | nil => exact absurd rfl hne
    | cons c w =>
      have hc := oper_class c (h1 c (by simp))
      show (if identStart c = true then _ else if isDigit c = true then _ else if (c = 39 || c = 34) = true then _ else
        if isOper c = true then _ else _) = _
      rw [if_neg (by rw [hc.1]; decide), if_neg (by rw [hc.2.1]; decide), if_neg (by simp [hc.2.2]), if_pos (h1 c (by simp))]
      rw [takeWhile_run isOper (c :: w) r h1 h2, dropWhile_run isOper (c :: w) r h1 h2, h3]
  | @operFirst c w r s h1 h2 h3 h4 e =>
    subst e
    have hc := oper_class c h1
    have hall : ∀ d ∈ c :: w, isOper d = true := by
      intro d hd
      rcases List.mem_cons.mp hd with rfl | hd
      · exact h1
      · exact h2 d hd
    show (if identStart c = true then _ else if isDigit c = true then _ else if (c = 39 || c = 34) = true then _ else
        if isOper c = true then _ else _) = _
    rw [if_neg (by rw [hc.1]; decide), if_neg (by rw [hc.2.1]; decide), if_neg (by simp [hc.2.2]), if_pos h1]
    show (match optable.lookup ((c :: w ++ s).takeWhile isOper) with
      | some k => _
      | none => _) = _
    rw [takeWhile_run isOper (c :: w) s hall h3, h4]
    rfl
  | @single c r h1 h2 h3 h4 h5 _ _ =>
    show (if identStart c = true then _ else if isDigit c = true then _ else if (c = 39 || c = 34) = true then _ else
        if isOper c = true then _ else _) = _
    rw [if_neg (by rw [h1]; decide), if_neg (by rw [h2]; decide), if_neg (by simp [h4, h5]), if_neg (by rw [h3]; decide)]
    rfl

/-- Whatever is recognised is a token; otherwise a string literal is not closed. -/
theorem lexOne_spec (past : UInt8) (t : List UInt8) (ht : t ≠ []) (hs : Starts t) :
    (∃ k w r, t = w ++ r ∧ w ≠ [] ∧ Lexeme k w r ∧ lexOne past t = .ok (k, r)) ∨
    (lexOne past t = if past = 92 then .ub else .err) := by
  cases t with
  | nil => exact absurd rfl ht
  | cons c t =>
    by_cases h1 : identStart c = true
    · obtain ⟨a, r, e, ha, hr, _, _⟩ := span_while identChar t
      subst e
      have hl : Lexeme _ (c :: a) r := .word h1 ha hr
      exact .inl ⟨_, c :: a, r, rfl, by simp, hl, lexOne_lexeme past hl (by simp)⟩
    · by_cases h2 : isDigit c = true
      · obtain ⟨a, r, e, ha, hr, _, _⟩ := span_while isDigit t
        subst e
        have hall : ∀ d ∈ c :: a, isDigit d = true := by
          intro d hd
          rcases List.mem_cons.mp hd with rfl | hd
          · exact h2
          · exact ha d hd
        by_cases hf : ∃ d s, r = 46 :: d :: s ∧ isDigit d = true
        · obtain ⟨d, s, rfl, hd⟩ := hf
          obtain ⟨b, u, e, hb, hu, _, _⟩ := span_while isDigit (d :: s)
          have hb0 : b ≠ [] := by
            rintro rfl
            rw [List.nil_append] at e
            subst e
            have := hu d rfl
            rw [hd] at this
            cases this
          have hl : Lexeme .float (c :: a ++ 46 :: b) u := .float (by simp) hb0 hall hb hu
          exact .inl ⟨_, c :: a ++ 46 :: b, u, by rw [e]; simp, by simp, hl, by
            have := lexOne_lexeme past hl (by simp)
            rw [e]
            simpa using this⟩
        · have hl : Lexeme .int (c :: a) r := .int (by simp) hall hr (by
            intro d s e
            cases hd : isDigit d with
            | true => exact absurd ⟨d, s, e, hd⟩ hf
            | false => rfl)
          exact .inl ⟨_, c :: a, r, rfl, by simp, hl, lexOne_lexeme past hl (by simp)⟩
      · by_cases h3 : c = 39 ∨ c = 34
        · have hk : lexOne past (c :: t) = (scanString past c (t.length + 2) t >>= fun r => .ok (.string, r)) := by
            show (if identStart c = true then _ else if isDigit c = true then _ else
              if (c = 39 || c = 34) = true then _ else _) = _
            rw [if_neg h1, if_neg h2, if_pos (by rcases h3 with h | h <;> simp [h])]
          rcases scanString_spec past c h3 (t.length + 2) t (by omega) with ⟨b, r, rfl, hb, he⟩ | he
          · have hl : Lexeme .string (c :: (b ++ [c])) r := .string h3 hb
            exact .inl ⟨_, c :: (b ++ [c]), r, by simp, by simp, hl, by rw [hk, he]; rfl⟩
          · right
            rw [hk, he]
            by_cases hp : past = 92
            · rw [if_pos hp, if_pos hp]; rfl
            · rw [if_neg hp, if_neg hp]; rfl
        · by_cases h4 : isOper c = true
          · obtain ⟨a, r, e, ha, hr, _, _⟩ := span_while isOper t
            subst e
            have hall : ∀ d ∈ c :: a, isOper d = true := by
              intro d hd
              rcases List.mem_cons.mp hd with rfl | hd
              · exact h4
              · exact ha d hd
            cases hk : optable.lookup (c :: a) with
            | some k =>
              have hl : Lexeme k (c :: a) r := .oper hall hr hk
              exact .inl ⟨_, c :: a, r, rfl, by simp, hl, lexOne_lexeme past hl (by simp)⟩
            | none =>
              have hl : Lexeme (.ch c) [c] (a ++ r) := .operFirst h4 ha hr hk rfl
              exact .inl ⟨_, [c], a ++ r, rfl, by simp, hl, lexOne_lexeme past hl (by simp)⟩
          · have hc := hs c rfl
            have hl : Lexeme (.ch c) [c] t := .single (by simpa using h1) (by simpa using h2) (by simpa using h4)
              (fun h => h3 (.inl h)) (fun h => h3 (.inr h)) hc.1 hc.2
            exact .inl ⟨_, [c], t, rfl, by simp, hl, lexOne_lexeme past hl (by simp)⟩

/-! ## The whole text -/

theorem tokenizeLoop_step (past : UInt8) (size n : Nat) {g w r : List UInt8} {k : Kind} (hb : Blank g (w ++ r))
    (hne : w ≠ []) (hl : Lexeme k w r) :
    tokenizeLoop past size (n + 1) (g ++ (w ++ r)) = (tokenizeLoop past size n r >>= fun ts =>
      .ok (⟨k, (size : Int) - (w.length + r.length : Nat), w⟩ :: ts)) := by
  rw [tokenizeLoop]
  rw [skipBlank_blank hb (hl.starts hne) (by omega)]
  cases w with
  | nil => exact absurd rfl hne
  | cons c w =>
    show (lexOne past (c :: w ++ r) >>= _) = _
    rw [lexOne_lexeme past hl hne]
    show (tokenizeLoop past size n r >>= _) = _
    have h1 : (c :: w ++ r).length - r.length = (c :: w).length := by simp; omega
    have h2 : ((c :: w) ++ r).take (c :: w).length = c :: w := by simp
    have h3 : (c :: (w ++ r)).length = (c :: w).length + r.length := by simp; omega
    show (tokenizeLoop past size n r >>= fun ts => Exec.ok (⟨k, (size : Int) - (c :: (w ++ r)).length,
      ((c :: w) ++ r).take ((c :: w ++ r).length - r.length)⟩ :: ts)) = _
    rw [h1, h2, h3]

theorem tokenizeLoop_done (past : UInt8) (size n : Nat) {g : List UInt8} (hb : Blank g []) :
    tokenizeLoop past size (n + 1) g = .ok [⟨.done, size, []⟩] := by
  rw [tokenizeLoop]
  have := skipBlank_blank hb (by simp [Starts]) (n := g.length + 1) (by simp)
  rw [List.append_nil] at this
  rw [this]
  rfl

/-- A text that can be divided is divided so. -/
theorem tokenizeLoop_split (past : UInt8) (size : Nat) {t : List UInt8} {n : Nat} {ts : List Token} (h : Split t n ts) :
    ∀ m, t.length < m → size = n + t.length → tokenizeLoop past size m t = .ok ts := by
  induction h with
  | @done g n hb =>
    intro m hm hs
    obtain ⟨m, rfl⟩ : ∃ k, m = k + 1 := ⟨m - 1, by omega⟩
    rw [tokenizeLoop_done past size m hb, hs]
  | @token g w r k n ts hb hne hl _ ih =>
    intro m hm hs
    obtain ⟨m, rfl⟩ : ∃ k, m = k + 1 := ⟨m - 1, by omega⟩
    have hw : 0 < w.length := List.length_pos_iff.mpr hne
    simp only [List.length_append] at hm hs
    rw [tokenizeLoop_step past size m hb hne hl, ih m (by omega) (by omega)]
    have : (size : Int) - (w.length + r.length : Nat) = (n + g.length : Nat) := by omega
    show Exec.ok _ = Exec.ok _
    rw [this]

theorem tokenizeLoop_spec (past : UInt8) (size : Nat) : ∀ (m n : Nat) (t : List UInt8), t.length < m → size = n + t.length →
    (∃ ts, Split t n ts) ∨ (tokenizeLoop past size m t = if past = 92 then .ub else .err)
  | 0, _, _, h, _ => by omega
  | m + 1, n, t, h, hs => by
    obtain ⟨g, r, e, hb, hst, hk⟩ := skipBlank_spec (t.length + 1) t (by omega)
    by_cases hr : r = []
    · subst hr
      rw [List.append_nil] at e
      subst e
      exact .inl ⟨_, .done hb⟩
    · rcases lexOne_spec past r hr hst with ⟨k, w, s, rfl, hne, hl, hx⟩ | hx
      · have hw : 0 < w.length := List.length_pos_iff.mpr hne
        subst e
        simp only [List.length_append] at h hs
        rcases tokenizeLoop_spec past size m (n + g.length + w.length) s (by omega) (by omega) with ⟨ts, h1⟩ | h1
        · exact .inl ⟨_, .token hb hne hl h1⟩
        · right
          rw [tokenizeLoop_step past size m hb hne hl, h1]
          by_cases hp : past = 92
          · simp only [if_pos hp]; rfl
          · simp only [if_neg hp]; rfl
      · right
        rw [tokenizeLoop, hk]
        cases r with
        | nil => exact absurd rfl hr
        | cons c r =>
          show (lexOne past (c :: r) >>= _) = _
          rw [hx]
          by_cases hp : past = 92
          · rw [if_pos hp, if_pos hp]; rfl
          · rw [if_neg hp, if_neg hp]; rfl

/-- C50: the tokens of a text are the words it is divided into, with only spaces and comments between
them; the text is refused if it cannot be divided. -/
theorem C50_tokens (past : UInt8) (t : List UInt8) (ts : List Token) : tokenize past t = .ok ts ↔ Split t 0 ts := by
  constructor
  · intro h
    rcases tokenizeLoop_spec past t.length (t.length + 1) 0 t (by omega) (by omega) with ⟨ts', h1⟩ | h1
    · have := tokenizeLoop_split past t.length h1 (t.length + 1) (by omega) (by omega)
      unfold tokenize at h
      rw [this] at h
      cases h
      exact h1
    · unfold tokenize at h
      rw [h1] at h
      by_cases hp : past = 92
      · rw [if_pos hp] at h; cases h
      · rw [if_neg hp] at h; cases h
  · intro h
    exact tokenizeLoop_split past t.length h (t.length + 1) (by omega) (by omega)

/-- C50: tokenizing always ends, with tokens, or with a message if a string literal is not closed and
the byte after the text is not a backslash. -/
theorem C50_ends (past : UInt8) (t : List UInt8) :
    (∃ ts, tokenize past t = .ok ts) ∨ tokenize past t = (if past = 92 then .ub else .err) := by
  rcases tokenizeLoop_spec past t.length (t.length + 1) 0 t (by omega) (by omega) with ⟨ts, h1⟩ | h1
  · exact .inl ⟨ts, (C50_tokens past t ts).mpr h1⟩
  · exact .inr h1

theorem Split.ends {t : List UInt8} {n : Nat} {ts : List Token} (h : Split t n ts) :
    ∀ a ∈ ts, (n : Int) ≤ a.off ∧ a.off + a.len ≤ (n + t.length : Nat) := by
  induction h with
  | @done g n hb =>
    intro a ha
    simp only [List.mem_singleton] at ha
    subst ha
    constructor
    · show (n : Int) ≤ ((n + g.length : Nat) : Int); omega
    · show ((n + g.length : Nat) : Int) + (0 : Nat) ≤ ((n + g.length : Nat) : Int); omega
  | @token g w r k n ts hb hne hl _ ih =>
    intro a ha
    simp only [List.length_append]
    rcases List.mem_cons.mp ha with rfl | ha
    · constructor
      · show (n : Int) ≤ ((n + g.length : Nat) : Int); omega
      · show ((n + g.length : Nat) : Int) + (w.length : Nat) ≤ _; omega
    · have := ih a ha
      omega

/-- C50: the tokens are in the order of the text and do not overlap; only the last is empty. -/
theorem C50_order {past : UInt8} {t : List UInt8} {ts : List Token} (h : tokenize past t = .ok ts) :
    ts.Pairwise (fun a b => a.off + a.len ≤ b.off) ∧ (∀ a ∈ ts.dropLast, 0 < a.len) ∧
    (∀ a ∈ ts, 0 ≤ a.off ∧ (t.drop a.off.toNat).take a.len.toNat = a.text) ∧ ts.getLast?.map Token.kind = some .done := by
  have gen : ∀ {u : List UInt8} {n : Nat} {ts : List Token}, Split u n ts → ∀ pre, pre.length = n → t = pre ++ u →
      ts.Pairwise (fun a b => a.off + a.len ≤ b.off) ∧ (∀ a ∈ ts.dropLast, 0 < a.len) ∧
      (∀ a ∈ ts, 0 ≤ a.off ∧ (t.drop a.off.toNat).take a.len.toNat = a.text) ∧ ts.getLast?.map Token.kind = some .done := by
    intro u n ts hs
    induction hs with
    | @done g n hb =>
      intro pre hp he
      refine ⟨by simp, by simp, ?_, rfl⟩
      intro a ha
      simp only [List.mem_singleton] at ha
      subst ha
      constructor
      · show (0 : Int) ≤ ((n + g.length : Nat) : Int); omega
      · show (t.drop _).take 0 = []; simp
    | @token g w r k n ts hb hne hl hs ih =>
      intro pre hp he
      obtain ⟨i1, i2, i3, i4⟩ := ih (pre ++ g ++ w) (by simp [hp, Nat.add_assoc]) (by rw [he]; simp)
      have hts : ts ≠ [] := by cases hs <;> simp
      refine ⟨?_, ?_, ?_, ?_⟩
      · rw [List.pairwise_cons]
        refine ⟨?_, i1⟩
        intro b hb'
        have := (hs.ends b hb').1
        show ((n + g.length : Nat) : Int) + (w.length : Nat) ≤ b.off
        omega
      · intro a ha
        rw [List.dropLast_cons_of_ne_nil hts] at ha
        rcases List.mem_cons.mp ha with rfl | ha
        · show (0 : Int) < (w.length : Nat)
          have : 0 < w.length := List.length_pos_iff.mpr hne
          omega
        · exact i2 a ha
      · intro a ha
        rcases List.mem_cons.mp ha with rfl | ha
        · constructor
          · show (0 : Int) ≤ ((n + g.length : Nat) : Int); omega
          · show (t.drop ((n + g.length : Nat) : Int).toNat).take ((w.length : Nat) : Int).toNat = w
            rw [Int.toNat_natCast, Int.toNat_natCast, he, ← hp]
            have : pre ++ (g ++ (w ++ r)) = (pre ++ g) ++ (w ++ r) := by simp
            rw [this, ← List.length_append, List.drop_left, List.take_left]
        · exact i3 a ha
      · rw [List.getLast?_cons_of_ne_nil hts]; exact i4
  exact gen ((C50_tokens past t ts).mp h) [] rfl rfl

/-- A text with a comment at its end and a string with an escaped quote. -/
example : ∃ ts, tokenize 0 (bytes "a = 'x\\'y' # done") = .ok ts ∧ Split (bytes "a = 'x\\'y' # done") 0 ts ∧ ts.length = 4 := by
  have h : tokenize 0 (bytes "a = 'x\\'y' # done") = .ok
      [⟨.ident, 0, bytes "a"⟩, ⟨.ch 61, 2, bytes "="⟩, ⟨.string, 4, bytes "'x\\'y'"⟩, ⟨.done, 17, []⟩] := by decide +kernel
  exact ⟨_, h, (C50_tokens 0 _ _).mp h, rfl⟩

end Noja.Parse
