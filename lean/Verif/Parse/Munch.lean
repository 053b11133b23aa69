import Verif.Parse.Lex

/-!
# Adjacent operators (C51)
-/

namespace Noja.Parse

set_option linter.unusedSimpArgs false
set_option linter.unusedVariables false

/-- A run of operator characters cut into the longest operators. -/
def munch : List UInt8 → List (List UInt8)
  | [] => []
  | [c] => [[c]]
  | c :: d :: r => if (optable.lookup [c, d]).isSome then [c, d] :: munch r else [c] :: munch (d :: r)

/-- The kind of an operator; a character that is none by itself is its own kind. -/
def operKind (w : List UInt8) : Kind := (optable.lookup w).getD (.ch (w.headD 0))

/-- A token at the start of the text is the first token. -/
theorem Split.head {k : Kind} {w r : List UInt8} {n : Nat} {ts : List Token} (hl : Lexeme k w r) (hne : w ≠ [])
    (h : Split (w ++ r) n ts) : ∃ ts', ts = ⟨k, n, w⟩ :: ts' ∧ Split r (n + w.length) ts' := by
  generalize ht : w ++ r = t at h
  cases h with
  | @done g n hb =>
    exfalso
    have := hb.unique (g' := []) (r' := w ++ r) (by simp [Starts]) .nil (hl.starts hne) (by simp [ht])
    have := congrArg List.length this
    have hw : 0 < w.length := List.length_pos_iff.mpr hne
    simp at this
    omega
  | @token g w' r' k' n ts hb hne' hl' hs =>
    have h1 := hb.unique (g' := []) (r' := w ++ r) (hl'.starts hne') .nil (hl.starts hne) (by simp [ht])
    have hg : g = [] := by
      rw [h1] at ht
      have := congrArg List.length ht
      rw [List.length_append] at this
      exact List.eq_nil_of_length_eq_zero (by rw [List.length_append] at this; simp at this; exact List.length_eq_zero_iff.mpr this)
    subst hg
    have h2 := lexOne_lexeme 0 hl hne
    have h3 := lexOne_lexeme 0 hl' hne'
    rw [h1, h2] at h3
    cases h3
    have hw : w' = w := List.append_cancel_right h1
    subst hw
    refine ⟨ts, by simp, ?_⟩
    simpa using hs

theorem optable_short {w : List UInt8} {k : Kind} (h : optable.lookup w = some k) :
    (∃ c, w = [c] ∧ k = .ch c) ∨ ∃ c d, w = [c, d] := by
  have key : ∀ (l : List (List UInt8 × Kind)), (∀ e ∈ l, (∃ c, e.1 = [c] ∧ e.2 = .ch c) ∨ ∃ c d, e.1 = [c, d]) →
      l.lookup w = some k → (∃ c, w = [c] ∧ k = .ch c) ∨ ∃ c d, w = [c, d] := by
    intro l
    induction l with
    | nil => intro _ h; cases h
    | cons e l ih =>
      intro hl h
      obtain ⟨a, b⟩ := e
      rw [List.lookup_cons] at h
      by_cases hw : (w == a) = true
      · rw [hw] at h
        cases h
        have := hl (a, k) (by simp)
        rw [eq_of_beq hw]
        exact this
      · simp only [hw] at h
        exact ih (fun e he => hl e (List.mem_cons_of_mem _ he)) h
  refine key optable ?_ h
  intro e he
  simp only [optable, List.mem_cons, List.not_mem_nil, or_false] at he
  rcases he with rfl | rfl | rfl | rfl | rfl | rfl | rfl | rfl | rfl | rfl | rfl | rfl | rfl | rfl | rfl
  all_goals first
    | exact .inl ⟨_, rfl, rfl⟩
    | exact .inr ⟨_, _, rfl⟩

theorem munch_ne : ∀ {w : List UInt8}, w ≠ [] → munch w ≠ []
  | [], h => absurd rfl h
  | [c], _ => by simp [munch]
  | c :: d :: r, _ => by unfold munch; split <;> simp

/-- Full statement of C51: wherever a run of operator characters stands, its tokens are the longest
operators it can be cut into. -/
def C51Statement : Prop := ∀ (run r : List UInt8) (n : Nat) (ts : List Token), (∀ c ∈ run, isOper c = true) →
  (∀ c, r.head? = some c → isOper c = false) → Split (run ++ r) n ts →
  (ts.take (munch run).length).map (fun t => (t.kind, t.text)) = (munch run).map fun w => (operKind w, w)

/-- C51, as it is: the tokens are the longest operators exactly if only the last of these has two characters. -/
theorem C51_partial (run r : List UInt8) (n : Nat) (ts : List Token) (hrun : ∀ c ∈ run, isOper c = true)
    (hr : ∀ c, r.head? = some c → isOper c = false) (h : Split (run ++ r) n ts) :
    (ts.take (munch run).length).map (fun t => (t.kind, t.text)) = (munch run).map (fun w => (operKind w, w)) ↔
      ∀ w ∈ (munch run).dropLast, w.length = 1 := by
  induction run generalizing n ts with
  | nil => simp [munch]
  | cons c run ih =>
    cases hk : optable.lookup (c :: run) with
    | some k =>
      obtain ⟨ts', rfl, _⟩ := Split.head (.oper hrun hr hk) (by simp) h
      rcases optable_short hk with ⟨c', e, _⟩ | ⟨c', d, e⟩
      · cases e
        simp [munch, operKind, hk]
      · cases e
        simp [munch, operKind, hk]
    | none =>
      have hc := hrun c (by simp)
      have hrun' : ∀ d ∈ run, isOper d = true := fun d hd => hrun d (List.mem_cons_of_mem _ hd)
      have hl : Lexeme (.ch c) [c] (run ++ r) := .operFirst hc hrun' hr hk rfl
      obtain ⟨ts', rfl, hs⟩ := Split.head hl (by simp) h
      have hkc : operKind [c] = .ch c := by
        unfold operKind
        cases hx : optable.lookup [c] with
        | none => rfl
        | some k =>
          rcases optable_short hx with ⟨c', e, e'⟩ | ⟨c', d, e⟩
          · cases e; rw [e']; rfl
          · cases e
      have hi := ih _ _ hrun' hs
      cases run with
      | nil => simp [munch, hkc]
      | cons d run =>
        by_cases hx : (optable.lookup [c, d]).isSome = true
        · have hne : run ≠ [] := by
            rintro rfl
            rw [hk] at hx
            cases hx
          have hm : munch (c :: d :: run) = [c, d] :: munch run := by rw [munch, if_pos hx]
          rw [hm]
          constructor
          · intro he
            simp at he
          · intro he
            have := he [c, d] (by rw [List.dropLast_cons_of_ne_nil (munch_ne hne)]; simp)
            simp at this
        · have hm : munch (c :: d :: run) = [c] :: munch (d :: run) := by rw [munch, if_neg hx]
          rw [hm, List.dropLast_cons_of_ne_nil (munch_ne (by simp))]
          simp only [List.length_cons, List.take_succ_cons, List.map_cons, List.cons.injEq, List.mem_cons, forall_eq_or_imp,
            List.length_nil, hkc, true_and, Nat.zero_add]
          exact hi

/-- `x<=-1` reads as `x < = - 1`. -/
theorem C51_violated : ¬ C51Statement := by
  intro h
  have hs : tokenize 0 (bytes "<=-1") = .ok [⟨.ch 60, 0, bytes "<"⟩, ⟨.ch 61, 1, bytes "="⟩, ⟨.ch 45, 2, bytes "-"⟩,
      ⟨.int, 3, bytes "1"⟩, ⟨.done, 4, []⟩] := by decide +kernel
  have := h (bytes "<=-") (bytes "1") 0 _ (by decide) (by intro c hc; cases hc; decide) ((C50_tokens 0 _ _).mp hs)
  revert this
  decide +kernel

/-- A run to which `C51_partial` applies: `=-` is `=` and `-`; `*-->` would be `*`, `-` and `->`. -/
example : munch (bytes "*-->") = [bytes "*", bytes "-", bytes "->"] ∧
    ∀ w ∈ (munch (bytes "*-->")).dropLast, w.length = 1 := by decide +kernel

end Noja.Parse
