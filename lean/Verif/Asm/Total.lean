import Verif.Asm.RoundTrip

/-! # The assembler on every text (C77), and what it cannot express (C58) -/

namespace Noja.Asm

open Exe (Opcode OpType Opd FOpd Word Ins Builder Executable optypes)

set_option linter.unusedSimpArgs false
set_option linter.unusedVariables false

/-- A run that ends, in undefined behaviour only if `bad`, and with a result only if it is as `P` says. -/
def Res {α : Type} (bad : Prop) (P : α → Prop) : Exec α → Prop
  | .ok a => P a
  | .err => True
  | .ub => bad
  | .diverge => False

theorem Res.bind {α β : Type} {bad : Prop} {P : α → Prop} {Q : β → Prop} {x : Exec α} {f : α → Exec β}
    (h : Res bad P x) (hf : ∀ a, P a → Res bad Q (f a)) : Res bad Q (x >>= f) := by
  cases x with
  | ok a => exact hf a h
  | err => trivial
  | ub => exact h
  | diverge => exact h.elim

theorem Res.mono {α : Type} {bad : Prop} {P Q : α → Prop} {x : Exec α} (h : Res bad P x) (hf : ∀ a, P a → Q a) :
    Res bad Q x := by
  cases x with
  | ok a => exact hf a h
  | err => trivial
  | ub => exact h
  | diverge => exact h.elim

/-- The byte after the end of the text would be taken for the start of an operand. -/
def StartsOperand (c : UInt8) : Prop := (c = 34 || isDigit c || c = 45 || c = 43 || identStart c) = true

/-! ## Operands -/

theorem dropWhile_head (p : UInt8 → Bool) : ∀ (t : List UInt8) (c : UInt8) (r : List UInt8),
    t.dropWhile p = c :: r → p c = false
  | [], _, _, h => by simp at h
  | d :: t, c, r, h => by
    by_cases hd : p d = true
    · rw [List.dropWhile_cons_of_pos hd] at h
      exact dropWhile_head p t c r h
    · rw [List.dropWhile_cons_of_neg hd] at h
      cases h
      simpa using hd

theorem dropWhile_length (p : UInt8 → Bool) (t : List UInt8) : (t.dropWhile p).length ≤ t.length := by
  induction t with
  | nil => simp
  | cons d t ih =>
    by_cases hd : p d = true
    · rw [List.dropWhile_cons_of_pos hd]; simp; omega
    · rw [List.dropWhile_cons_of_neg hd]; simp

theorem stringLoop_total (bad : Prop) (n : Nat) : ∀ (t buffer : List UInt8), t.length < n →
    Res bad (fun (q : List UInt8 × List UInt8) => q.2.length < t.length) (stringLoop n t buffer) := by
  induction n with
  | zero => intro t buffer h; omega
  | succ n ih =>
    intro t buffer hn
    unfold stringLoop
    dsimp only
    have hl := dropWhile_length (fun c => c != 92 && c != 34) t
    have hh := dropWhile_head (fun c => c != 92 && c != 34) t
    generalize t.dropWhile (fun c => c != 92 && c != 34) = d at hl hh ⊢
    generalize t.takeWhile (fun c => c != 92 && c != 34) = seg
    by_cases hb : buffer.length + seg.length > 1024
    · rw [if_pos hb]; trivial
    · rw [if_neg hb]
      match d with
      | [] => trivial
      | c :: d =>
        have hc := hh c d rfl
        by_cases h92 : c = 92
        · subst h92
          match d with
          | [] => trivial
          | e :: d =>
            cases hu : unescape e with
            | none => simp only [hu]; trivial
            | some x =>
              simp only [hu]
              simp only [List.length_cons] at hl
              by_cases h2 : (buffer ++ seg).length + 1 > 1024
              · rw [if_pos h2]; trivial
              · rw [if_neg h2]
                match d with
                | [] => trivial
                | y :: d =>
                  show Res bad _ (if y = 34 then Exec.ok (buffer ++ seg ++ [x], d) else
                    stringLoop n (y :: d) (buffer ++ seg ++ [x]))
                  simp only [List.length_cons] at hl
                  by_cases hy : y = 34
                  · rw [if_pos hy]
                    show d.length < t.length
                    omega
                  · rw [if_neg hy]
                    exact (ih (y :: d) _ (by simp; omega)).mono (fun q hq => by simp at hq; omega)
        · have h34 : c = 34 := by simp [h92] at hc; exact hc
          subst h34
          show d.length < t.length
          simp at hl
          omega

theorem intLoop_total (bad : Prop) : ∀ (t : List UInt8) (c : UInt8) (a : Int), isDigit c = true → 0 ≤ a →
    Res bad (fun (q : Int × List UInt8) => 0 ≤ q.1 ∧ q.1 ≤ maxInt ∧ q.2.length ≤ t.length) (intLoop (c :: t) a) := by
  intro t
  induction t with
  | nil =>
    intro c a hc ha
    have := (isDigit_iff c).mp hc
    unfold intLoop
    dsimp only
    by_cases h : a > (9223372036854775807 - ((c.toNat : Int) - 48)) / 10
    · rw [if_pos h]; trivial
    · rw [if_neg h]
      show 0 ≤ a * 10 + ((c.toNat : Int) - 48) ∧ a * 10 + ((c.toNat : Int) - 48) ≤ 9223372036854775807 ∧ _
      refine ⟨by omega, by omega, Nat.le_refl _⟩
  | cons d t ih =>
    intro c a hc ha
    have := (isDigit_iff c).mp hc
    unfold intLoop
    dsimp only
    by_cases h : a > (9223372036854775807 - ((c.toNat : Int) - 48)) / 10
    · rw [if_pos h]; trivial
    · rw [if_neg h]
      by_cases hd : isDigit d = true
      · rw [if_pos (by simp [hd])]
        exact (ih d _ hd (by omega)).mono fun q hq => ⟨hq.1, hq.2.1, by have := hq.2.2; simp; omega⟩
      · rw [if_neg (by simp [hd])]
        show 0 ≤ a * 10 + ((c.toNat : Int) - 48) ∧ a * 10 + ((c.toNat : Int) - 48) ≤ 9223372036854775807 ∧ _
        refine ⟨by omega, by omega, Nat.le_refl _⟩

/-- Integers that can be written. -/
def OpdOk : Opd → Prop
  | .int v => -2 ^ 63 < v
  | _ => True

theorem integer_total (bad : Prop) (t : List UInt8) (h : ∀ c r, (if t.head? == some 45 || t.head? == some 43 then t.tail else t) = c :: r →
      isDigit c = true) (hne : (if t.head? == some 45 || t.head? == some 43 then t.tail else t) ≠ []) :
    Res bad (fun (q : Opd × List UInt8) => OpdOk q.1 ∧ q.2.length < t.length) (parseIntegerOperand t) := by
  match t with
  | [] => simp at hne
  | c :: r =>
    by_cases h43 : c = 43
    · subst h43
      have e : (if ((43 : UInt8) :: r).head? == some 45 || ((43 : UInt8) :: r).head? == some 43 then ((43 : UInt8) :: r).tail else 43 :: r) = r := by
        simp
      rw [e] at h hne
      obtain ⟨d, r, rfl⟩ := List.exists_cons_of_ne_nil hne
      refine Res.bind (intLoop_total bad r d 0 (h d r rfl) (by omega)) ?_
      rintro ⟨v, r'⟩ ⟨h1, h2, h3⟩
      dsimp only at h1 h2 h3
      show (-2 ^ 63 < v) ∧ _
      refine ⟨by omega, by simp; omega⟩
    · by_cases h45 : c = 45
      · subst h45
        have e : (if ((45 : UInt8) :: r).head? == some 45 || ((45 : UInt8) :: r).head? == some 43 then ((45 : UInt8) :: r).tail else 45 :: r) = r := by
          simp
        rw [e] at h hne
        obtain ⟨d, r, rfl⟩ := List.exists_cons_of_ne_nil hne
        refine Res.bind (intLoop_total bad r d 0 (h d r rfl) (by omega)) ?_
        rintro ⟨v, r'⟩ ⟨h1, h2, h3⟩
        dsimp only at h1 h2 h3
        simp only [maxInt] at h2
        show (-2 ^ 63 < -1 * v) ∧ _
        refine ⟨by omega, by simp; omega⟩
      · have e : (if (c :: r).head? == some 45 || (c :: r).head? == some 43 then (c :: r).tail else c :: r) = c :: r := by
          simp [h43, h45]
        rw [e] at h
        have hp : parseIntegerOperand (c :: r) = (do
            let (v, r) ← intLoop (c :: r) 0
            .ok (Opd.int v, r)) := by
          simp only [parseIntegerOperand]
          split
          · rename_i h; simp at h; exact absurd h.1 h43
          · rename_i h; simp at h; exact absurd h.1 h45
          · rfl
        rw [hp]
        refine Res.bind (intLoop_total bad r c 0 (h c r rfl) (by omega)) ?_
        rintro ⟨v, r'⟩ ⟨h1, h2, h3⟩
        dsimp only at h1 h2 h3
        show (-2 ^ 63 < v) ∧ _
        refine ⟨by omega, by simp; omega⟩

theorem number_total (bad : Prop) (flt : Bool → List UInt8 → List UInt8 → BitVec 64) (c : UInt8) (r : List UInt8)
    (hc : (isDigit c || c = 45 || c = 43) = true) :
    Res bad (fun (q : Opd × List UInt8) => OpdOk q.1 ∧ q.2.length < (c :: r).length) (parseNumber flt (c :: r)) := by
  unfold parseNumber
  dsimp only
  generalize hk : (if ((c :: r).head? == some 45 || (c :: r).head? == some 43) = true then (c :: r).tail else c :: r) = k
  have hlen : k.length ≤ (c :: r).length := by
    rw [← hk]; split <;> simp
  by_cases hs : (((c :: r).head? == some 45 || (c :: r).head? == some 43) && !((k.head?.map isDigit).getD false)) = true
  · rw [if_pos hs]; trivial
  · rw [if_neg hs]
    have hkd : ∃ d k', k = d :: k' ∧ isDigit d = true := by
      by_cases hsg : ((c :: r).head? == some 45 || (c :: r).head? == some 43) = true
      · rw [hsg] at hs
        simp only [Bool.true_and, Bool.not_eq_true, Bool.not_eq_false'] at hs
        match k, hs with
        | d :: k', hs => exact ⟨d, k', rfl, by simpa using hs⟩
        | [], hs => simp at hs
      · rw [if_neg hsg] at hk
        subst hk
        refine ⟨c, r, rfl, ?_⟩
        simp only [List.head?_cons, Bool.or_eq_true, not_or, beq_iff_eq, Option.some.injEq] at hsg
        simpa [hsg] using hc
    obtain ⟨d, k', rfl, hd⟩ := hkd
    have hint : Res bad (fun (q : Opd × List UInt8) => OpdOk q.1 ∧ q.2.length < (c :: r).length) (parseIntegerOperand (c :: r)) := by
      apply integer_total
      · intro e r' he
        rw [hk] at he
        cases he
        exact hd
      · rw [hk]; simp
    have hdl := dropWhile_length isDigit (d :: k')
    generalize hdw : (d :: k').dropWhile isDigit = w at hdl
    split
    · rename_i x y
      split
      · unfold parseFloatingOperand
        dsimp only
        rw [hk, hdw]
        refine ⟨trivial, ?_⟩
        have := dropWhile_length isDigit (46 :: x :: y).tail
        simp only [List.tail_cons, List.length_cons] at this hdl hlen ⊢
        omega
      · exact hint
    · exact hint

theorem identifier_name (t : List UInt8) : Labels.Name (identifier t) := by
  intro h
  unfold identifier at h
  have : ∀ (t : List UInt8), ∀ c ∈ t.takeWhile identChar, identChar c = true := by
    intro t
    induction t with
    | nil => simp
    | cons d t ih =>
      intro c hc
      by_cases hd : identChar d = true
      · rw [List.takeWhile_cons_of_pos hd] at hc
        rcases List.mem_cons.mp hc with rfl | hc
        · exact hd
        · exact ih c hc
      · rw [List.takeWhile_cons_of_neg hd] at hc
        simp at hc
  have := this t 0 h
  exact absurd this (by decide)

theorem identStart_char {c : UInt8} (h : identStart c = true) : identChar c = true := by
  simp only [identStart, identChar, Bool.or_eq_true] at h ⊢
  rcases h with h | h
  · exact .inl (.inl h)
  · exact .inr h

/-- The labels are consistent. -/
def LabelsOk (ll : Labels.LL) : Prop := ∃ hist, Labels.Inv ll hist

theorem operand_total (flt : Bool → List UInt8 → List UInt8 → BitVec 64) (past : UInt8) (t : List UInt8) (ll : Labels.LL)
    (hl : LabelsOk ll) :
    Res (StartsOperand past) (fun (q : Opd × List UInt8 × Labels.LL) => OpdOk q.1 ∧ q.2.1.length < t.length ∧ LabelsOk q.2.2)
      (parseOperand flt past t ll) := by
  match t with
  | [] =>
    simp only [parseOperand]
    split
    · rename_i h; exact h
    · trivial
  | c :: r =>
    simp only [parseOperand]
    by_cases h34 : c = 34
    · subst h34
      rw [if_pos rfl]
      unfold parseStringOperand
      refine Res.bind (P := fun (q : Opd × List UInt8) => OpdOk q.1 ∧ q.2.length < ((34 : UInt8) :: r).length) ?_ ?_
      · refine Res.bind (stringLoop_total _ _ _ _ (by simp; omega)) ?_
        rintro ⟨s, r'⟩ hq
        exact ⟨trivial, by simp at hq ⊢; omega⟩
      · rintro ⟨o, r'⟩ ⟨h1, h2⟩
        exact ⟨h1, h2, hl⟩
    · rw [if_neg h34]
      by_cases hn : (isDigit c || c = 45 || c = 43) = true
      · rw [if_pos (by simpa using hn)]
        refine Res.bind (number_total _ flt c r hn) ?_
        rintro ⟨o, r'⟩ ⟨h1, h2⟩
        exact ⟨h1, h2, hl⟩
      · rw [if_neg (by simpa using hn)]
        by_cases hi : identStart c = true
        · rw [if_pos hi]
          obtain ⟨hist, hinv⟩ := hl
          obtain ⟨ll', p, h1, h2, h3, h4⟩ := Labels.getLabel_spec ll hist hinv _ (identifier_name (c :: r))
          rw [h1]
          refine ⟨trivial, ?_, _, h2⟩
          show (skipIdentifier (c :: r)).length < _
          rw [skipIdentifier, List.dropWhile_cons_of_pos (identStart_char hi)]
          have := dropWhile_length identChar r
          simp
          omega
        · rw [if_neg hi]; trivial

theorem skipSpaces_length (t : List UInt8) : (skipSpaces t).length ≤ t.length := dropWhile_length _ _

theorem operandLoop_total (flt : Bool → List UInt8 → List UInt8 → BitVec 64) (past : UInt8) (n : Nat) :
    ∀ (t : List UInt8) (opv : List Opd) (ll : Labels.LL), t.length < n → LabelsOk ll → (∀ o ∈ opv, OpdOk o) →
    Res (StartsOperand past) (fun (q : List Opd × List UInt8 × Labels.LL) => (∀ o ∈ q.1, OpdOk o) ∧ q.2.1.length ≤ t.length ∧
      LabelsOk q.2.2) (operandLoop flt past n t opv ll) := by
  induction n with
  | zero => intro t opv ll h; omega
  | succ n ih =>
    intro t opv ll hn hl ho
    unfold operandLoop
    refine Res.bind (operand_total flt past t ll hl) ?_
    rintro ⟨o, r, ll'⟩ ⟨h1, h2, h3⟩
    dsimp only at h1 h2 h3 ⊢
    have hopv : ∀ x ∈ opv ++ [o], OpdOk x := by
      intro x hx
      rcases List.mem_append.mp hx with hx | hx
      · exact ho x hx
      · rw [List.mem_singleton.mp hx]; exact h1
    by_cases h8 : opv.length = 8
    · rw [if_pos h8]; trivial
    · rw [if_neg h8]
      have hsl := skipSpaces_length r
      generalize skipSpaces r = w at hsl
      match w with
      | [] => exact ⟨hopv, by simp, h3⟩
      | c :: w =>
        dsimp only
        simp only [List.length_cons] at hsl
        by_cases h59 : c = 59
        · rw [if_pos h59]
          exact ⟨hopv, by simp; omega, h3⟩
        · rw [if_neg h59]
          by_cases h44 : c = 44
          · rw [if_pos h44]
            have := skipSpaces_length w
            exact (ih _ _ ll' (by omega) h3 hopv).mono fun q hq => ⟨hq.1, by have := hq.2.1; omega, hq.2.2⟩
          · rw [if_neg h44]; trivial

theorem operands_total (flt : Bool → List UInt8 → List UInt8 → BitVec 64) (past : UInt8)
    (t : List UInt8) (ll : Labels.LL) (hl : LabelsOk ll) :
    Res (StartsOperand past) (fun (q : List Opd × List UInt8 × Labels.LL) => (∀ o ∈ q.1, OpdOk o) ∧ q.2.1.length ≤ t.length ∧
      LabelsOk q.2.2) (parseOperands flt past t ll) := by
  match t with
  | [] => exact ⟨by simp, by simp, hl⟩
  | c :: r =>
    simp only [parseOperands]
    by_cases h59 : c = 59
    · rw [if_pos h59]; exact ⟨by simp, by simp, hl⟩
    · rw [if_neg h59]
      exact operandLoop_total flt past _ _ _ _ (by simp) hl (by simp)

/-! ## The builder -/

/-- An integer slot never holds the smallest integer. -/
def WordOk : OpType → Word → Prop
  | .int, .int v => -2 ^ 63 < v
  | .int, .float _ => False
  | _, _ => True

def CodeOk (code : List Ins) : Prop :=
  ∀ (k : Nat) ins, code[k]? = some ins → ∀ (j : Nat) t w, (optypes ins.op)[j]? = some t → ins.ops[j]? = some w → WordOk t w

structure BuilderOk (b : Builder) : Prop where
  code : CodeOk b.code
  vals : ∀ l v, (b.proms l).val = some v → 0 ≤ v

theorem setSlot_ok {code : List Ins} (h : CodeOk code) (k i : Nat) (w : Word)
    (hw : ∀ ins, code[k]? = some ins → ∀ t, (optypes ins.op)[i]? = some t → WordOk t w) : CodeOk (Exe.setSlot code k i w) := by
  intro k' ins hins j t x ht hx
  rw [Exe.setSlot_get] at hins
  by_cases hk : k = k'
  · rw [if_pos hk] at hins
    cases hc : code[k']? with
    | none => rw [hc] at hins; simp at hins
    | some ins0 =>
      rw [hc] at hins
      simp only [Option.map_some, Option.some.injEq] at hins
      subst hins
      dsimp only at ht hx
      rw [List.getElem?_set] at hx
      by_cases hij : i = j
      · rw [if_pos hij] at hx
        split at hx
        · cases hx
          subst hij
          exact hw ins0 (by rw [hk]; exact hc) t ht
        · cases hx
      · rw [if_neg hij] at hx
        exact h k' ins0 hc j t x ht hx
  · rw [if_neg hk] at hins
    exact h k' ins hins j t x ht hx

theorem setSlot_op (code : List Ins) (k i : Nat) (w : Word) (ins : Ins) (h : code[k]? = some ins) :
    ∃ ins', (Exe.setSlot code k i w)[k]? = some ins' ∧ ins'.op = ins.op := by
  rw [Exe.setSlot_get, if_pos rfl, h]
  exact ⟨_, rfl, rfl⟩

theorem wordOk_nonneg (t : OpType) {v : Int} (h : 0 ≤ v) : WordOk t (.int v) := by
  cases t <;> simp only [WordOk]
  omega

theorem storeOps_okay (k : Nat) (ts : List OpType) : ∀ (os : List Opd) (i : Nat) (b : Builder) (ins : Ins),
    BuilderOk b → b.code[k]? = some ins → (optypes ins.op).drop i = ts → (∀ o ∈ os, OpdOk o) →
    BuilderOk (Exe.storeOps k i ts os b).1 := by
  induction ts with
  | nil => intro os i b ins h _ _ _; cases os <;> exact h
  | cons t ts ih =>
    intro os i b ins h hk hts ho
    cases os with
    | nil => exact h
    | cons o os =>
      have hti : (optypes ins.op)[i]? = some t := by
        have := congrArg (fun l => l[0]?) hts
        simpa using this
      have hts' : (optypes ins.op).drop (i + 1) = ts := by
        have := congrArg List.tail hts
        simpa [List.tail_drop] using this
      have ho' : ∀ o ∈ os, OpdOk o := fun o h => ho o (List.mem_cons_of_mem _ h)
      have store : ∀ (w : Word) (d : List UInt8), WordOk t w →
          BuilderOk (Exe.storeOps k (i + 1) ts os { b with code := Exe.setSlot b.code k i w, data := d }).1 := by
        intro w d hw
        obtain ⟨ins', h1, h2⟩ := setSlot_op b.code k i w ins hk
        refine ih os (i + 1) _ ins' ⟨setSlot_ok h.code k i w ?_, h.vals⟩ h1 (by rw [h2]; exact hts') ho'
        intro x hx t' ht'
        rw [hk] at hx
        cases hx
        rw [hti] at ht'
        cases ht'
        exact hw
      cases o with
      | promise l =>
        simp only [Exe.storeOps]
        by_cases ht : t = .str
        · rw [if_pos ht]; exact h
        · rw [if_neg ht]
          cases hv : (b.proms l).val with
          | none =>
            dsimp only
            refine ih os (i + 1) _ ins ⟨h.code, ?_⟩ hk hts' ho'
            intro x v hx
            dsimp only at hx
            by_cases hxl : x = l
            · rw [if_pos hxl] at hx; simp at hx
            · rw [if_neg hxl] at hx; exact h.vals x v hx
          | some v => exact store (.int v) b.data (wordOk_nonneg t (h.vals l v hv))
      | str s =>
        simp only [Exe.storeOps]
        by_cases ht : t ≠ .str
        · rw [if_pos ht]; exact h
        · rw [if_neg ht]
          exact store (.int b.data.length) _ (wordOk_nonneg t (by omega))
      | idx v =>
        simp only [Exe.storeOps]
        by_cases ht : t ≠ .idx
        · rw [if_pos ht]; exact h
        · rw [if_neg ht]
          have ht : t = .idx := Classical.not_not.mp ht
          exact store (.int v) b.data (by rw [ht]; trivial)
      | int v =>
        simp only [Exe.storeOps]
        by_cases ht : t ≠ .int
        · rw [if_pos ht]; exact h
        · rw [if_neg ht]
          have ht : t = .int := Classical.not_not.mp ht
          exact store (.int v) b.data (by rw [ht]; exact ho (.int v) (by simp))
      | float v =>
        simp only [Exe.storeOps]
        by_cases ht : t ≠ .float
        · rw [if_pos ht]; exact h
        · rw [if_neg ht]
          have ht : t = .float := Classical.not_not.mp ht
          exact store (.float v) b.data (by rw [ht]; trivial)

theorem append_okay (op : Opcode) (opv : List Opd) (off len : Int) (b : Builder) (h : BuilderOk b) (ho : ∀ o ∈ opv, OpdOk o) :
    BuilderOk (Exe.append op opv off len true b).1 := by
  unfold Exe.append
  by_cases hl : opv.length ≠ (optypes op).length
  · rw [if_pos hl]; exact h
  · rw [if_neg hl, if_neg (by simp)]
    refine storeOps_okay _ _ _ _ _ ⟨op, off, len, List.replicate (optypes op).length .junk⟩ ⟨?_, h.vals⟩ (by simp) rfl ho
    intro k ins hins j t w ht hw
    dsimp only at hins
    by_cases hk : k < b.code.length
    · rw [List.getElem?_append_left hk] at hins
      exact h.code k ins hins j t w ht hw
    · rw [List.getElem?_append_right (by omega)] at hins
      have hlt := (List.getElem?_eq_some_iff.mp hins).1
      have : k - b.code.length = 0 := by simp at hlt; omega
      rw [this] at hins
      simp at hins
      subst hins
      dsimp only at hw
      have := List.eq_of_mem_replicate (List.mem_of_getElem? hw)
      subst this
      cases t <;> trivial

theorem resolve_okay (l : Nat) (v : Int) (hv : 0 ≤ v) (b : Builder) (h : BuilderOk b) : BuilderOk (Exe.resolve l v b) := by
  refine ⟨?_, ?_⟩
  · show CodeOk ((b.proms l).gaps.foldl _ b.code)
    have hc := h.code
    generalize b.code = code at hc
    induction (b.proms l).gaps generalizing code with
    | nil => exact hc
    | cons g gs ih => exact ih _ (setSlot_ok hc _ _ _ (fun _ _ t _ => wordOk_nonneg t hv))
  · intro x w hx
    dsimp only [Exe.resolve] at hx
    by_cases hxl : x = l
    · rw [if_pos hxl] at hx; cases hx; exact hv
    · rw [if_neg hxl] at hx; exact h.vals x w hx

/-! ## The main loop -/

/-- The state is consistent. -/
def StOk (s : St) : Prop := LabelsOk s.ll ∧ BuilderOk s.b

theorem head_total (bad : Prop) (t : List UInt8) (ht : t ≠ []) :
    Res bad (fun (h : Head) => (∀ n, h.label = some n → Labels.Name n) ∧ (h.opcode ≠ [] → h.rest.length < t.length))
      (parseLabelAndOpcode t) := by
  obtain ⟨c, r, rfl⟩ := List.exists_cons_of_ne_nil ht
  have key : ∀ (t : List UInt8), identifier t ≠ [] → (skipSpaces (skipIdentifier t)).length < t.length := by
    intro t h
    match t with
    | [] => simp [identifier] at h
    | c :: r =>
      have hc : identChar c = true := by
        by_cases hc : identChar c = true
        · exact hc
        · exact absurd (by rw [identifier, List.takeWhile_cons_of_neg hc]) h
      have h1 := skipSpaces_length (skipIdentifier (c :: r))
      have h2 : (skipIdentifier (c :: r)).length ≤ r.length := by
        rw [skipIdentifier, List.dropWhile_cons_of_pos hc]
        exact dropWhile_length _ _
      simp
      omega
  have hle : (skipSpaces (skipIdentifier (c :: r))).length ≤ (c :: r).length :=
    Nat.le_trans (skipSpaces_length _) (dropWhile_length _ _)
  have hname := identifier_name (c :: r)
  have hkey := key (c :: r)
  simp only [parseLabelAndOpcode]
  generalize hafter : skipSpaces (skipIdentifier (c :: r)) = after at hle hkey
  split
  · rename_i r'
    have hsl := skipSpaces_length r'
    split
    · trivial
    · rename_i d w hw
      split
      · refine ⟨?_, ?_⟩
        · intro n hn
          cases hn
          exact hname
        · intro hop
          have := key (skipSpaces r') hop
          show (skipSpaces (skipIdentifier (skipSpaces r'))).length < _
          simp only [List.length_cons] at hle ⊢
          omega
      · trivial
  · exact ⟨by simp, hkey⟩

theorem assembleOne_total (flt : Bool → List UInt8 → List UInt8 → BitVec 64) (past : UInt8) (size : Nat) (t : List UInt8)
    (ht : t ≠ []) (s : St) (hs : StOk s) :
    Res (StartsOperand past) (fun (q : List UInt8 × St) => q.1.length < t.length ∧ StOk q.2)
      (assembleOne flt past size t s) := by
  unfold assembleOne
  refine Res.bind (head_total _ t ht) ?_
  rintro ⟨label, opcode, start, rest, occurred⟩ ⟨h1, h2⟩
  dsimp only at h1 h2 ⊢
  refine Res.bind (P := fun (q : Labels.LL × Builder) => LabelsOk q.1 ∧ BuilderOk q.2) ?_ ?_
  · cases label with
    | none => exact hs
    | some name =>
      obtain ⟨⟨hist, hinv⟩, hb⟩ := hs
      obtain ⟨ll', p, l1, l2, -, -⟩ := Labels.step_spec s.ll hist hinv (.define name (Exe.instrCount s.b)) (h1 name rfl)
      have l1 : Labels.setLabel s.ll name (Exe.instrCount s.b) = .ok (ll', p) := l1
      dsimp only
      rw [l1]
      exact ⟨⟨_, l2⟩, resolve_okay p _ (by omega) s.b hb⟩
  · rintro ⟨ll, b⟩ ⟨hl, hb⟩
    dsimp only at hl hb ⊢
    cases hop : opcodeByName opcode with
    | none => trivial
    | some op =>
      dsimp only
      have hne : opcode ≠ [] := by
        rintro rfl
        simp only [opcodeByName] at hop
        exact absurd hop (by cases op <;> decide)
      refine Res.bind (operands_total flt past rest ll hl) ?_
      rintro ⟨opv, r, ll'⟩ ⟨k1, k2, k3⟩
      dsimp only at k1 k2 k3 ⊢
      have hap := append_okay op opv ((size : Int) - start.length) opcode.length b hb k1
      generalize Exe.append op opv ((size : Int) - start.length) opcode.length true b = q at hap
      obtain ⟨b', ok⟩ := q
      cases ok with
      | false => trivial
      | true =>
        refine ⟨?_, k3, hap⟩
        have := h2 hne
        simp only [List.length_tail]
        omega

theorem assembleLoop_total (flt : Bool → List UInt8 → List UInt8 → BitVec 64) (past : UInt8) (size : Nat) (n : Nat) :
    ∀ (t : List UInt8) (s : St), t.length < n → StOk s →
    Res (StartsOperand past) StOk (assembleLoop flt past size n t s) := by
  induction n with
  | zero => intro t s h; omega
  | succ n ih =>
    intro t s hn hs
    unfold assembleLoop
    have hsl := skipSpaces_length t
    generalize skipSpaces t = w at hsl
    match w with
    | [] => exact hs
    | c :: r =>
      dsimp only
      refine Res.bind (assembleOne_total flt past size (c :: r) (by simp) s hs) ?_
      rintro ⟨t', s'⟩ ⟨h1, h2⟩
      exact ih t' s' (by dsimp only at h1; omega) h2

theorem assemble_total (flt : Bool → List UInt8 → List UInt8 → BitVec 64) (past : UInt8) (t : List UInt8) :
    Res (StartsOperand past) (fun (q : Executable × Bool) => CodeOk q.1.body) (assemble flt past t) := by
  unfold assemble
  refine Res.bind (assembleLoop_total flt past t.length _ t _ (by omega) ?_) ?_
  · refine ⟨⟨[], ?_⟩, ?_, ?_⟩
    · constructor <;> simp [Labels.new, Labels.Defined]
    · intro k ins h; simp [Exe.new] at h
    · intro l v h; simp [Exe.new] at h
  · intro s hs
    by_cases hu : Labels.unresolved s.ll > 0
    · rw [if_pos hu]; trivial
    · rw [if_neg hu]
      cases hf : Exe.finalize s.b with
      | none => trivial
      | some e =>
        have : e.body = s.b.code := by
          unfold Exe.finalize at hf
          split at hf
          · cases hf
          · cases hf; rfl
        show CodeOk e.body
        rw [this]
        exact hs.2.code

/-- **C77**, full statement: on every text, whatever byte lies after its end, the assembler ends with
an executable or an error and reads nothing it may not read. -/
def C77Statement (flt : Bool → List UInt8 → List UInt8 → BitVec 64) : Prop :=
  ∀ past t, assemble flt past t ≠ .ub ∧ assemble flt past t ≠ .diverge

/-- **C77** when the byte after the end of the text is not the start of an operand, in particular for
files, which have a NUL there. -/
theorem C77_partial (flt : Bool → List UInt8 → List UInt8 → BitVec 64) (past : UInt8) (hp : ¬ StartsOperand past)
    (t : List UInt8) : assemble flt past t ≠ .ub ∧ assemble flt past t ≠ .diverge := by
  have := assemble_total flt past t
  refine ⟨?_, ?_⟩
  · intro h; rw [h] at this; exact hp this
  · intro h; rw [h] at this; exact this

/-- The assembler always ends. -/
theorem C77_ends (flt : Bool → List UInt8 → List UInt8 → BitVec 64) (past : UInt8) (t : List UInt8) :
    assemble flt past t ≠ .diverge := by
  have := assemble_total flt past t
  intro h; rw [h] at this; exact this

/-- A text that ends in a comma is read beyond its end: the byte there is not set for a source made
from a string, and a digit or letter is taken for an operand. -/
theorem C77_violated (flt : Bool → List UInt8 → List UInt8 → BitVec 64) : ¬ C77Statement flt := by
  intro h
  refine (h 65 (bytes "CALL 1,")).1 ?_
  rfl

example : ¬ StartsOperand 0 := by simp [StartsOperand]; decide

/-- **C58** does not hold: no text is assembled to an instruction with the smallest integer, because
the digits are read before the sign is applied. -/
theorem C58_violated (flt : Bool → List UInt8 → List UInt8 → BitVec 64) (past : UInt8) : ¬ C58Statement flt past := by
  intro h
  obtain ⟨t, e, h1, h2⟩ := h [(.PUSHINT, [.int (-2 ^ 63)])] (by
    intro i hi
    rw [List.mem_singleton.mp hi]
    refine ⟨rfl, ?_, ?_⟩
    · intro j t o ht ho
      cases j with
      | zero => cases ht; cases ho; trivial
      | succ j => simp [optypes] at ht
    · intro o ho
      rw [List.mem_singleton.mp ho]
      exact ⟨by decide, by decide⟩)
  have hc := assemble_total flt past t
  rw [h1] at hc
  have hc : CodeOk e.body := hc
  have hf := h2 0
  unfold Exe.fetch at hf
  cases hb : e.body[0]? with
  | none => rw [hb] at hf; simp at hf
  | some ins =>
    rw [hb] at hf
    simp only [List.getElem?_cons_zero, Option.some.injEq, Prod.mk.injEq] at hf
    obtain ⟨ho, hz⟩ := hf
    have hok := hc 0 ins hb 0 .int
    rw [ho] at hz hok
    match hops : ins.ops, hz with
    | [], hz => simp [optypes] at hz
    | w :: ws, hz =>
      rw [hops] at hok
      have hw := hok w rfl rfl
      simp only [optypes, List.zipWith_cons_cons, List.cons.injEq] at hz
      have hz := hz.1
      cases w with
      | junk => simp [Exe.readOpd] at hz
      | int v =>
        simp only [Exe.readOpd, FOpd.int.injEq] at hz
        subst hz
        have : (-2 ^ 63 : Int) < -2 ^ 63 := hw
        omega
      | float x => exact hw

/-! ## Errors that do not stop the assembler (C78) -/

/-- **C78**, full statement: when there is an executable, no error was reported. -/
def C78Statement (flt : Bool → List UInt8 → List UInt8 → BitVec 64) (past : UInt8) : Prop :=
  ∀ t e occurred, assemble flt past t = .ok (e, occurred) → occurred = false

theorem find_name {name : List UInt8} {op : Opcode} (h : opcodeByName name = some op) :
    ∃ c r, name = c :: r ∧ identStart c = true := by
  unfold opcodeByName at h
  split at h
  · cases h
  · have h1 := List.find?_some h
    simp only [beq_iff_eq] at h1
    obtain ⟨-, -, c, r, h2, h3, -⟩ := opName_spec op
    rw [h2] at h1
    cases name with
    | nil => simp at h1
    | cons d name =>
      by_cases hd : d = 0
      · subst hd; simp at h1
      · rw [List.takeWhile_cons_of_pos (by simpa using hd)] at h1
        have := (List.cons.inj h1).1
        exact ⟨d, name, rfl, by rw [← this]; exact h3⟩

theorem exec_bind_ok {α β : Type} {x : Exec α} {f : α → Exec β} {b : β} (h : (x >>= f) = .ok b) :
    ∃ a, x = .ok a ∧ f a = .ok b := by
  cases x with
  | ok a => exact ⟨a, rfl, h⟩
  | err => cases h
  | ub => cases h
  | diverge => cases h

/-- A statement without a label, or whose label begins with a letter or underscore, reports no error
when it is assembled. -/
theorem C78_statement (flt : Bool → List UInt8 → List UInt8 → BitVec 64) (past : UInt8) (size : Nat) (c : UInt8)
    (t : List UInt8) (s s' : St) (r : List UInt8) (h : assembleOne flt past size (c :: t) s = .ok (r, s'))
    (hc : identStart c = true ∨ ∀ w, skipSpaces (skipIdentifier (c :: t)) ≠ 58 :: w) : s'.occurred = s.occurred := by
  unfold assembleOne at h
  obtain ⟨hd, h1, h⟩ := exec_bind_ok h
  obtain ⟨⟨ll, b⟩, h2, h⟩ := exec_bind_ok h
  dsimp only at h
  cases hop : opcodeByName hd.opcode with
  | none => rw [hop] at h; cases h
  | some op =>
    rw [hop] at h
    obtain ⟨⟨opv, r', ll'⟩, h3, h⟩ := exec_bind_ok h
    dsimp only at h
    have hocc : hd.occurred = false := by
      rcases hc with hc | hc
      · simp only [parseLabelAndOpcode] at h1
        split at h1
        · split at h1
          · cases h1
          · split at h1
            · cases h1; simp [hc]
            · cases h1
        · cases h1; simp [hc]
      · simp only [parseLabelAndOpcode] at h1
        · cases h1
          dsimp only at hop ⊢
          obtain ⟨d, w, hi, hs⟩ := find_name hop
          unfold identifier at hi
          have : identChar c = true := by
            by_cases hcc : identChar c = true
            · exact hcc
            · rw [List.takeWhile_cons_of_neg hcc] at hi; cases hi
          rw [List.takeWhile_cons_of_pos this] at hi
          cases hi
          simp [hs]
    generalize Exe.append op opv ((size : Int) - hd.start.length) hd.opcode.length true b = q at h
    obtain ⟨b', ok⟩ := q
    cases ok with
    | false => cases h
    | true => cases h; simp [hocc]

/-- **C78** does not hold: `12: NOPE` reports that the opcode is missing, and is assembled all the
same, with the label `12`. -/
theorem C78_violated (flt : Bool → List UInt8 → List UInt8 → BitVec 64) (past : UInt8) : ¬ C78Statement flt past := by
  intro h
  have h1 : ∃ e, assemble flt past (bytes "12: NOPE") = .ok (e, true) := ⟨_, rfl⟩
  obtain ⟨e, h1⟩ := h1
  exact absurd (h _ e true h1) (by decide)

example : ∃ r s', assembleOne demo0 0 30 (bytes "L0: NOPE; POP 3") ⟨Labels.new, Exe.new, false⟩ = .ok (r, s') ∧
    s'.occurred = false := ⟨_, _, rfl, rfl⟩
where demo0 : Bool → List UInt8 → List UInt8 → BitVec 64 := fun _ _ _ => 0

/-! ## Examples -/

/-- A program with a loop, a function, a string to escape and a fraction. -/
def demoProg : List (Opcode × List FOpd) :=
  [(.JUMP, [.idx 3]), (.PUSHSTR, [.str (bytes "say \"hi\"\\")]), (.RETURN, [.int 1]),
    (.PUSHFUN, [.idx 1, .int 0, .str (bytes "f")]), (.PUSHFLT, [.float 7]), (.PUSHINT, [.int (-12)]),
    (.JUMPIFNOTANDPOP, [.idx 6]), (.EXIT, [])]

/-- A way to read and write one fraction. -/
def demoFlt (neg : Bool) (a b : List UInt8) : BitVec 64 := if neg = false ∧ a = bytes "3" ∧ b = bytes "5" then 7 else 0

theorem demo_program : Program demoProg ∧ ∀ i ∈ demoProg, ∀ o ∈ i.2, Writable demoFlt (fun _ => ⟨false, bytes "3", bytes "5"⟩) o := by
  have kinds : ∀ (ts : List OpType) (os : List FOpd), ts.length = os.length →
      (∀ p ∈ ts.zip os, KindOf p.1 p.2) → ∀ (j : Nat) t o, ts[j]? = some t → os[j]? = some o → KindOf t o := by
    intro ts os hl h j t o ht ho
    refine h (t, o) (List.mem_of_getElem? (i := j) ?_)
    rw [List.getElem?_zip_eq_some]
    exact ⟨ht, ho⟩
  have split : ∀ (P : Opcode × List FOpd → Prop), (∀ i ∈ demoProg, P i) ↔
      P (.JUMP, [.idx 3]) ∧ P (.PUSHSTR, [.str (bytes "say \"hi\"\\")]) ∧ P (.RETURN, [.int 1]) ∧
      P (.PUSHFUN, [.idx 1, .int 0, .str (bytes "f")]) ∧ P (.PUSHFLT, [.float 7]) ∧ P (.PUSHINT, [.int (-12)]) ∧
      P (.JUMPIFNOTANDPOP, [.idx 6]) ∧ P (.EXIT, []) := by
    intro P
    simp [demoProg]
  refine ⟨?_, ?_⟩
  · unfold Program
    rw [split]
    refine ⟨?_, ?_, ?_, ?_, ?_, ?_, ?_, ?_⟩ <;>
    · refine ⟨rfl, kinds _ _ rfl ?_, ?_⟩
      · simp [optypes, KindOf]
      · simp [Holds, demoProg]
        try decide
  · rw [split]
    refine ⟨?_, ?_, ?_, ?_, ?_, ?_, ?_, ?_⟩ <;> simp [Writable, demoFlt] <;> decide

example : ∃ e, assemble demoFlt 0 (print (fun _ => ⟨false, bytes "3", bytes "5"⟩) 0 demoProg) = .ok (e, false) ∧
    ∀ i, Exe.fetch e i = demoProg[i]? := C58_partial _ _ _ _ demo_program.1 demo_program.2

end Noja.Asm
