import Verif.Exe.Builder
import Verif.CInt
import Verif.Num.Float

/-! # `Executable_Equiv` (C59) -/

namespace Noja.Exe

/-- executable.c:376-415: the operands compared.  Integers are first converted to `int`; floats are
compared with `!=`. -/
def sameOpd : FOpd → FOpd → Bool
  | .idx a, .idx b => toI32 a = toI32 b
  | .int a, .int b => toI32 a = toI32 b
  | .float a, .float b => Num.le a b && Num.le b a
  | .str a, .str b => a = b
  | _, _ => false

/-- executable.c:369-417. -/
def sameOpds : List FOpd → List FOpd → Bool
  | a :: as, b :: bs => sameOpd a b && sameOpds as bs
  | [], [] => true
  | _, _ => false

/-- executable.c:335-425, the loop; `n` bounds the number of rounds. -/
def equivFrom (e1 e2 : Executable) : (n : Nat) → (idx : Nat) → Option Bool
  | 0, _ => none
  | n + 1, idx =>
    match fetch e1 idx, fetch e2 idx with
    | none, none => some true
    | some (o1, a1), some (o2, a2) =>
      if o1 ≠ o2 then some false
      else if sameOpds a1 a2 then equivFrom e1 e2 n (idx + 1) else some false
    | _, _ => some false

/-- executable.c:332-427 `Executable_Equiv`; the loop ends after the last instruction of `e1`. -/
def equiv (e1 e2 : Executable) : Bool := (equivFrom e1 e2 (e1.body.length + 1) 0).getD false

/-! ## What it decides -/

/-- Both programs have ended, or they have instructions that compare equal. -/
def SameAt : Option (Opcode × List FOpd) → Option (Opcode × List FOpd) → Prop
  | none, none => True
  | some (o1, a1), some (o2, a2) => o1 = o2 ∧ sameOpds a1 a2 = true
  | _, _ => False

theorem fetch_none_iff (e : Executable) (i : Nat) : fetch e i = none ↔ e.body.length ≤ i := by
  unfold fetch
  cases h : e.body[i]? with
  | none => simpa using h
  | some x =>
    obtain ⟨h1, -⟩ := List.getElem?_eq_some_iff.1 h
    simp; omega

theorem equivFrom_iff (e1 e2 : Executable) : ∀ n idx, idx ≤ e1.body.length →
    e1.body.length < n + idx →
    ∃ r, equivFrom e1 e2 n idx = some r ∧
      (r = true ↔ ∀ i, idx ≤ i → SameAt (fetch e1 i) (fetch e2 i))
  | 0, idx, h, h' => absurd h' (by omega)
  | n + 1, idx, h, h' => by
    unfold equivFrom
    cases h1 : fetch e1 idx with
    | none =>
      cases h2 : fetch e2 idx with
      | none =>
        refine ⟨true, rfl, fun _ j hj => ?_, fun _ => rfl⟩
        rw [(fetch_none_iff e1 j).2, (fetch_none_iff e2 j).2]
        · trivial
        · have := (fetch_none_iff e2 idx).1 h2; omega
        · have := (fetch_none_iff e1 idx).1 h1; omega
      | some p =>
        refine ⟨false, rfl, by simp, fun hall => ?_⟩
        have := hall idx (Nat.le_refl _)
        rw [h1, h2] at this
        exact this.elim
    | some p =>
      obtain ⟨o1, a1⟩ := p
      cases h2 : fetch e2 idx with
      | none =>
        refine ⟨false, rfl, by simp, fun hall => ?_⟩
        have := hall idx (Nat.le_refl _)
        rw [h1, h2] at this
        exact this.elim
      | some q =>
        obtain ⟨o2, a2⟩ := q
        simp only
        have hlt : idx < e1.body.length := by
          rcases Nat.lt_or_ge idx e1.body.length with h | h
          · exact h
          · rw [(fetch_none_iff e1 idx).2 h] at h1; simp at h1
        by_cases ho : o1 = o2
        · rw [if_neg (by simpa using ho)]
          by_cases hs : sameOpds a1 a2 = true
          · rw [if_pos hs]
            obtain ⟨r, hr, hr2⟩ := equivFrom_iff e1 e2 n (idx + 1) (by omega) (by omega)
            refine ⟨r, hr, hr2.trans ⟨fun hall i hi => ?_, fun hall i hi => hall i (by omega)⟩⟩
            rcases Nat.eq_or_lt_of_le hi with rfl | hlt
            · rw [h1, h2]; exact ⟨ho, hs⟩
            · exact hall i hlt
          · rw [if_neg hs]
            refine ⟨false, rfl, by simp, fun hall => ?_⟩
            have := hall idx (Nat.le_refl _)
            rw [h1, h2] at this
            exact absurd this.2 hs
        · rw [if_pos ho]
          refine ⟨false, rfl, by simp, fun hall => ?_⟩
          have := hall idx (Nat.le_refl _)
          rw [h1, h2] at this
          exact absurd this.1 ho

theorem equiv_iff (e1 e2 : Executable) :
    equiv e1 e2 = true ↔ ∀ i, SameAt (fetch e1 i) (fetch e2 i) := by
  obtain ⟨r, hr, hr2⟩ := equivFrom_iff e1 e2 (e1.body.length + 1) 0 (by omega) (by omega)
  unfold equiv
  rw [hr, Option.getD_some, hr2]
  simp

/-! ## C59 -/

/-- The property: programs judged equivalent have the same instructions. -/
def C59Statement : Prop :=
  ∀ e1 e2 : Executable, equiv e1 e2 = true → ∀ i, fetch e1 i = fetch e2 i

/-- The program `PUSHINT v`. -/
def pushInt (v : Int) : Executable := ⟨[], [⟨.PUSHINT, 0, 0, [.int v]⟩]⟩

/-- `PUSHINT 0` and `PUSHINT 4294967296` are judged equivalent. -/
theorem C59_violated : ¬ C59Statement := by
  intro h
  have h1 : equiv (pushInt 0) (pushInt 4294967296) = true := by decide
  have := h _ _ h1 0
  revert this
  decide

/-- Operands the check can tell apart: integers of the type `int`, floats other than zeros. -/
def Plain : FOpd → Prop
  | .idx v => IsI32 v
  | .int v => IsI32 v
  | .float x => Num.mag x ≠ 0
  | .str _ => True

theorem float_eq_of_le {x y : BitVec 64} (h1 : Num.le x y = true) (h2 : Num.le y x = true)
    (hx : Num.mag x ≠ 0) : x = y := by
  simp only [Num.le, Bool.and_eq_true, decide_eq_true_eq] at h1 h2
  have hk : Num.key x = Num.key y := by omega
  have bx : x.toNat < 2 ^ 64 := x.isLt
  have ly : y.toNat < 2 ^ 64 := y.isLt
  apply BitVec.eq_of_toNat_eq
  simp only [Num.key, Num.sign, decide_eq_true_eq] at hk
  simp only [Num.mag] at hk hx
  by_cases hx1 : x.toNat ≥ 2 ^ 63
  · rw [if_pos hx1] at hk
    by_cases hy1 : y.toNat ≥ 2 ^ 63
    · rw [if_pos hy1] at hk; omega
    · rw [if_neg hy1] at hk; omega
  · rw [if_neg hx1] at hk
    by_cases hy1 : y.toNat ≥ 2 ^ 63
    · rw [if_pos hy1] at hk; omega
    · rw [if_neg hy1] at hk; omega

theorem sameOpds_eq : ∀ as bs : List FOpd, sameOpds as bs = true → (∀ a ∈ as, Plain a) →
    (∀ b ∈ bs, Plain b) → as = bs
  | [], [], _, _, _ => rfl
  | [], _ :: _, h, _, _ => by simp [sameOpds] at h
  | _ :: _, [], h, _, _ => by simp [sameOpds] at h
  | a :: as, b :: bs, h, ha, hb => by
    simp only [sameOpds, Bool.and_eq_true] at h
    rw [sameOpds_eq as bs h.2 (fun x hx => ha x (List.mem_cons_of_mem _ hx))
      (fun x hx => hb x (List.mem_cons_of_mem _ hx))]
    have h1 := ha a List.mem_cons_self
    have h2 := hb b List.mem_cons_self
    have h3 := h.1
    congr 1
    cases a <;> cases b <;> simp only [sameOpd, Bool.false_eq_true, decide_eq_true_eq,
      Bool.and_eq_true] at h3 <;> simp only [Plain] at h1 h2
    · rw [toI32_of_isI32 h1, toI32_of_isI32 h2] at h3; rw [h3]
    · rw [toI32_of_isI32 h1, toI32_of_isI32 h2] at h3; rw [h3]
    · rw [float_eq_of_le h3.1 h3.2 h1]
    · rw [h3]

/-- **C59**, partial: missing are integers outside of the type `int`, of which only the lower half
is compared, and the two zeros, which compare equal. -/
theorem C59_partial (e1 e2 : Executable) (h : equiv e1 e2 = true)
    (p1 : ∀ i o as, fetch e1 i = some (o, as) → ∀ a ∈ as, Plain a)
    (p2 : ∀ i o as, fetch e2 i = some (o, as) → ∀ a ∈ as, Plain a) (i : Nat) :
    fetch e1 i = fetch e2 i := by
  have := (equiv_iff e1 e2).1 h i
  cases h1 : fetch e1 i with
  | none =>
    rw [h1] at this
    cases h2 : fetch e2 i with
    | none => rfl
    | some q => rw [h2] at this; exact this.elim
  | some p =>
    obtain ⟨o1, a1⟩ := p
    rw [h1] at this
    cases h2 : fetch e2 i with
    | none => rw [h2] at this; exact this.elim
    | some q =>
      obtain ⟨o2, a2⟩ := q
      rw [h2] at this
      obtain ⟨rfl, h3⟩ := this
      rw [sameOpds_eq a1 a2 h3 (p1 i _ _ h1) (p2 i _ _ h2)]

/-- Without any condition: the same opcodes, the same strings, and integers that agree in the lower
32 bits. -/
theorem C59_shape (e1 e2 : Executable) (h : equiv e1 e2 = true) :
    e1.body.length = e2.body.length ∧
    ∀ i o1 a1 o2 a2, fetch e1 i = some (o1, a1) → fetch e2 i = some (o2, a2) →
      o1 = o2 ∧ sameOpds a1 a2 = true := by
  rw [equiv_iff] at h
  refine ⟨?_, ?_⟩
  · have key : ∀ i, e1.body.length ≤ i ↔ e2.body.length ≤ i := by
      intro i
      have := h i
      rw [← fetch_none_iff, ← fetch_none_iff]
      cases h1 : fetch e1 i <;> cases h2 : fetch e2 i <;> rw [h1, h2] at this <;>
        simp_all [SameAt]
    have h1 := (key e1.body.length).1 (Nat.le_refl _)
    have h2 := (key e2.body.length).2 (Nat.le_refl _)
    omega
  · intro i o1 a1 o2 a2 h1 h2
    have := h i
    rw [h1, h2] at this
    exact this

/-- Programs with the same instructions are judged equivalent, unless there is a NaN. -/
theorem C59_complete (e1 e2 : Executable) (h : ∀ i, fetch e1 i = fetch e2 i)
    (hn : ∀ i o as x, fetch e1 i = some (o, as) → FOpd.float x ∈ as → Num.isNaN x = false) :
    equiv e1 e2 = true := by
  rw [equiv_iff]
  intro i
  rw [← h i]
  cases h1 : fetch e1 i with
  | none => trivial
  | some p =>
    obtain ⟨o, as⟩ := p
    refine ⟨rfl, ?_⟩
    have hx := fun x => hn i o as x h1
    clear h1
    induction as with
    | nil => rfl
    | cons a as ih =>
      simp only [sameOpds, Bool.and_eq_true]
      refine ⟨?_, ih fun x hm => hx x (List.mem_cons_of_mem _ hm)⟩
      cases a with
      | float x =>
        have := hx x List.mem_cons_self
        simp [sameOpd, Num.le, this]
      | _ => simp [sameOpd]

/-- A program with operands of every kind. -/
def sample : Executable := ⟨[97, 0, 98, 98, 0],
  [⟨.PUSHFUN, 0, 0, [.int 2, .int (-7), .int 2]⟩, ⟨.PUSHFLT, 0, 0, [.float 0x3ff0000000000000]⟩]⟩

theorem sample_fetch : fetch sample 0 = some (.PUSHFUN, [.idx 2, .int (-7), .str [98, 98]]) ∧
    fetch sample 1 = some (.PUSHFLT, [.float 0x3ff0000000000000]) := by decide

/-- It meets the conditions of `C59_partial`. -/
example : equiv sample sample = true ∧
    (∀ i o as, fetch sample i = some (o, as) → ∀ a ∈ as, Plain a) := by
  refine ⟨by decide, ?_⟩
  intro i o as h
  match i with
  | 0 =>
    rw [sample_fetch.1] at h
    cases h
    simp [Plain, IsI32]
  | 1 =>
    rw [sample_fetch.2] at h
    cases h
    simp [Plain, Num.mag]
  | i + 2 => simp [fetch, sample] at h

end Noja.Exe
