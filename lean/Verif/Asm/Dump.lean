import Verif.Asm.RoundTrip
import Verif.Exe.Equiv

/-!
# The listing of a program (C101)

`Executable_Dump` (executable.c:189-228) writes one line for each instruction: its number, its name and its
operands. Strings are written as they are, between brackets.

`fl` is what `printf` makes of a floating-point number with `%f`. That `printf` writes everything is part of
the trusted base.
-/

namespace Noja.Asm

open Exe (Opcode OpType FOpd Executable Ins optypes fetch)

set_option linter.unusedSimpArgs false
set_option linter.unusedVariables false

/-- What `printf` writes for `%d` and `%lld`. -/
def lld (v : Int) : List UInt8 := if v < 0 then 45 :: dec (-v).toNat else dec v.toNat

/-- executable.c:204-221. -/
def dumpOpd (fl : BitVec 64 → List UInt8) : FOpd → List UInt8
  | .idx v => lld v ++ [32]
  | .int v => lld v ++ [32]
  | .float x => fl x ++ [32]
  | .str s => 91 :: s ++ [93, 32]

/-- executable.c:199-224, the line of instruction `i`. -/
def dumpIns (fl : BitVec 64 → List UInt8) (i : Nat) (op : Opcode) (as : List FOpd) : List UInt8 :=
  lld i ++ [58, 32] ++ opName op ++ [32] ++ as.flatMap (dumpOpd fl) ++ [10]

/-- executable.c:191-227, the loop with `n` instructions left. -/
def dumpLoop (fl : BitVec 64 → List UInt8) (e : Executable) : (n i : Nat) → List UInt8
  | 0, _ => []
  | n + 1, i =>
    (match fetch e i with
      | some (op, as) => dumpIns fl i op as
      | none => []) ++ dumpLoop fl e n (i + 1)

/-- executable.c:189-228 `Executable_Dump`. -/
def dump (fl : BitVec 64 → List UInt8) (e : Executable) : List UInt8 := dumpLoop fl e e.body.length 0

/-! ## Statements -/

/-- Instructions have operands of the types they ask for (C11: all that the builder makes do). -/
def Typed (e : Executable) : Prop := ∀ i op as, fetch e i = some (op, as) →
  as.length = (optypes op).length ∧ ∀ (j : Nat) t o, (optypes op)[j]? = some t → as[j]? = some o → KindOf t o

/-- **C101**, full statement: programs with the same listing are the same. -/
def C101Statement (fl : BitVec 64 → List UInt8) : Prop :=
  ∀ e1 e2, Typed e1 → Typed e2 → dump fl e1 = dump fl e2 → ∀ i, fetch e1 i = fetch e2 i

/-- The strings of a program have no line ends. -/
def OneLine (e : Executable) : Prop := ∀ i op as s, fetch e i = some (op, as) → FOpd.str s ∈ as → (10 : UInt8) ∉ s

/-- The same operands, or floating-point numbers that are written the same. -/
def Alike (fl : BitVec 64 → List UInt8) : FOpd → FOpd → Prop
  | .float x, .float y => fl x = fl y
  | a, b => a = b

/-- The same instruction but for numbers that are written the same. -/
def AlikeAt (fl : BitVec 64 → List UInt8) : Option (Opcode × List FOpd) → Option (Opcode × List FOpd) → Prop
  | some (o, as), some (o', as') => o = o' ∧ as.length = as'.length ∧ ∀ (j : Nat) a b, as[j]? = some a → as'[j]? = some b → Alike fl a b
  | none, none => True
  | _, _ => False

/-! ## Proof -/

/-- What stands before the first `c`. -/
theorem split_at {c : UInt8} : ∀ {a b r s : List UInt8}, c ∉ a → c ∉ b → a ++ c :: r = b ++ c :: s → a = b ∧ r = s
  | [], [], _, _, _, _, h => ⟨rfl, (List.cons.inj h).2⟩
  | [], x :: b, _, _, _, hb, h => absurd (List.mem_cons.2 (.inl (List.cons.inj h).1)) hb
  | x :: a, [], _, _, ha, _, h => absurd (List.mem_cons.2 (.inl (List.cons.inj h).1.symm)) ha
  | x :: a, y :: b, _, _, ha, hb, h => by
    obtain ⟨h1, h2⟩ := List.cons.inj h
    obtain ⟨h3, h4⟩ := split_at (fun q => ha (List.mem_cons_of_mem _ q)) (fun q => hb (List.mem_cons_of_mem _ q)) h2
    exact ⟨by rw [h1, h3], h4⟩

theorem dec_no {c : UInt8} (h : isDigit c = false) (n : Nat) : c ∉ dec n := fun q => by
  rw [(dec_digits n).1 c q] at h; cases h

theorem dec_inj {m n : Nat} (h : dec m = dec n) : m = n := by
  rw [← (dec_digits m).2.2, ← (dec_digits n).2.2, h]

theorem lld_no {c : UInt8} (h : isDigit c = false) (h' : c ≠ 45) (v : Int) : c ∉ lld v := by
  unfold lld
  by_cases hv : v < 0
  · rw [if_pos hv]
    intro q
    rcases List.mem_cons.1 q with q | q
    · exact h' q
    · exact dec_no h _ q
  · rw [if_neg hv]; exact dec_no h _

theorem lld_inj {v w : Int} (h : lld v = lld w) : v = w := by
  have no : (45 : UInt8) ∉ dec v.toNat ∧ (45 : UInt8) ∉ dec w.toNat := ⟨dec_no (by decide) _, dec_no (by decide) _⟩
  unfold lld at h
  by_cases hv : v < 0 <;> by_cases hw : w < 0
  · rw [if_pos hv, if_pos hw] at h
    have := dec_inj (List.cons.inj h).2
    omega
  · rw [if_pos hv, if_neg hw] at h
    exact absurd (h ▸ List.mem_cons_self) no.2
  · rw [if_neg hv, if_pos hw] at h
    exact absurd (h ▸ List.mem_cons_self) no.1
  · rw [if_neg hv, if_neg hw] at h
    have := dec_inj h
    omega

theorem opName_no {c : UInt8} (h : identChar c = false) (op : Opcode) : c ∉ opName op := fun q => by
  rw [(opName_spec op).1 c q] at h; cases h

theorem opName_inj {o o' : Opcode} (h : opName o = opName o') : o = o' := by
  have h1 := (opName_spec o).2.1
  rw [h, (opName_spec o').2.1] at h1
  exact (Option.some.inj h1).symm

/-- A string is always the last operand. -/
theorem str_last (op : Opcode) : ∀ (j : Nat), (optypes op)[j]? = some .str → (optypes op).length = j + 1 := by
  cases op <;> intro j h <;> (match j, h with
    | 0, h => first | rfl | (exact absurd h (by decide)) 
    | 1, h => first | rfl | (exact absurd h (by decide)) 
    | 2, h => first | rfl | (exact absurd h (by decide)) 
    | j + 3, h => exact absurd h (by simp [optypes]))

variable {fl : BitVec 64 → List UInt8}

/-- Operands of the same types are told apart by what is written. -/
theorem opds_alike (hfl : ∀ x, (32 : UInt8) ∉ fl x) : ∀ (ts : List OpType), (∀ (j : Nat), ts[j]? = some .str → ts.length = j + 1) →
    ∀ (as bs : List FOpd), as.length = ts.length → bs.length = ts.length →
    (∀ (j : Nat) t o, ts[j]? = some t → as[j]? = some o → KindOf t o) →
    (∀ (j : Nat) t o, ts[j]? = some t → bs[j]? = some o → KindOf t o) →
    as.flatMap (dumpOpd fl) = bs.flatMap (dumpOpd fl) →
    ∀ (j : Nat) a b, as[j]? = some a → bs[j]? = some b → Alike fl a b
  | [], _, [], [], _, _, _, _, _, j, a, b, h, _ => by cases h
  | [], _, _ :: _, _, h, _, _, _, _, _, _, _, _, _ => by cases h
  | [], _, [], _ :: _, _, h, _, _, _, _, _, _, _, _ => by cases h
  | _ :: _, _, [], _, h, _, _, _, _, _, _, _, _, _ => by cases h
  | _ :: _, _, _ :: _, [], _, h, _, _, _, _, _, _, _, _ => by cases h
  | t :: ts, hs, x :: as, y :: bs, ha, hb, ka, kb, h, j, a, b, hja, hjb => by
    have kx := ka 0 t x rfl rfl
    have ky := kb 0 t y rfl rfl
    have ih := opds_alike hfl ts (fun j hj => by simpa using hs (j + 1) (by simpa using hj)) as bs
      (by simpa using ha) (by simpa using hb) (fun j t o h1 h2 => ka (j + 1) t o (by simpa using h1) (by simpa using h2))
      (fun j t o h1 h2 => kb (j + 1) t o (by simpa using h1) (by simpa using h2))
    rw [List.flatMap_cons, List.flatMap_cons] at h
    have fin : Alike fl x y → as.flatMap (dumpOpd fl) = bs.flatMap (dumpOpd fl) → Alike fl a b := fun h1 h2 => by
      cases j with
      | zero => cases hja; cases hjb; exact h1
      | succ j => exact ih h2 j a b (by simpa using hja) (by simpa using hjb)
    have num : ∀ {p q : List UInt8}, (32 : UInt8) ∉ p → (32 : UInt8) ∉ q →
        p ++ [32] ++ as.flatMap (dumpOpd fl) = q ++ [32] ++ bs.flatMap (dumpOpd fl) →
        p = q ∧ as.flatMap (dumpOpd fl) = bs.flatMap (dumpOpd fl) := fun hp hq e => by
      rw [List.append_assoc, List.append_assoc] at e
      exact split_at hp hq e
    match t, x, y, kx, ky with
    | .idx, .idx v, .idx w, _, _ =>
      obtain ⟨e1, e2⟩ := num (lld_no (by decide) (by decide) v) (lld_no (by decide) (by decide) w) h
      exact fin (by rw [lld_inj e1]; rfl) e2
    | .int, .int v, .int w, _, _ =>
      obtain ⟨e1, e2⟩ := num (lld_no (by decide) (by decide) v) (lld_no (by decide) (by decide) w) h
      exact fin (by rw [lld_inj e1]; rfl) e2
    | .float, .float v, .float w, _, _ =>
      obtain ⟨e1, e2⟩ := num (hfl v) (hfl w) h
      exact fin e1 e2
    | .str, .str v, .str w, _, _ =>
      have hl := hs 0 rfl
      have hts : ts.length = 0 := by simpa using hl
      have e1 : as = [] := List.eq_nil_of_length_eq_zero (by simpa [hts] using ha)
      have e2 : bs = [] := List.eq_nil_of_length_eq_zero (by simpa [hts] using hb)
      subst e1; subst e2
      refine fin ?_ rfl
      have h : 91 :: (v ++ [93, 32]) ++ [] = 91 :: (w ++ [93, 32]) ++ [] := h
      rw [List.append_nil, List.append_nil] at h
      rw [List.append_cancel_right (List.cons.inj h).2]
      rfl

/-- A line up to its end. -/
def lineOf (fl : BitVec 64 → List UInt8) (i : Nat) (op : Opcode) (as : List FOpd) : List UInt8 :=
  lld i ++ [58, 32] ++ opName op ++ [32] ++ as.flatMap (dumpOpd fl)

theorem lineOf_no (hfl : ∀ x, (10 : UInt8) ∉ fl x) {i : Nat} {op : Opcode} {as : List FOpd}
    (hs : ∀ s, FOpd.str s ∈ as → (10 : UInt8) ∉ s) : (10 : UInt8) ∉ lineOf fl i op as := by
  unfold lineOf
  intro q
  rcases List.mem_append.1 q with q | q
  · rcases List.mem_append.1 q with q | q
    · rcases List.mem_append.1 q with q | q
      · rcases List.mem_append.1 q with q | q
        · exact lld_no (by decide) (by decide) _ q
        · exact absurd q (by decide)
      · exact opName_no (by decide) _ q
    · exact absurd q (by decide)
  · obtain ⟨o, ho, q⟩ := List.mem_flatMap.1 q
    match o, ho, q with
    | .idx v, _, q =>
      rcases List.mem_append.1 q with q | q
      · exact lld_no (by decide) (by decide) _ q
      · exact absurd q (by decide)
    | .int v, _, q =>
      rcases List.mem_append.1 q with q | q
      · exact lld_no (by decide) (by decide) _ q
      · exact absurd q (by decide)
    | .float x, _, q =>
      rcases List.mem_append.1 q with q | q
      · exact hfl _ q
      · exact absurd q (by decide)
    | .str s, ho, q =>
      rcases List.mem_append.1 q with q | q
      · rcases List.mem_cons.1 q with q | q
        · exact absurd q (by decide)
        · exact hs s ho q
      · exact absurd q (by decide)

/-- A line says which instruction it is of. -/
theorem line_alike (hfl : ∀ x, (32 : UInt8) ∉ fl x) {i : Nat} {o1 o2 : Opcode} {a1 a2 : List FOpd}
    (l1 : a1.length = (optypes o1).length) (k1 : ∀ (j : Nat) t o, (optypes o1)[j]? = some t → a1[j]? = some o → KindOf t o)
    (l2 : a2.length = (optypes o2).length) (k2 : ∀ (j : Nat) t o, (optypes o2)[j]? = some t → a2[j]? = some o → KindOf t o)
    (h : lineOf fl i o1 a1 = lineOf fl i o2 a2) : AlikeAt fl (some (o1, a1)) (some (o2, a2)) := by
  unfold lineOf at h
  simp only [List.append_assoc] at h
  have h := List.append_cancel_left h
  have h := List.append_cancel_left h
  obtain ⟨h1, h2⟩ := split_at (opName_no (by decide) o1) (opName_no (by decide) o2) h
  have := opName_inj h1
  subst this
  exact ⟨rfl, l1.trans l2.symm, opds_alike hfl _ (str_last o1) a1 a2 l1 l2 k1 k2 h2⟩

theorem dumpIns_eq (i : Nat) (op : Opcode) (as : List FOpd) (r : List UInt8) :
    dumpIns fl i op as ++ r = lineOf fl i op as ++ 10 :: r := by
  unfold dumpIns lineOf
  rw [List.append_assoc _ [10] r]
  rfl

theorem fetch_at {e : Executable} {i : Nat} (h : i < e.body.length) : ∃ op as, fetch e i = some (op, as) := by
  cases hf : fetch e i with
  | none =>
    have := (Exe.fetch_none_iff e i).1 hf
    omega
  | some p => exact ⟨p.1, p.2, rfl⟩

theorem dumpLoop_alike (hsp : ∀ x, (32 : UInt8) ∉ fl x) (hnl : ∀ x, (10 : UInt8) ∉ fl x) {e1 e2 : Executable} (t1 : Typed e1) (t2 : Typed e2)
    (s1 : OneLine e1) (s2 : OneLine e2) : ∀ (n1 n2 i : Nat), i + n1 = e1.body.length → i + n2 = e2.body.length →
    dumpLoop fl e1 n1 i = dumpLoop fl e2 n2 i → n1 = n2 ∧ ∀ j, i ≤ j → AlikeAt fl (fetch e1 j) (fetch e2 j)
  | 0, 0, i, h1, h2, h => by
    refine ⟨rfl, fun j hj => ?_⟩
    rw [(Exe.fetch_none_iff e1 j).2 (by omega), (Exe.fetch_none_iff e2 j).2 (by omega)]
    trivial
  | 0, n2 + 1, i, h1, h2, h => by
    obtain ⟨op, as, hf⟩ := fetch_at (e := e2) (i := i) (by omega)
    unfold dumpLoop at h
    rw [hf] at h
    dsimp only at h
    rw [dumpIns_eq] at h
    exact absurd h.symm (List.append_ne_nil_of_right_ne_nil _ (by simp))
  | n1 + 1, 0, i, h1, h2, h => by
    obtain ⟨op, as, hf⟩ := fetch_at (e := e1) (i := i) (by omega)
    unfold dumpLoop at h
    rw [hf] at h
    dsimp only at h
    rw [dumpIns_eq] at h
    exact absurd h (List.append_ne_nil_of_right_ne_nil _ (by simp))
  | n1 + 1, n2 + 1, i, h1, h2, h => by
    obtain ⟨o1, a1, f1⟩ := fetch_at (e := e1) (i := i) (by omega)
    obtain ⟨o2, a2, f2⟩ := fetch_at (e := e2) (i := i) (by omega)
    unfold dumpLoop at h
    rw [f1, f2] at h
    dsimp only at h
    rw [dumpIns_eq, dumpIns_eq] at h
    obtain ⟨e, r⟩ := split_at (lineOf_no hnl fun s => s1 i o1 a1 s f1) (lineOf_no hnl fun s => s2 i o2 a2 s f2) h
    obtain ⟨hn, ih⟩ := dumpLoop_alike hsp hnl t1 t2 s1 s2 n1 n2 (i + 1) (by omega) (by omega) r
    refine ⟨by rw [hn], fun j hj => ?_⟩
    by_cases hij : j = i
    · subst hij
      rw [f1, f2]
      exact line_alike hsp (t1 _ _ _ f1).1 (t1 _ _ _ f1).2 (t2 _ _ _ f2).1 (t2 _ _ _ f2).2 e
    · exact ih j (by omega)

/-- **C101**, partial: for programs whose strings have no line ends, the listing tells the instructions
and their operands but for floating-point numbers that `%f` writes alike. -/
theorem C101_partial (hsp : ∀ x, (32 : UInt8) ∉ fl x) (hnl : ∀ x, (10 : UInt8) ∉ fl x) (e1 e2 : Executable) (t1 : Typed e1)
    (t2 : Typed e2) (s1 : OneLine e1) (s2 : OneLine e2) (h : dump fl e1 = dump fl e2) (i : Nat) :
    AlikeAt fl (fetch e1 i) (fetch e2 i) :=
  (dumpLoop_alike hsp hnl t1 t2 s1 s2 _ _ 0 (by omega) (by omega) h).2 i (Nat.zero_le _)

/-- Without floating-point numbers the programs are the same. -/
theorem C101_exact_partial (hsp : ∀ x, (32 : UInt8) ∉ fl x) (hnl : ∀ x, (10 : UInt8) ∉ fl x) (e1 e2 : Executable) (t1 : Typed e1)
    (t2 : Typed e2) (s1 : OneLine e1) (s2 : OneLine e2) (hf : ∀ i op as x, fetch e1 i = some (op, as) → FOpd.float x ∉ as)
    (h : dump fl e1 = dump fl e2) (i : Nat) : fetch e1 i = fetch e2 i := by
  have key := C101_partial hsp hnl e1 e2 t1 t2 s1 s2 h i
  cases h1 : fetch e1 i with
  | none =>
    rw [h1] at key
    cases h2 : fetch e2 i with
    | none => rfl
    | some q => rw [h2] at key; exact key.elim
  | some p =>
    obtain ⟨o1, a1⟩ := p
    rw [h1] at key
    cases h2 : fetch e2 i with
    | none => rw [h2] at key; exact key.elim
    | some q =>
      obtain ⟨o2, a2⟩ := q
      rw [h2] at key
      obtain ⟨rfl, hl, ha⟩ := key
      have : a1 = a2 := by
        refine List.ext_getElem hl fun j hj hj' => ?_
        have hal := ha j a1[j] a2[j] (by simp [hj]) (by simp [hj'])
        have hm : ∀ x, a1[j] ≠ FOpd.float x := fun x hx => hf i _ _ x h1 (hx ▸ List.getElem_mem hj)
        generalize a1[j] = a at hal hm
        generalize a2[j] = b at hal
        cases a with
        | float x => exact absurd rfl (hm x)
        | idx v => exact hal
        | int v => exact hal
        | str v => exact hal
      rw [this]

/-- The listing has as many line ends as the program has instructions. -/
theorem C101_lines (hnl : ∀ x, (10 : UInt8) ∉ fl x) (e : Executable) (s : OneLine e) :
    (dump fl e).count 10 = e.body.length := by
  have key : ∀ n i, i + n = e.body.length → (dumpLoop fl e n i).count 10 = n := by
    intro n
    induction n with
    | zero => intro i _; rfl
    | succ n ih =>
      intro i hi
      obtain ⟨op, as, hf⟩ := fetch_at (e := e) (i := i) (by omega)
      unfold dumpLoop
      rw [hf]
      dsimp only
      rw [dumpIns_eq, List.count_append, List.count_cons_self, ih (i + 1) (by omega),
        List.count_eq_zero.2 (lineOf_no hnl fun t => s i op as t hf)]
      omega
  exact key _ 0 (by omega)

/-! ## Where it fails -/

/-- One instruction with the string `a] ⏎1: PUSHSTR [b`. -/
def oneString : Executable := ⟨[97, 93, 32, 10, 49, 58, 32, 80, 85, 83, 72, 83, 84, 82, 32, 91, 98, 0],
  [⟨.PUSHSTR, 0, 0, [.int 0]⟩]⟩

/-- Two instructions with the strings `a` and `b`. -/
def twoStrings : Executable := ⟨[97, 0, 98, 0], [⟨.PUSHSTR, 0, 0, [.int 0]⟩, ⟨.PUSHSTR, 0, 0, [.int 2]⟩]⟩

theorem typed_of {e : Executable} (h : ∀ ins ∈ e.body, ins.ops.length = (optypes ins.op).length ∧
    ∀ (j : Nat) t w, (optypes ins.op)[j]? = some t → ins.ops[j]? = some w → KindOf t (Exe.readOpd e.head t w)) : Typed e := by
  intro i op as hf
  unfold fetch at hf
  cases hb : e.body[i]? with
  | none => rw [hb] at hf; cases hf
  | some ins =>
    rw [hb] at hf
    injection hf with hf
    injection hf with h1 h2
    subst h1; subst h2
    obtain ⟨hl, hk⟩ := h ins (List.mem_of_getElem? hb)
    refine ⟨by rw [List.length_zipWith, hl, Nat.min_self], fun j t o ht ho => ?_⟩
    rw [List.getElem?_zipWith, ht] at ho
    cases hw : ins.ops[j]? with
    | none => rw [hw] at ho; cases ho
    | some w =>
      rw [hw] at ho
      cases ho
      exact hk j t w ht hw

/-- All that the builder makes has operands of the right types. -/
theorem typed_built (evs : List Exe.Ev) (b : Exe.Builder) (e : Executable) (hb : Exe.build evs Exe.new = (b, true))
    (hf : Exe.finalize b = some e) (hs : Exe.CStrings (Exe.appends evs)) (hn : ((Exe.given evs).map Prod.fst).Nodup) : Typed e := by
  intro i op as h
  rw [Exe.C11_fetch evs b e hb hf hs hn i] at h
  obtain ⟨_, _, hk⟩ := Exe.build_inv evs Exe.new b [] [] Exe.inv_new hb (by simp [Exe.new]) hn (by simp)
  have hg := (Exe.C11_finalize evs b hb hn).1 (by rw [hf]; rfl)
  cases ha : (Exe.appends evs)[i]? with
  | none => rw [ha] at h; cases h
  | some a =>
    rw [ha] at h
    injection h with h
    injection h with h1 h2
    subst h1; subst h2
    have ham := List.mem_of_getElem? ha
    obtain ⟨hl, hk⟩ := hk a ham
    refine ⟨by rw [List.length_zipWith, hl, Nat.min_self], fun j t o ht ho => ?_⟩
    rw [List.getElem?_zipWith, ht] at ho
    cases hw : a.opv[j]? with
    | none => rw [hw] at ho; cases ho
    | some w =>
      rw [hw] at ho
      cases ho
      have hkd := hk j t w ht hw
      cases w with
      | promise l =>
        obtain ⟨v, hv⟩ := hg a ham l (List.mem_of_getElem? hw)
        have hlk : (Exe.given evs).lookup l = some v := lookup_of_nodup _ l v hn hv
        unfold Exe.opdValue
        simp only [hlk]
        cases t with
        | str => cases hkd
        | _ => trivial
      | _ => cases t <;> first | trivial | cases hkd

theorem typed_str {h : List UInt8} {l : List Int} : Typed ⟨h, l.map fun v => ⟨.PUSHSTR, 0, 0, [.int v]⟩⟩ := by
  refine typed_of fun ins hi => ?_
  obtain ⟨v, _, rfl⟩ := List.mem_map.1 hi
  refine ⟨rfl, fun j t w ht hw => ?_⟩
  match j, ht, hw with
  | 0, ht, hw => cases ht; cases hw; trivial
  | j + 1, ht, hw => simp [optypes] at ht

/-- **C101** is violated: a string can have the look of an instruction. -/
theorem C101_violated : ¬ C101Statement fl := by
  intro h
  have e : dump fl oneString = dump fl twoStrings := by
    show lld 0 ++ [58, 32] ++ opName .PUSHSTR ++ [32] ++ (91 :: Exe.cstr oneString.head 0 ++ [93, 32] ++ []) ++ [10] ++ [] =
      (lld 0 ++ [58, 32] ++ opName .PUSHSTR ++ [32] ++ (91 :: Exe.cstr twoStrings.head 0 ++ [93, 32] ++ []) ++ [10]) ++
        (lld 1 ++ [58, 32] ++ opName .PUSHSTR ++ [32] ++ (91 :: Exe.cstr twoStrings.head 2 ++ [93, 32] ++ []) ++ [10] ++ [])
    decide +kernel
  have := h oneString twoStrings (typed_str (l := [0])) (typed_str (l := [0, 2])) e 1
  exact absurd this (by decide +kernel)

/-- It also is if two floating-point numbers are written the same. -/
theorem C101_violated_float {x y : BitVec 64} (hxy : x ≠ y) (hf : fl x = fl y) : ¬ C101Statement fl := by
  intro h
  have ty : ∀ z, Typed ⟨[], [⟨.PUSHFLT, 0, 0, [.float z]⟩]⟩ := fun z => by
    refine typed_of fun ins hi => ?_
    have := List.mem_singleton.1 hi
    subst this
    refine ⟨rfl, fun j t w ht hw => ?_⟩
    match j, ht, hw with
    | 0, ht, hw => cases ht; cases hw; trivial
    | j + 1, ht, hw => simp [optypes] at ht
  have := h ⟨[], [⟨.PUSHFLT, 0, 0, [.float x]⟩]⟩ ⟨[], [⟨.PUSHFLT, 0, 0, [.float y]⟩]⟩ (ty x) (ty y)
    (by show lld 0 ++ [58, 32] ++ opName .PUSHFLT ++ [32] ++ ((fl x ++ [32]) ++ []) ++ [10] ++ [] = _
        rw [hf]; rfl) 0
  have e : some (Opcode.PUSHFLT, [FOpd.float x]) = some (Opcode.PUSHFLT, [FOpd.float y]) := this
  injection e with e; injection e with _ e; injection e with e _; injection e with e
  exact hxy e

/-- A listing: the conditions of the theorems hold and two lines are written. -/
example : dump (fun _ => [48]) ⟨[120, 0], [⟨.CHECKTYPE, 0, 0, [.int (-12), .int 0]⟩, ⟨.EXIT, 0, 0, []⟩]⟩ =
    bytes "0: CHECKTYPE -12 [x] \n1: EXIT \n" := by decide +kernel

example : Typed twoStrings ∧ OneLine twoStrings := by
  refine ⟨typed_str (l := [0, 2]), ?_⟩
  intro i op as s hf hs
  match i with
  | 0 => 
    cases hf
    have := List.mem_singleton.1 hs
    injection this with this
    subst this
    decide +kernel
  | 1 => 
    cases hf
    have := List.mem_singleton.1 hs
    injection this with this
    subst this
    decide +kernel
  | i + 2 => cases hf

end Noja.Asm
