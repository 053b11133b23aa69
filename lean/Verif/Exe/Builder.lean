import Verif.Exe.Model

/-! # What is appended to an executable is what is fetched (C11) -/

namespace Noja.Exe

set_option linter.unusedSimpArgs false

/-! ## Statement -/

/-- What is done to a builder. -/
inductive Ev where
  | append (op : Opcode) (opv : List Opd) (off len : Int) (room : Bool)
  | resolve (l : Nat) (v : Int)

/-- Does everything, until an append fails. -/
def build : List Ev → Builder → Builder × Bool
  | [], b => (b, true)
  | .append op opv off len room :: evs, b =>
    match append op opv off len room b with
    | (b, true) => build evs b
    | (b, false) => (b, false)
  | .resolve l v :: evs, b => build evs (resolve l v b)

/-- An appended instruction. -/
structure App where
  op : Opcode
  opv : List Opd
  off : Int
  len : Int

/-- The appended instructions in order. -/
def appends : List Ev → List App
  | [] => []
  | .append op opv off len _ :: evs => ⟨op, opv, off, len⟩ :: appends evs
  | .resolve _ _ :: evs => appends evs

/-- The labels given values, with the values. -/
def given : List Ev → List (Nat × Int)
  | [] => []
  | .append .. :: evs => given evs
  | .resolve l v :: evs => (l, v) :: given evs

/-- The operand that `o`, of type `t`, stands for. -/
def opdValue (env : List (Nat × Int)) (t : OpType) (o : Opd) : FOpd :=
  match o with
  | .idx v => .idx v
  | .int v => .int v
  | .float x => .float x
  | .str s => .str s
  | .promise l =>
    match env.lookup l, t with
    | some v, .idx => .idx v
    | some v, .float => .float (BitVec.ofInt 64 v)
    | some v, _ => .int v
    | none, _ => .int 0

/-- The strings of the appended instructions are C strings. -/
def CStrings (as : List App) : Prop :=
  ∀ a ∈ as, ∀ s, Opd.str s ∈ a.opv → (0 : UInt8) ∉ s

/-- Every label used has been given a value. -/
def AllGiven (as : List App) (env : List (Nat × Int)) : Prop :=
  ∀ a ∈ as, ∀ l, Opd.promise l ∈ a.opv → ∃ v, (l, v) ∈ env

/-! ## Invariant -/

def StrAt (data : List UInt8) (off : Nat) (s : List UInt8) : Prop :=
  ∃ a c, data = a ++ (s ++ [0]) ++ c ∧ a.length = off

/-- Slot contents that go with an operand. -/
def Fits (b : Builder) (o : Opd) (w : Word) : Prop :=
  match o with
  | .idx v => w = .int v
  | .int v => w = .int v
  | .float x => w = .float x
  | .str s => ∃ off : Nat, w = .int off ∧ StrAt b.data off s
  | .promise l => ∀ v, (b.proms l).val = some v → w = .int v

def isOpen (b : Builder) (o : Opd) : Bool :=
  match o with
  | .promise l => (b.proms l).val.isNone
  | _ => false

def allOpds (as : List App) : List Opd := as.flatMap App.opv

/-- The builder after the appends `as`; the last one may be only partly done. -/
structure Inv (b : Builder) (as : List App) : Prop where
  len : b.code.length = as.length
  ins : ∀ (k : Nat) (a : App), as[k]? = some a → ∃ i : Ins, b.code[k]? = some i ∧ i.op = a.op ∧ i.off = a.off ∧
    i.len = a.len ∧ i.ops.length = (optypes a.op).length ∧
    ∀ (j : Nat) o, a.opv[j]? = some o → ∃ w, i.ops[j]? = some w ∧ Fits b o w
  gaps : ∀ l, (b.proms l).val = none → ∀ (k j : Nat),
    (k, j) ∈ (b.proms l).gaps ↔ ∃ a : App, as[k]? = some a ∧ a.opv[j]? = some (.promise l)
  count : ∀ l, (b.proms l).val = none →
    (b.proms l).gaps.length = (allOpds as).countP (fun o => o = .promise l)
  empty : ∀ l, (b.proms l).val ≠ none → (b.proms l).gaps = []
  promc : b.promc = (allOpds as).countP (isOpen b)

theorem inv_new : Inv new [] := by
  constructor <;> simp [new, allOpds]

theorem setSlot_length (code : List Ins) (k i : Nat) (w : Word) :
    (setSlot code k i w).length = code.length := by simp [setSlot]

theorem setSlot_get (code : List Ins) (k i : Nat) (w : Word) (k' : Nat) :
    (setSlot code k i w)[k']? =
      if k = k' then (code[k']?).map (fun ins => { ins with ops := ins.ops.set i w })
      else code[k']? := by
  unfold setSlot
  rw [List.getElem?_modify]
  by_cases h : k = k'
  · subst h; simp
  · simp [h]

theorem Fits.mono {b b' : Builder} {o : Opd} {w : Word} (h : Fits b o w)
    (hd : ∃ d, b'.data = b.data ++ d)
    (hp : ∀ l v, (b'.proms l).val = some v → (b.proms l).val = some v) : Fits b' o w := by
  cases o with
  | str s =>
    obtain ⟨off, rfl, a, c, hs, ha⟩ := h
    obtain ⟨d, hd⟩ := hd
    exact ⟨off, rfl, a, c ++ d, by rw [hd, hs]; simp, ha⟩
  | promise l => exact fun v hv => h v (hp l v hv)
  | _ => exact h

/-- Adding one operand to the last instruction. -/
theorem inv_step {b b' : Builder} {as : List App} {a : App} {o : Opd} {w : Word}
    (h : Inv b (as ++ [a])) (hlen : a.opv.length < (optypes a.op).length)
    (hcode : b'.code = setSlot b.code as.length a.opv.length w ∨
      (b'.code = b.code ∧ ∃ l, o = .promise l ∧ (b.proms l).val = none))
    (hd : ∃ d, b'.data = b.data ++ d)
    (hval : ∀ l, (b'.proms l).val = (b.proms l).val)
    (hfit : (∀ l, o ≠ .promise l ∨ (b.proms l).val ≠ none) → Fits b' o w)
    (hgaps : ∀ l, (b'.proms l).gaps =
      if o = .promise l ∧ (b.proms l).val = none then (as.length, a.opv.length) :: (b.proms l).gaps
      else (b.proms l).gaps)
    (hprom : b'.promc = b.promc + if isOpen b o then 1 else 0) :
    Inv b' (as ++ [{ a with opv := a.opv ++ [o] }]) := by
  have hgetA : ∀ (k : Nat) x, (as ++ [{ a with opv := a.opv ++ [o] }])[k]? = some x →
      (k < as.length ∧ as[k]? = some x) ∨ (k = as.length ∧ x = { a with opv := a.opv ++ [o] }) := by
    intro k x hx
    rcases Nat.lt_or_ge k as.length with hk | hk
    · rw [List.getElem?_append_left hk] at hx
      exact .inl ⟨hk, hx⟩
    · rw [List.getElem?_append_right hk] at hx
      have : k - as.length = 0 := by
        rcases Nat.eq_zero_or_pos (k - as.length) with h | h
        · exact h
        · rw [List.getElem?_eq_none (by simp; omega)] at hx; simp at hx
      rw [this] at hx
      simp at hx
      exact .inr ⟨by omega, hx.symm⟩
  have hold : ∀ (k : Nat) x, k < as.length → as[k]? = some x → (as ++ [a])[k]? = some x := by
    intro k x hk hx
    rw [List.getElem?_append_left hk]; exact hx
  have hlast : (as ++ [a])[as.length]? = some a := by simp
  have hp : ∀ l v, (b'.proms l).val = some v → (b.proms l).val = some v := by
    intro l v hv; rw [← hval]; exact hv
  have hopen : isOpen b' = isOpen b := by
    funext x
    unfold isOpen
    cases x <;> simp [hval]
  have hall : allOpds (as ++ [{ a with opv := a.opv ++ [o] }]) = allOpds (as ++ [a]) ++ [o] := by
    simp [allOpds]
  have hblen : b'.code.length = b.code.length := by
    rcases hcode with hc | ⟨hc, -⟩
    · rw [hc, setSlot_length]
    · rw [hc]
  refine ⟨?_, ?_, ?_, ?_, ?_, ?_⟩
  · rw [hblen, h.len]; simp
  · intro k x hx
    rcases hgetA k x hx with ⟨hk, hx⟩ | ⟨rfl, rfl⟩
    · obtain ⟨i, h1, h2, h3, h4, h5, h6⟩ := h.ins k x (hold k x hk hx)
      refine ⟨i, ?_, h2, h3, h4, h5, fun j o' ho => ?_⟩
      · rcases hcode with hc | ⟨hc, -⟩
        · rw [hc, setSlot_get, if_neg (by omega), h1]
        · rw [hc, h1]
      · obtain ⟨w', hw, hf⟩ := h6 j o' ho
        exact ⟨w', hw, hf.mono hd hp⟩
    · obtain ⟨i, h1, h2, h3, h4, h5, h6⟩ := h.ins as.length a hlast
      rcases hcode with hc | ⟨hc, l0, rfl, hl0⟩
      · refine ⟨{ i with ops := i.ops.set a.opv.length w }, ?_, h2, h3, h4, by simpa using h5, ?_⟩
        · rw [hc, setSlot_get, if_pos rfl, h1]; rfl
        · intro j o' ho
          simp only at ho ⊢
          rcases Nat.lt_or_ge j a.opv.length with hj | hj
          · rw [List.getElem?_append_left hj] at ho
            obtain ⟨w', hw, hf⟩ := h6 j o' ho
            refine ⟨w', ?_, hf.mono hd hp⟩
            rw [List.getElem?_set_ne (by omega)]; exact hw
          · rw [List.getElem?_append_right hj] at ho
            have hz : j - a.opv.length = 0 := by
              rcases Nat.eq_zero_or_pos (j - a.opv.length) with h | h
              · exact h
              · rw [List.getElem?_eq_none (by simp; omega)] at ho; simp at ho
            rw [hz] at ho
            simp at ho
            subst ho
            have hj' : j = a.opv.length := by omega
            subst hj'
            by_cases hop : ∃ l, o = .promise l ∧ (b.proms l).val = none
            · obtain ⟨l, rfl, hl⟩ := hop
              refine ⟨w, by rw [List.getElem?_set_self (by omega)], ?_⟩
              intro v hv
              rw [hval, hl] at hv
              simp at hv
            · refine ⟨w, by rw [List.getElem?_set_self (by omega)], hfit ?_⟩
              intro l
              by_cases hol : o = .promise l
              · exact .inr fun hn => hop ⟨l, hol, hn⟩
              · exact .inl hol
      · refine ⟨i, by rw [hc]; exact h1, h2, h3, h4, h5, ?_⟩
        intro j o' ho
        simp only at ho
        rcases Nat.lt_or_ge j a.opv.length with hj | hj
        · rw [List.getElem?_append_left hj] at ho
          obtain ⟨w', hw, hf⟩ := h6 j o' ho
          exact ⟨w', hw, hf.mono hd hp⟩
        · rw [List.getElem?_append_right hj] at ho
          have hz : j - a.opv.length = 0 := by
            rcases Nat.eq_zero_or_pos (j - a.opv.length) with h | h
            · exact h
            · rw [List.getElem?_eq_none (by simp; omega)] at ho; simp at ho
          rw [hz] at ho
          simp at ho
          subst ho
          have hj' : j = a.opv.length := by omega
          subst hj'
          have hlt : a.opv.length < i.ops.length := by omega
          refine ⟨i.ops[a.opv.length], by simp [hlt], ?_⟩
          intro v hv
          rw [hval, hl0] at hv
          simp at hv
  · intro l hl k j
    rw [hval] at hl
    rw [hgaps]
    have hiff : (∃ x : App, (as ++ [{ a with opv := a.opv ++ [o] }])[k]? = some x ∧
        x.opv[j]? = some (.promise l)) ↔
        (∃ x : App, (as ++ [a])[k]? = some x ∧ x.opv[j]? = some (.promise l)) ∨
        (k = as.length ∧ j = a.opv.length ∧ o = .promise l) := by
      constructor
      · rintro ⟨x, hx, hj⟩
        rcases hgetA k x hx with ⟨hk, hx⟩ | ⟨rfl, rfl⟩
        · exact .inl ⟨x, hold k x hk hx, hj⟩
        · simp only at hj
          rcases Nat.lt_or_ge j a.opv.length with hjl | hjl
          · rw [List.getElem?_append_left hjl] at hj
            exact .inl ⟨a, hlast, hj⟩
          · rw [List.getElem?_append_right hjl] at hj
            have hz : j - a.opv.length = 0 := by
              rcases Nat.eq_zero_or_pos (j - a.opv.length) with h | h
              · exact h
              · rw [List.getElem?_eq_none (by simp; omega)] at hj; simp at hj
            rw [hz] at hj
            simp at hj
            exact .inr ⟨rfl, by omega, hj⟩
      · rintro (⟨x, hx, hj⟩ | ⟨rfl, rfl, rfl⟩)
        · rcases Nat.lt_or_ge k as.length with hk | hk
          · rw [List.getElem?_append_left hk] at hx
            exact ⟨x, by rw [List.getElem?_append_left hk]; exact hx, hj⟩
          · have hk' : k = as.length := by
              rcases Nat.eq_or_lt_of_le hk with h | h
              · exact h.symm
              · rw [List.getElem?_eq_none (by simp; omega)] at hx; simp at hx
            subst hk'
            rw [hlast] at hx
            cases hx
            refine ⟨_, by simp; rfl, ?_⟩
            simp only
            have hjl : j < a.opv.length := by
              rcases Nat.lt_or_ge j a.opv.length with h | h
              · exact h
              · rw [List.getElem?_eq_none h] at hj; simp at hj
            rw [List.getElem?_append_left hjl]; exact hj
        · exact ⟨_, by simp; rfl, by simp⟩
    rw [hiff, ← h.gaps l hl k j]
    by_cases ho : o = .promise l
    · rw [if_pos ⟨ho, hl⟩, List.mem_cons, Prod.mk.injEq]
      constructor
      · rintro (⟨h1, h2⟩ | h)
        · exact .inr ⟨h1, h2, ho⟩
        · exact .inl h
      · rintro (h | ⟨h1, h2, -⟩)
        · exact .inr h
        · exact .inl ⟨h1, h2⟩
    · rw [if_neg (fun h => ho h.1)]
      constructor
      · exact fun h => .inl h
      · rintro (h | ⟨-, -, h⟩)
        · exact h
        · exact absurd h ho
  · intro l hl
    rw [hval] at hl
    rw [hgaps, hall, List.countP_append, ← h.count l hl]
    by_cases ho : o = .promise l
    · rw [if_pos ⟨ho, hl⟩]; simp [ho]
    · rw [if_neg (fun h => ho h.1)]; simp [ho]
  · intro l hl
    rw [hval] at hl
    rw [hgaps, if_neg (fun h => hl h.2)]
    exact h.empty l hl
  · rw [hprom, hopen, hall, List.countP_append, h.promc]
    by_cases ho : isOpen b o = true
    · simp [ho]
    · simp [ho]

/-- One operand. -/
theorem storeOps_one {t : OpType} {ts : List OpType} {o : Opd} {os : List Opd} {b b' : Builder}
    {as : List App} {a : App} (h : Inv b (as ++ [a])) (hlt : a.opv.length < (optypes a.op).length)
    (hs : storeOps as.length a.opv.length (t :: ts) (o :: os) b = (b', true)) :
    ∃ b1, Inv b1 (as ++ [{ a with opv := a.opv ++ [o] }]) ∧
      (∀ l, (b1.proms l).val = (b.proms l).val) ∧
      storeOps as.length (a.opv.length + 1) ts os b1 = (b', true) := by
  have hrec : ∀ b1 : Builder, Inv b1 (as ++ [{ a with opv := a.opv ++ [o] }]) →
      (∀ l, (b1.proms l).val = (b.proms l).val) →
      storeOps as.length (a.opv.length + 1) ts os b1 = (b', true) →
      ∃ b1, Inv b1 (as ++ [{ a with opv := a.opv ++ [o] }]) ∧
      (∀ l, (b1.proms l).val = (b.proms l).val) ∧
      storeOps as.length (a.opv.length + 1) ts os b1 = (b', true) :=
    fun b1 h1 h2 h3 => ⟨b1, h1, h2, h3⟩
  cases o with
  | promise l =>
    simp only [storeOps] at hs
    by_cases ht : t = .str
    · rw [if_pos ht] at hs; simp at hs
    · rw [if_neg ht] at hs
      cases hp : (b.proms l).val with
      | none =>
        rw [hp] at hs
        refine hrec _ ?_ ?_ hs
        · refine inv_step (w := .junk) h hlt (.inr ⟨rfl, l, rfl, hp⟩) ⟨[], by simp⟩ ?_ ?_ ?_ ?_
          · intro x
            by_cases hx : x = l
            · simp [hx, hp]
            · simp [hx]
          · intro hno
            rcases hno l with h | h
            · exact absurd rfl h
            · exact absurd hp h
          · intro x
            by_cases hx : x = l
            · simp [hx, hp]
            · have : l ≠ x := fun h => hx h.symm
              simp [hx, this]
          · simp [isOpen, hp]
        · intro x
          by_cases hx : x = l
          · simp [hx, hp]
          · simp [hx]
      | some v =>
        rw [hp] at hs
        refine hrec _ ?_ ?_ hs
        rotate_left
        · exact fun _ => rfl
        refine inv_step (w := .int v) h hlt (.inl rfl) ⟨[], by simp⟩ (fun _ => rfl) ?_ ?_ ?_
        · intro _ v' hv'
          rw [hp] at hv'
          cases hv'; rfl
        · intro x
          by_cases hx : x = l
          · simp [hx, hp]
          · have : l ≠ x := fun h => hx h.symm
            simp [this]
        · simp [isOpen, hp]
  | str s =>
    simp only [storeOps] at hs
    by_cases ht : t = .str
    · rw [if_neg (by simpa using ht)] at hs
      refine hrec _ ?_ ?_ hs
      rotate_left
      · exact fun _ => rfl
      refine inv_step (w := .int b.data.length) h hlt (.inl rfl) ⟨_, rfl⟩ (fun _ => rfl) ?_ ?_ ?_
      · exact fun _ => ⟨b.data.length, rfl, b.data, [], by simp, rfl⟩
      · intro x; simp
      · simp [isOpen]
    · rw [if_pos ht] at hs; simp at hs
  | idx v =>
    simp only [storeOps] at hs
    by_cases ht : t = .idx
    · rw [if_neg (by simpa using ht)] at hs
      refine hrec _ ?_ ?_ hs
      rotate_left
      · exact fun _ => rfl
      refine inv_step (w := .int v) h hlt (.inl rfl) ⟨[], by simp⟩ (fun _ => rfl) (fun _ => rfl) ?_ ?_
      · intro x; simp
      · simp [isOpen]
    · rw [if_pos ht] at hs; simp at hs
  | int v =>
    simp only [storeOps] at hs
    by_cases ht : t = .int
    · rw [if_neg (by simpa using ht)] at hs
      refine hrec _ ?_ ?_ hs
      rotate_left
      · exact fun _ => rfl
      refine inv_step (w := .int v) h hlt (.inl rfl) ⟨[], by simp⟩ (fun _ => rfl) (fun _ => rfl) ?_ ?_
      · intro x; simp
      · simp [isOpen]
    · rw [if_pos ht] at hs; simp at hs
  | float v =>
    simp only [storeOps] at hs
    by_cases ht : t = .float
    · rw [if_neg (by simpa using ht)] at hs
      refine hrec _ ?_ ?_ hs
      rotate_left
      · exact fun _ => rfl
      refine inv_step (w := .float v) h hlt (.inl rfl) ⟨[], by simp⟩ (fun _ => rfl) (fun _ => rfl) ?_ ?_
      · intro x; simp
      · simp [isOpen]
    · rw [if_pos ht] at hs; simp at hs

theorem storeOps_inv (ts : List OpType) : ∀ (os : List Opd) (b : Builder) (as : List App) (a : App)
    (b' : Builder), Inv b (as ++ [a]) → ts.length = os.length →
    a.opv.length + ts.length = (optypes a.op).length →
    storeOps as.length a.opv.length ts os b = (b', true) →
    Inv b' (as ++ [{ a with opv := a.opv ++ os }]) ∧
      (∀ l, (b'.proms l).val = (b.proms l).val) := by
  induction ts with
  | nil =>
    intro os b as a b' h hlen hl2 hs
    cases os with
    | cons o os => simp at hlen
    | nil =>
      simp only [storeOps, Prod.mk.injEq] at hs
      obtain ⟨rfl, -⟩ := hs
      exact ⟨by simpa using h, fun _ => rfl⟩
  | cons t ts ih =>
    intro os b as a b' h hlen hl2 hs
    cases os with
    | nil => simp at hlen
    | cons o os =>
      have hlt : a.opv.length < (optypes a.op).length := by
        simp only [List.length_cons] at hl2; omega
      obtain ⟨b1, h1, hv, hs1⟩ := storeOps_one h hlt hs
      have hx : a.opv.length + 1 = (a.opv ++ [o]).length := by simp
      rw [hx] at hs1
      have := ih os b1 as { a with opv := a.opv ++ [o] } b' h1
        (by simpa using hlen)
        (by simp only [List.length_append, List.length_singleton]; simp only [List.length_cons] at hl2; omega)
        hs1
      refine ⟨?_, fun l => (this.2 l).trans (hv l)⟩
      have h2 := this.1
      simp only [List.append_assoc, List.singleton_append] at h2
      exact h2

/-- Operands of an accepted instruction have the right kinds. -/
def kindOk : OpType → Opd → Bool
  | .str, .str _ => true
  | .idx, .idx _ => true
  | .int, .int _ => true
  | .float, .float _ => true
  | .str, .promise _ => false
  | _, .promise _ => true
  | _, _ => false

theorem storeOps_kinds (k : Nat) : ∀ (i : Nat) (ts : List OpType) (os : List Opd) (b b' : Builder),
    ts.length = os.length → storeOps k i ts os b = (b', true) →
    ∀ (j : Nat) t o, ts[j]? = some t → os[j]? = some o → kindOk t o = true
  | i, [], [], _, _, _, _ => by simp
  | i, t :: ts, o :: os, b, b', hlen, hs => by
    have hlen' : ts.length = os.length := by simpa using hlen
    have key : kindOk t o = true ∧ ∃ b1, storeOps k (i + 1) ts os b1 = (b', true) := by
      cases o with
      | promise l =>
        simp only [storeOps] at hs
        by_cases ht : t = .str
        · rw [if_pos ht] at hs; simp at hs
        · rw [if_neg ht] at hs
          refine ⟨by cases t <;> simp_all [kindOk], ?_⟩
          cases hp : (b.proms l).val <;> rw [hp] at hs <;> exact ⟨_, hs⟩
      | str s =>
        simp only [storeOps] at hs
        by_cases ht : t = .str
        · rw [if_neg (by simpa using ht)] at hs
          exact ⟨by subst ht; rfl, _, hs⟩
        · rw [if_pos ht] at hs; simp at hs
      | idx s =>
        simp only [storeOps] at hs
        by_cases ht : t = .idx
        · rw [if_neg (by simpa using ht)] at hs
          exact ⟨by subst ht; rfl, _, hs⟩
        · rw [if_pos ht] at hs; simp at hs
      | int s =>
        simp only [storeOps] at hs
        by_cases ht : t = .int
        · rw [if_neg (by simpa using ht)] at hs
          exact ⟨by subst ht; rfl, _, hs⟩
        · rw [if_pos ht] at hs; simp at hs
      | float s =>
        simp only [storeOps] at hs
        by_cases ht : t = .float
        · rw [if_neg (by simpa using ht)] at hs
          exact ⟨by subst ht; rfl, _, hs⟩
        · rw [if_pos ht] at hs; simp at hs
    obtain ⟨h1, b1, h2⟩ := key
    intro j t' o' ht ho
    cases j with
    | zero =>
      simp at ht ho
      subst ht ho
      exact h1
    | succ j =>
      simp at ht ho
      exact storeOps_kinds k (i + 1) ts os b1 b' hlen' h2 j t' o' ht ho

theorem append_inv {b b' : Builder} {as : List App} {op : Opcode} {opv : List Opd} {off len : Int}
    {room : Bool} (h : Inv b as) (hs : append op opv off len room b = (b', true)) :
    Inv b' (as ++ [⟨op, opv, off, len⟩]) ∧ (∀ l, (b'.proms l).val = (b.proms l).val) ∧
    opv.length = (optypes op).length ∧
    ∀ (j : Nat) t o, (optypes op)[j]? = some t → opv[j]? = some o → kindOk t o = true := by
  unfold append at hs
  by_cases hl : opv.length = (optypes op).length
  · rw [if_neg (by simpa using hl)] at hs
    cases room with
    | false => simp at hs
    | true =>
      simp only [Bool.true_eq_false, if_false] at hs
      have h0 : Inv { b with code := b.code ++ [⟨op, off, len, List.replicate (optypes op).length .junk⟩] }
          (as ++ [⟨op, [], off, len⟩]) := by
        have hlen := h.len
        refine ⟨by simp [hlen], ?_, ?_, ?_, h.empty, ?_⟩
        · intro k a ha
          rcases Nat.lt_or_ge k as.length with hk | hk
          · rw [List.getElem?_append_left hk] at ha
            obtain ⟨i, h1, h2, h3, h4, h5, h6⟩ := h.ins k a ha
            refine ⟨i, ?_, h2, h3, h4, h5, ?_⟩
            · simp only
              rw [List.getElem?_append_left (by omega)]; exact h1
            · intro j o ho
              obtain ⟨w, hw, hf⟩ := h6 j o ho
              exact ⟨w, hw, hf.mono ⟨[], by simp⟩ fun _ _ h => h⟩
          · rw [List.getElem?_append_right hk] at ha
            have hz : k - as.length = 0 := by
              rcases Nat.eq_zero_or_pos (k - as.length) with h | h
              · exact h
              · rw [List.getElem?_eq_none (by simp; omega)] at ha; simp at ha
            have hk' : k = as.length := by omega
            subst hk'
            simp at ha
            subst ha
            refine ⟨⟨op, off, len, List.replicate (optypes op).length .junk⟩, ?_, rfl, rfl, rfl, by simp, by simp⟩
            simp only [← hlen]; simp
        · intro l hl k j
          rw [h.gaps l hl k j]
          constructor
          · rintro ⟨a, ha, hj⟩
            have hk : k < as.length := by
              rcases Nat.lt_or_ge k as.length with h | h
              · exact h
              · rw [List.getElem?_eq_none h] at ha; simp at ha
            exact ⟨a, by rw [List.getElem?_append_left hk]; exact ha, hj⟩
          · rintro ⟨a, ha, hj⟩
            rcases Nat.lt_or_ge k as.length with hk | hk
            · rw [List.getElem?_append_left hk] at ha
              exact ⟨a, ha, hj⟩
            · rw [List.getElem?_append_right hk] at ha
              have hz : k - as.length = 0 := by
                rcases Nat.eq_zero_or_pos (k - as.length) with h | h
                · exact h
                · rw [List.getElem?_eq_none (by simp; omega)] at ha; simp at ha
              rw [hz] at ha
              simp at ha
              subst ha
              simp at hj
        · intro l hl
          rw [h.count l hl]; simp [allOpds]
        · rw [h.promc]
          have : allOpds (as ++ [⟨op, [], off, len⟩]) = allOpds as := by simp [allOpds]
          rw [this]; rfl
      have hk := storeOps_kinds _ _ _ _ _ _ hl.symm hs
      have := storeOps_inv (optypes op) opv _ as ⟨op, [], off, len⟩ b' h0 hl.symm (by simp)
        (by rw [h.len] at hs; exact hs)
      exact ⟨by simpa using this.1, this.2, hl, hk⟩
  · rw [if_pos hl] at hs; simp at hs

/-- Writing the same value into several slots. -/
theorem foldl_setSlot (v : Int) : ∀ (gs : List (Nat × Nat)) (code : List Ins),
    (gs.foldl (fun c g => setSlot c g.1 g.2 (.int v)) code).length = code.length ∧
    ∀ (k : Nat) i, code[k]? = some i →
      ∃ i', (gs.foldl (fun c g => setSlot c g.1 g.2 (.int v)) code)[k]? = some i' ∧ i'.op = i.op ∧
        i'.off = i.off ∧ i'.len = i.len ∧ i'.ops.length = i.ops.length ∧
        ∀ (j : Nat) w, i.ops[j]? = some w → i'.ops[j]? = some (if (k, j) ∈ gs then .int v else w)
  | [], code => ⟨rfl, fun k i hi => ⟨i, hi, rfl, rfl, rfl, rfl, fun j w hw => by simpa using hw⟩⟩
  | g :: gs, code => by
    obtain ⟨hl, hg⟩ := foldl_setSlot v gs (setSlot code g.1 g.2 (.int v))
    refine ⟨by simp only [List.foldl_cons]; rw [hl, setSlot_length], ?_⟩
    intro k i hi
    simp only [List.foldl_cons]
    by_cases hk : g.1 = k
    · have h1 : (setSlot code g.1 g.2 (.int v))[k]? = some { i with ops := i.ops.set g.2 (.int v) } := by
        rw [setSlot_get, if_pos hk, hi]; rfl
      obtain ⟨i', e1, e2, e3, e4, e5, e6⟩ := hg k _ h1
      refine ⟨i', e1, e2, e3, e4, by simpa using e5, ?_⟩
      intro j w hw
      by_cases hj : g.2 = j
      · have hjl : j < i.ops.length := by
          rcases Nat.lt_or_ge j i.ops.length with h | h
          · exact h
          · rw [List.getElem?_eq_none h] at hw; simp at hw
        rw [e6 j (.int v) (by simp only; rw [hj, List.getElem?_set_self hjl])]
        have : (k, j) ∈ g :: gs := by
          rw [← hk, ← hj]; exact List.mem_cons_self
        rw [if_pos this]; simp
      · rw [e6 j w (by simp only; rw [List.getElem?_set_ne hj]; exact hw)]
        have : (k, j) ∈ g :: gs ↔ (k, j) ∈ gs := by
          simp only [List.mem_cons]
          constructor
          · rintro (h | h)
            · exact absurd (by rw [← h]) hj
            · exact h
          · exact .inr
        simp only [this]
    · have h1 : (setSlot code g.1 g.2 (.int v))[k]? = some i := by
        rw [setSlot_get, if_neg hk, hi]
      obtain ⟨i', e1, e2, e3, e4, e5, e6⟩ := hg k _ h1
      refine ⟨i', e1, e2, e3, e4, e5, ?_⟩
      intro j w hw
      rw [e6 j w hw]
      have : (k, j) ∈ g :: gs ↔ (k, j) ∈ gs := by
        simp only [List.mem_cons]
        constructor
        · rintro (h | h)
          · exact absurd (by rw [← h]) hk
          · exact h
        · exact .inr
      simp only [this]

theorem resolve_inv {b : Builder} {as : List App} {l : Nat} {v : Int} (h : Inv b as)
    (hl : (b.proms l).val = none) : Inv (resolve l v b) as := by
  obtain ⟨flen, fget⟩ := foldl_setSlot v (b.proms l).gaps b.code
  refine ⟨?_, ?_, ?_, ?_, ?_, ?_⟩
  · simp only [resolve]; rw [flen, h.len]
  · intro k a ha
    obtain ⟨i, h1, h2, h3, h4, h5, h6⟩ := h.ins k a ha
    obtain ⟨i', e1, e2, e3, e4, e5, e6⟩ := fget k i h1
    refine ⟨i', e1, e2.trans h2, e3.trans h3, e4.trans h4, e5.trans h5, ?_⟩
    intro j o ho
    obtain ⟨w, hw, hf⟩ := h6 j o ho
    refine ⟨_, e6 j w hw, ?_⟩
    by_cases hol : o = .promise l
    · have hm : (k, j) ∈ (b.proms l).gaps := (h.gaps l hl k j).2 ⟨a, ha, by rw [ho, hol]⟩
      rw [if_pos hm, hol]
      intro v' hv'
      simp only [resolve, if_true] at hv'
      cases hv'; rfl
    · have hm : (k, j) ∉ (b.proms l).gaps := by
        intro hm
        obtain ⟨a', ha', hj⟩ := (h.gaps l hl k j).1 hm
        rw [ha] at ha'
        cases ha'
        rw [ho] at hj
        cases hj
        exact hol rfl
      rw [if_neg hm]
      cases o with
      | promise l' =>
        intro v' hv'
        have hne : l' ≠ l := fun e => hol (by rw [e])
        simp only [resolve, if_neg hne] at hv'
        exact hf v' hv'
      | str s => exact hf
      | idx s => exact hf
      | int s => exact hf
      | float s => exact hf
  · intro x hx k j
    have hne : x ≠ l := by
      intro e
      simp [resolve, e] at hx
    simp only [resolve, if_neg hne] at hx ⊢
    exact h.gaps x hx k j
  · intro x hx
    have hne : x ≠ l := by
      intro e
      simp [resolve, e] at hx
    simp only [resolve, if_neg hne] at hx ⊢
    exact h.count x hx
  · intro x hx
    by_cases hne : x = l
    · simp [resolve, hne]
    · simp only [resolve, if_neg hne] at hx ⊢
      exact h.empty x hx
  · have hcnt : ∀ os : List Opd, (os.countP (isOpen (resolve l v b)) : Int) =
        os.countP (isOpen b) - os.countP (fun o => o = .promise l) := by
      intro os
      induction os with
      | nil => simp
      | cons o os ih =>
        have hop : isOpen (resolve l v b) o = (isOpen b o && !decide (o = .promise l)) := by
          cases o with
          | promise l' =>
            by_cases hne : l' = l
            · simp [isOpen, resolve, hne, hl]
            · simp [isOpen, resolve, hne]
          | _ => simp [isOpen]
        have hsub : o = .promise l → isOpen b o = true := by
          intro e; subst e; simp [isOpen, hl]
        simp only [List.countP_cons, hop]
        by_cases e : o = .promise l
        · have h1 := hsub e
          subst e
          simp [h1]
          omega
        · by_cases e2 : isOpen b o = true
          · simp [e, e2]; omega
          · simp [e, e2]; omega
    simp only [resolve]
    have := hcnt (allOpds as)
    simp only [resolve] at this
    rw [this, h.promc, h.count l hl]

theorem build_inv : ∀ (evs : List Ev) (b b' : Builder) (as : List App) (env : List (Nat × Int)),
    Inv b as → build evs b = (b', true) →
    (∀ l v, (b.proms l).val = some v ↔ env.lookup l = some v) →
    ((given evs).map Prod.fst).Nodup → (∀ l ∈ (given evs).map Prod.fst, env.lookup l = none) →
    Inv b' (as ++ appends evs) ∧
    (∀ l v, (b'.proms l).val = some v ↔ (env ++ given evs).lookup l = some v) ∧
    (∀ a ∈ appends evs, a.opv.length = (optypes a.op).length ∧
      ∀ (j : Nat) t o, (optypes a.op)[j]? = some t → a.opv[j]? = some o → kindOk t o = true)
  | [], b, b', as, env, h, hb, hv, _, _ => by
    simp only [build, Prod.mk.injEq] at hb
    obtain ⟨rfl, -⟩ := hb
    exact ⟨by simpa [appends] using h, by simpa [given] using hv, by simp [appends]⟩
  | .append op opv off len room :: evs, b, b', as, env, h, hb, hv, hn, hd => by
    simp only [build] at hb
    cases ha : append op opv off len room b with
    | mk b1 r =>
      rw [ha] at hb
      cases r with
      | false => simp at hb
      | true =>
        obtain ⟨h1, h2, h3, h4⟩ := append_inv h ha
        have := build_inv evs b1 b' _ env h1 hb (fun l v => by rw [h2]; exact hv l v)
          (by simpa [given] using hn) (by simpa [given] using hd)
        refine ⟨by simpa [appends] using this.1, by simpa [given] using this.2.1, ?_⟩
        intro a hm
        simp only [appends, List.mem_cons] at hm
        rcases hm with rfl | hm
        · exact ⟨h3, h4⟩
        · exact this.2.2 a hm
  | .resolve l v :: evs, b, b', as, env, h, hb, hv, hn, hd => by
    simp only [build] at hb
    have hl : (b.proms l).val = none := by
      cases hp : (b.proms l).val with
      | none => rfl
      | some x =>
        have := (hv l x).1 hp
        rw [hd l (by simp [given])] at this
        simp at this
    have hlk : env.lookup l = none := hd l (by simp [given])
    simp only [given, List.map_cons, List.nodup_cons] at hn
    have := build_inv evs _ b' as (env ++ [(l, v)]) (resolve_inv (v := v) h hl) hb
      (by
        intro x y
        by_cases hx : x = l
        · subst hx
          simp [resolve, List.lookup_append, hlk]
        · simp only [resolve, if_neg hx, hv, List.lookup_append]
          have : List.lookup x [(l, v)] = none := by
            have hne : (x == l) = false := by simpa using hx
            simp [List.lookup, hne]
          rw [this]; simp)
      hn.2
      (by
        intro x hx
        have hne : x ≠ l := fun e => hn.1 (e ▸ hx)
        have h1 := hd x (by simp only [given, List.map_cons]; exact List.mem_cons_of_mem _ hx)
        have hne' : (x == l) = false := by simpa using hne
        simp [List.lookup_append, h1, List.lookup, hne'])
    refine ⟨by simpa [appends] using this.1, ?_, by simpa [appends] using this.2.2⟩
    simpa [given] using this.2.1

/-! ## C11 -/

theorem cstr_of_strAt {data : List UInt8} {off : Nat} {s : List UInt8} (h : StrAt data off s)
    (hs : (0 : UInt8) ∉ s) : cstr data off = s := by
  obtain ⟨a, c, rfl, rfl⟩ := h
  unfold cstr
  have : (a ++ (s ++ [0]) ++ c).drop (a.length : Int).toNat = s ++ ([0] ++ c) := by
    simp
  rw [this, List.takeWhile_append_of_pos]
  · simp
  · intro x hx
    simp only [ne_eq, decide_not, Bool.not_eq_true', decide_eq_false_iff_not]
    exact fun e => hs (e ▸ hx)

/-- Building succeeded, the strings are C strings and no label was given a value twice; then every
instruction can be fetched, with what its operands stand for. -/
theorem C11_fetch (evs : List Ev) (b : Builder) (e : Executable)
    (hb : build evs new = (b, true)) (hf : finalize b = some e)
    (hs : CStrings (appends evs)) (hn : ((given evs).map Prod.fst).Nodup) (i : Nat) :
    fetch e i = ((appends evs)[i]?).map fun a =>
      (a.op, List.zipWith (opdValue (given evs)) (optypes a.op) a.opv) := by
  obtain ⟨h, hv, hk⟩ := build_inv evs new b [] [] inv_new hb (by simp [new]) hn (by simp)
  simp only [List.nil_append] at h hv
  have he : e = ⟨b.data, b.code⟩ := by
    unfold finalize at hf
    by_cases hp : b.promc > 0
    · rw [if_pos hp] at hf; simp at hf
    · rw [if_neg hp] at hf
      simpa using hf.symm
  have hclosed : ∀ o ∈ allOpds (appends evs), isOpen b o = false := by
    have h0 : (allOpds (appends evs)).countP (isOpen b) = 0 := by
      unfold finalize at hf
      by_cases hp : b.promc > 0
      · rw [if_pos hp] at hf; simp at hf
      · have := h.promc; omega
    rw [List.countP_eq_zero] at h0
    intro o ho
    simpa using h0 o ho
  subst he
  unfold fetch
  simp only
  cases ha : (appends evs)[i]? with
  | none =>
    have : b.code[i]? = none := by
      rw [List.getElem?_eq_none_iff] at ha ⊢
      rw [h.len]; exact ha
    rw [this]; rfl
  | some a =>
    obtain ⟨ins, h1, h2, h3, h4, h5, h6⟩ := h.ins i a ha
    have ham : a ∈ appends evs := List.mem_of_getElem? ha
    obtain ⟨hl, hkind⟩ := hk a ham
    rw [h1]
    simp only [Option.map_some, h2]
    congr 2
    apply List.ext_getElem?
    intro j
    rw [List.getElem?_zipWith, List.getElem?_zipWith]
    cases ht : (optypes a.op)[j]? with
    | none => simp
    | some t =>
      have hj : j < a.opv.length := by
        rw [hl]
        rcases Nat.lt_or_ge j (optypes a.op).length with h | h
        · exact h
        · rw [List.getElem?_eq_none h] at ht; simp at ht
      have ho : a.opv[j]? = some a.opv[j] := by simp [hj]
      obtain ⟨w, hw, hfit⟩ := h6 j _ ho
      have hkd := hkind j t _ ht ho
      have hom : a.opv[j] ∈ a.opv := List.getElem_mem hj
      rw [hw, ho]
      simp only [Option.some.injEq]
      generalize a.opv[j] = o at *
      cases o with
      | idx v => cases hfit; cases t <;> simp_all [kindOk, readOpd, opdValue]
      | int v => cases hfit; cases t <;> simp_all [kindOk, readOpd, opdValue]
      | float v => cases hfit; cases t <;> simp_all [kindOk, readOpd, opdValue]
      | str s =>
        obtain ⟨off, rfl, hat⟩ := hfit
        have := cstr_of_strAt hat (hs a ham s hom)
        cases t <;> simp_all [kindOk, readOpd, opdValue]
      | promise l =>
        have hcl := hclosed (.promise l) (by
          simp only [allOpds, List.mem_flatMap]
          exact ⟨a, ham, hom⟩)
        simp only [isOpen, Option.isNone_eq_false_iff, Option.isSome_iff_exists] at hcl
        obtain ⟨v, hpv⟩ := hcl
        have hw' := hfit v hpv
        have hlk := (hv l v).1 hpv
        subst hw'
        cases t <;> simp_all [kindOk, readOpd, opdValue]

/-- The positions in the source come back as well. -/
theorem C11_positions (evs : List Ev) (b : Builder) (e : Executable)
    (hb : build evs new = (b, true)) (hf : finalize b = some e)
    (hn : ((given evs).map Prod.fst).Nodup) (i : Nat) (a : App) (ha : (appends evs)[i]? = some a) :
    instrOffset e i = a.off ∧ instrLength e i = a.len := by
  obtain ⟨h, -, -⟩ := build_inv evs new b [] [] inv_new hb (by simp [new]) hn (by simp)
  simp only [List.nil_append] at h
  unfold finalize at hf
  by_cases hp : b.promc > 0
  · rw [if_pos hp] at hf; simp at hf
  · rw [if_neg hp] at hf
    cases hf
    obtain ⟨ins, h1, -, h3, h4, -⟩ := h.ins i a ha
    simp [instrOffset, instrLength, h1, h3, h4]

/-- Finalising succeeds exactly when every label used has been given a value. -/
theorem C11_finalize (evs : List Ev) (b : Builder) (hb : build evs new = (b, true))
    (hn : ((given evs).map Prod.fst).Nodup) :
    (finalize b).isSome ↔ AllGiven (appends evs) (given evs) := by
  obtain ⟨h, hv, -⟩ := build_inv evs new b [] [] inv_new hb (by simp [new]) hn (by simp)
  simp only [List.nil_append] at h hv
  have hlk : ∀ l, (∃ v, (given evs).lookup l = some v) ↔ ∃ v, (l, v) ∈ given evs := by
    intro l
    generalize given evs = env
    induction env with
    | nil => simp
    | cons p env ih =>
      obtain ⟨x, y⟩ := p
      by_cases hx : l = x
      · subst hx; simp
      · have hne : (l == x) = false := by simpa using hx
        simp only [List.lookup, hne, List.mem_cons, Prod.mk.injEq, hx, false_and, false_or]
        exact ih
  have h0 : (finalize b).isSome ↔ (allOpds (appends evs)).countP (isOpen b) = 0 := by
    unfold finalize
    have := h.promc
    by_cases hp : b.promc > 0
    · rw [if_pos hp]
      simp only [Option.isSome_none, Bool.false_eq_true, false_iff]
      omega
    · rw [if_neg hp]
      simp only [Option.isSome_some, true_iff]
      omega
  rw [h0, List.countP_eq_zero]
  constructor
  · intro hz a ha l hl
    have := hz (.promise l) (by simp only [allOpds, List.mem_flatMap]; exact ⟨a, ha, hl⟩)
    simp only [isOpen, Bool.not_eq_true, Option.isNone_eq_false_iff, Option.isSome_iff_exists] at this
    obtain ⟨v, hpv⟩ := this
    exact (hlk l).1 ⟨v, (hv l v).1 hpv⟩
  · intro hg o ho
    cases o with
    | promise l =>
      simp only [allOpds, List.mem_flatMap] at ho
      obtain ⟨a, ha, hl⟩ := ho
      obtain ⟨v, hvl⟩ := (hlk l).2 (hg a ha l hl)
      have := (hv l v).2 hvl
      simp [isOpen, this]
    | _ => simp [isOpen]

/-- A program with a string, a forward and a backward jump meets the conditions. -/
example :
    let evs : List Ev := [
      .append .PUSHSTR [.str [104, 105]] 0 4 true,
      .resolve 0 1,
      .append .JUMPIFANDPOP [.promise 1] 5 2 true,
      .append .PUSHFUN [.promise 1, .int 2, .str [102]] 7 9 true,
      .append .JUMP [.promise 0] 16 2 true,
      .resolve 1 4,
      .append .PUSHFLT [.float 0x3ff0000000000000] 18 3 true]
    (build evs new).2 = true ∧
    ((finalize (build evs new).1).map fun e => (List.range 6).map (fetch e)) = some [
      some (.PUSHSTR, [.str [104, 105]]), some (.JUMPIFANDPOP, [.idx 4]),
      some (.PUSHFUN, [.idx 4, .int 2, .str [102]]), some (.JUMP, [.idx 1]),
      some (.PUSHFLT, [.float 0x3ff0000000000000]), none] ∧
    CStrings (appends evs) ∧ ((given evs).map Prod.fst).Nodup := by
  refine ⟨by decide +kernel, by decide +kernel, ?_, by decide⟩
  simp [CStrings, appends]

end Noja.Exe
