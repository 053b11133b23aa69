import Verif.VM.Raw

/-!
# `codegen.c` produces the instructions of `compile`

For every tree that meets the conditions, the labels end up as the right indices; for every other
tree `codegen.c` writes through an uninitialised pointer.
-/

namespace Noja.VM

open Noja.Exe (Opcode Opd FOpd Ev App OpType optypes opdValue given appends kindOk)

set_option linter.unusedSimpArgs false

/-- The opcode and operands of an instruction. -/
def Instr.encode : Instr → Opcode × List FOpd
  | .nope => (.NOPE, [])
  | .un op => (op.opcode, [])
  | .bin op => (op.opcode, [])
  | .ass n => (.ASS, [.str n])
  | .pop n => (.POP, [.int n])
  | .checkType i n => (.CHECKTYPE, [.int i, .str n])
  | .call a w => (.CALL, [.int a, .int w])
  | .select => (.SELECT, [])
  | .select2 => (.SELECT2, [])
  | .insert => (.INSERT, [])
  | .insert2 => (.INSERT2, [])
  | .pushInt v => (.PUSHINT, [.int v])
  | .pushFlt x => (.PUSHFLT, [.float x])
  | .pushStr s => (.PUSHSTR, [.str s])
  | .pushVar n => (.PUSHVAR, [.str n])
  | .pushNne => (.PUSHNNE, [])
  | .pushTru => (.PUSHTRU, [])
  | .pushFls => (.PUSHFLS, [])
  | .pushFun a c n => (.PUSHFUN, [.idx a, .int c, .str n])
  | .pushLst n => (.PUSHLST, [.int n])
  | .pushMap n => (.PUSHMAP, [.int n])
  | .pushNneTyp => (.PUSHNNETYP, [])
  | .pushTyp => (.PUSHTYP, [])
  | .exit => (.EXIT, [])
  | .ret n => (.RETURN, [.int n])
  | .jump a => (.JUMP, [.idx a])
  | .jumpIf a => (.JUMPIFANDPOP, [.idx a])
  | .jumpIfNot a => (.JUMPIFNOTANDPOP, [.idx a])

theorem UnOp.optypes (op : UnOp) : optypes op.opcode = [] := by cases op <;> rfl
theorem BinOp.optypes (op : BinOp) : optypes op.opcode = [] := by cases op <;> rfl

/-- Different instructions have different encodings. -/
theorem Instr.encode_inj : ∀ a b : Instr, a.encode = b.encode → a = b := by
  intro a b h
  cases a with
  | un o => cases b <;> cases o <;> simp_all [Instr.encode, UnOp.opcode] <;>
      (rename_i o'; cases o' <;> simp_all [Instr.encode, UnOp.opcode, BinOp.opcode])
  | bin o => cases b <;> cases o <;> simp_all [Instr.encode, BinOp.opcode] <;>
      (rename_i o'; cases o' <;> simp_all [Instr.encode, UnOp.opcode, BinOp.opcode])
  | _ =>
    cases b with
    | un o' => cases o' <;> simp_all [Instr.encode, UnOp.opcode]
    | bin o' => cases o' <;> simp_all [Instr.encode, BinOp.opcode]
    | _ => simp_all [Instr.encode] <;> omega

/-! ## Running the emitter -/

theorem EM.bind_ok {m : EM α} {f : α → EM β} {s s' : ES} {a : α} (h : m s = .ok (a, s')) :
    (m >>= f) s = f a s' := by
  show EM.bind m f s = _
  simp [EM.bind, h]

theorem EM.bind_ub {m : EM α} {f : α → EM β} {s : ES} (h : m s = .ub) :
    (m >>= f) s = .ub := by
  show EM.bind m f s = _
  simp [EM.bind, h]

theorem EM.pure_run (a : α) (s : ES) : (pure a : EM α) s = .ok (a, s) := rfl

theorem EM.bind_pure (m : EM Unit) : (do m; pure ()) = m := by
  funext s
  show EM.bind m _ s = _
  unfold EM.bind
  cases m s with
  | ok a => rfl
  | _ => rfl

theorem EM.bind_assoc (m : EM α) (f : α → EM β) (g : β → EM γ) :
    (m >>= f) >>= g = m >>= fun a => f a >>= g := by
  funext s
  show EM.bind (EM.bind m f) g s = EM.bind m (fun a => EM.bind (f a) g) s
  unfold EM.bind
  cases m s <;> rfl

/-- How often a label is resolved. -/
def cntL (evs : List Ev) (l : Nat) : Nat := ((given evs).map Prod.fst).count l

theorem given_append (a b : List Ev) : given (a ++ b) = given a ++ given b := by
  induction a with
  | nil => rfl
  | cons e a ih => cases e <;> simp [given, ih]

theorem appends_append (a b : List Ev) : appends (a ++ b) = appends a ++ appends b := by
  induction a with
  | nil => rfl
  | cons e a ih => cases e <;> simp [appends, ih]

theorem cntL_append (a b : List Ev) (l : Nat) : cntL (a ++ b) l = cntL a l + cntL b l := by
  simp [cntL, given_append]

/-- The instruction an appended record stands for when the labels have these values. -/
def dec (env : List (Nat × Int)) (a : App) : Opcode × List FOpd :=
  (a.op, List.zipWith (opdValue env) (optypes a.op) a.opv)

/-- The operands are such that the builder accepts them. -/
def Kinds : Ev → Prop
  | .append op opv _ _ room => room = true ∧ opv.length = (optypes op).length ∧
      ∀ (j : Nat) t o, (optypes op)[j]? = some t → opv[j]? = some o → kindOk t o = true
  | .resolve _ _ => True

/-- From `s` to `s'` the instructions `code` have been emitted; the labels created meanwhile have
been resolved once each, and no others. -/
def Emitted (s s' : ES) (k : Option (Nat × Nat)) (code : List Instr) : Prop :=
  ∃ new, s'.evs = s.evs ++ new ∧ s'.cnt = s.cnt + code.length ∧ s.lbl ≤ s'.lbl ∧
    (∀ l, s.lbl ≤ l → l < s'.lbl → cntL new l = 1) ∧
    (∀ l, l < s.lbl → cntL new l = 0) ∧ (∀ l, s'.lbl ≤ l → cntL new l = 0) ∧
    (∀ ev ∈ new, Kinds ev) ∧
    ∀ env : List (Nat × Int), (∀ l v, (l, v) ∈ given new → env.lookup l = some v) →
      (∀ l (b : Nat), k = some (l, b) → env.lookup l = some (b : Int)) →
      (appends new).map (dec env) = code.map Instr.encode

theorem Emitted.refl (s : ES) (k : Option (Nat × Nat)) : Emitted s s k [] := by
  refine ⟨[], by simp, by simp, Nat.le_refl _, ?_, ?_, ?_, by simp, ?_⟩
  · intro l h1 h2; omega
  · intro l _; rfl
  · intro l _; rfl
  · intro env _ _; rfl

theorem Emitted.trans {s s1 s2 : ES} {k : Option (Nat × Nat)} {c1 c2 : List Instr}
    (h1 : Emitted s s1 k c1) (h2 : Emitted s1 s2 k c2) : Emitted s s2 k (c1 ++ c2) := by
  obtain ⟨n1, e1, a1, b1, f1, g1, i1, j1, d1⟩ := h1
  obtain ⟨n2, e2, a2, b2, f2, g2, i2, j2, d2⟩ := h2
  refine ⟨n1 ++ n2, by rw [e2, e1, List.append_assoc], by simp; omega, by omega, ?_, ?_, ?_, ?_, ?_⟩
  · intro l h h'
    rw [cntL_append]
    rcases Nat.lt_or_ge l s1.lbl with hl | hl
    · rw [f1 l h hl, g2 l hl]
    · rw [i1 l hl, f2 l hl h']
  · intro l h
    rw [cntL_append, g1 l h, g2 l (by omega)]
  · intro l h
    rw [cntL_append, i1 l (by omega), i2 l h]
  · intro ev hev
    rcases List.mem_append.1 hev with h | h
    · exact j1 ev h
    · exact j2 ev h
  · intro env he hk
    rw [appends_append, List.map_append, List.map_append]
    rw [d1 env (fun l v h => he l v (by rw [given_append]; exact List.mem_append_left _ h)) hk,
      d2 env (fun l v h => he l v (by rw [given_append]; exact List.mem_append_right _ h)) hk]

theorem Emitted.weaken {s s' : ES} {k : Option (Nat × Nat)} {c : List Instr}
    (h : Emitted s s' none c) : Emitted s s' k c := by
  obtain ⟨n1, e1, a1, b1, f1, g1, i1, j1, d1⟩ := h
  exact ⟨n1, e1, a1, b1, f1, g1, i1, j1, fun env he _ => d1 env he (by simp)⟩

theorem Emitted.cast {s s' : ES} {k : Option (Nat × Nat)} {c c' : List Instr}
    (h : Emitted s s' k c) (e : c = c') : Emitted s s' k c' := e ▸ h

/-- The outcome `r` of an emitter started in `s`, when this is the code to be expected. -/
def SpecAt (r : Exec (Unit × ES)) (s : ES) (k : Option (Nat × Nat)) :
    Option (Nat → List Instr) → Prop
  | some c => ∃ s', r = .ok ((), s') ∧ Emitted s s' k (c s.cnt)
  | none => r = .ub

/-- What the emitter `m` does, when `o` is the code to be expected. -/
def Spec (m : EM Unit) (k : Option (Nat × Nat)) (o : Option (Nat → List Instr)) : Prop :=
  ∀ s, SpecAt (m s) s k o

theorem Spec.cast {m : EM Unit} {k : Option (Nat × Nat)} {o o' : Option (Nat → List Instr)}
    (h : Spec m k o) (e : o = o') : Spec m k o' := e ▸ h

theorem Spec.weaken {m : EM Unit} {k : Option (Nat × Nat)} {o : Option (Nat → List Instr)}
    (h : Spec m none o) : Spec m k o := by
  intro s
  have := h s
  cases o with
  | none => exact this
  | some c =>
    obtain ⟨s', h1, h2⟩ := this
    exact ⟨s', h1, h2.weaken⟩

/-- One piece of code after another. -/
def seqCode (c1 c2 : Nat → List Instr) : Nat → List Instr :=
  fun p => c1 p ++ c2 (p + (c1 p).length)

theorem Emitted.cnt {s s' : ES} {k : Option (Nat × Nat)} {c : List Instr} (h : Emitted s s' k c) :
    s'.cnt = s.cnt + c.length := by
  obtain ⟨_, _, h, _⟩ := h
  exact h

theorem Spec.seq {m1 m2 : EM Unit} {k : Option (Nat × Nat)} {o1 o2 : Option (Nat → List Instr)}
    (h1 : Spec m1 k o1) (h2 : Spec m2 k o2) :
    Spec (do m1; m2) k (o1.bind fun c1 => o2.bind fun c2 => some (seqCode c1 c2)) := by
  intro s
  have h := h1 s
  cases o1 with
  | none => exact EM.bind_ub h
  | some c1 =>
    obtain ⟨s1, e1, t1⟩ := h
    have h := h2 s1
    cases o2 with
    | none =>
      show (m1 >>= fun _ => m2) s = .ub
      rw [EM.bind_ok e1]; exact h
    | some c2 =>
      obtain ⟨s2, e2, t2⟩ := h
      refine ⟨s2, ?_, ?_⟩
      · rw [EM.bind_ok e1]; exact e2
      · rw [t1.cnt] at t2
        exact t1.trans t2

theorem Spec.pure (k : Option (Nat × Nat)) : Spec (Pure.pure ()) k (some fun _ => []) :=
  fun s => ⟨s, rfl, Emitted.refl s k⟩

/-- One instruction without labels. -/
theorem Spec.instr {op : Opcode} {opv : List Opd} {off len : Int} {k : Option (Nat × Nat)}
    (i : Instr) (hk : Kinds (.append op opv off len true))
    (hd : ∀ env, dec env ⟨op, opv, off, len⟩ = i.encode) :
    Spec (emitI op opv off len) k (some fun _ => [i]) := by
  intro s
  refine ⟨_, rfl, [.append op opv off len true], rfl, rfl, Nat.le_refl _, ?_, ?_, ?_, ?_, ?_⟩
  · intro l h1 h2
    exact absurd h2 (Nat.not_lt.2 h1)
  · intro l _; rfl
  · intro l _; rfl
  · intro ev hev
    cases List.mem_singleton.1 hev
    exact hk
  · intro env _ _
    simp [appends, hd env]

theorem kinds0 {op : Opcode} {off len : Int} (h : optypes op = []) :
    Kinds (.append op [] off len true) := by
  refine ⟨rfl, by simp [h], ?_⟩
  intro j t o ht
  rw [h] at ht
  simp at ht

theorem kinds1 {op : Opcode} {o : Opd} {off len : Int} (t : OpType) (h : optypes op = [t])
    (ho : kindOk t o = true) : Kinds (.append op [o] off len true) := by
  refine ⟨rfl, by simp [h], ?_⟩
  intro j t' o' ht ho'
  rw [h] at ht
  cases j with
  | zero => simp at ht ho'; subst ht ho'; exact ho
  | succ j => simp at ht

theorem kinds2 {op : Opcode} {o1 o2 : Opd} {off len : Int} (t1 t2 : OpType)
    (h : optypes op = [t1, t2]) (h1 : kindOk t1 o1 = true) (h2 : kindOk t2 o2 = true) :
    Kinds (.append op [o1, o2] off len true) := by
  refine ⟨rfl, by simp [h], ?_⟩
  intro j t' o' ht ho'
  rw [h] at ht
  match j with
  | 0 => simp at ht ho'; subst ht ho'; exact h1
  | 1 => simp at ht ho'; subst ht ho'; exact h2
  | j + 2 => simp at ht

/-! ## Pieces with labels

`A` are the labels created, `G` the labels resolved, `asm` the values of the labels used, apart from
those that are dealt with inside. -/

def rng (a b l : Nat) : Nat := if a ≤ l ∧ l < b then 1 else 0

theorem rng_add {a b c l : Nat} (h1 : a ≤ b) (h2 : b ≤ c) : rng a b l + rng b c l = rng a c l := by
  unfold rng
  by_cases e1 : a ≤ l ∧ l < b
  · rw [if_pos e1, if_neg (by omega), if_pos (by omega)]
  · rw [if_neg e1]
    by_cases e2 : b ≤ l ∧ l < c
    · rw [if_pos e2, if_pos (by omega)]
    · rw [if_neg e2, if_neg (by omega)]

theorem rng_self (a l : Nat) : rng a a l = 0 := by
  unfold rng; rw [if_neg (by omega)]

theorem rng_succ (a l : Nat) : rng a (a + 1) l = [a].count l := by
  unfold rng
  by_cases h : a = l
  · subst h; simp
  · rw [if_neg (by omega), List.count_cons_of_ne h]; rfl

def Em (s s' : ES) (k : Option (Nat × Nat)) (A : List Nat) (G asm : List (Nat × Nat))
    (code : List Instr) : Prop :=
  ∃ new, s'.evs = s.evs ++ new ∧ s'.cnt = s.cnt + code.length ∧ s.lbl ≤ s'.lbl ∧
    (∀ l, cntL new l + A.count l = rng s.lbl s'.lbl l + (G.map Prod.fst).count l) ∧
    (∀ g ∈ G, (g.1, (g.2 : Int)) ∈ given new) ∧
    (∀ ev ∈ new, Kinds ev) ∧
    ∀ env : List (Nat × Int), (∀ l v, (l, v) ∈ given new → env.lookup l = some v) →
      (∀ l (b : Nat), k = some (l, b) → env.lookup l = some (b : Int)) →
      (∀ g ∈ asm, env.lookup g.1 = some (g.2 : Int)) →
      (appends new).map (dec env) = code.map Instr.encode

theorem Em.trans {s s1 s2 : ES} {k : Option (Nat × Nat)} {A1 A2 : List Nat}
    {G1 G2 a1 a2 : List (Nat × Nat)} {c1 c2 : List Instr}
    (h1 : Em s s1 k A1 G1 a1 c1) (h2 : Em s1 s2 k A2 G2 a2 c2) :
    Em s s2 k (A1 ++ A2) (G1 ++ G2) (a1 ++ a2) (c1 ++ c2) := by
  obtain ⟨n1, e1, x1, b1, f1, g1, j1, d1⟩ := h1
  obtain ⟨n2, e2, x2, b2, f2, g2, j2, d2⟩ := h2
  refine ⟨n1 ++ n2, by rw [e2, e1, List.append_assoc], by simp; omega, by omega, ?_, ?_, ?_, ?_⟩
  · intro l
    have := f1 l
    have := f2 l
    have := rng_add (l := l) b1 b2
    rw [cntL_append, List.count_append, List.map_append, List.count_append]
    omega
  · intro g hg
    rw [given_append]
    rcases List.mem_append.1 hg with h | h
    · exact List.mem_append_left _ (g1 g h)
    · exact List.mem_append_right _ (g2 g h)
  · intro ev hev
    rcases List.mem_append.1 hev with h | h
    · exact j1 ev h
    · exact j2 ev h
  · intro env he hk ha
    rw [appends_append, List.map_append, List.map_append]
    rw [d1 env (fun l v h => he l v (by rw [given_append]; exact List.mem_append_left _ h)) hk
        (fun g h => ha g (List.mem_append_left _ h)),
      d2 env (fun l v h => he l v (by rw [given_append]; exact List.mem_append_right _ h)) hk
        (fun g h => ha g (List.mem_append_right _ h))]

theorem Em.new (s : ES) (k : Option (Nat × Nat)) :
    Em s { s with lbl := s.lbl + 1 } k [s.lbl] [] [] [] := by
  refine ⟨[], by simp, by simp, by simp, ?_, by simp, by simp, ?_⟩
  · intro l
    simp only [rng_succ]
    simp [cntL, given]
  · intro env _ _ _; rfl

theorem Em.here (s : ES) (k : Option (Nat × Nat)) (l : Nat) :
    Em s { s with evs := s.evs ++ [.resolve l s.cnt] } k [] [(l, s.cnt)] [] [] := by
  refine ⟨[.resolve l s.cnt], rfl, rfl, Nat.le_refl _, ?_, ?_, ?_, ?_⟩
  · intro x
    simp only [rng_self]
    simp [cntL, given]
  · simp [given]
  · simp [Kinds]
  · intro env _ _ _; rfl

theorem Em.instr {op : Opcode} {opv : List Opd} {off len : Int} (s : ES) (k : Option (Nat × Nat))
    (asm : List (Nat × Nat)) (i : Instr) (hk : Kinds (.append op opv off len true))
    (hd : ∀ env : List (Nat × Int), (∀ g ∈ asm, env.lookup g.1 = some (g.2 : Int)) →
      dec env ⟨op, opv, off, len⟩ = i.encode) :
    Em s { s with evs := s.evs ++ [.append op opv off len true], cnt := s.cnt + 1 } k [] [] asm [i] := by
  refine ⟨[.append op opv off len true], rfl, rfl, Nat.le_refl _, ?_, by simp, ?_, ?_⟩
  · intro x
    simp only [rng_self]
    simp [cntL, given]
  · intro ev hev
    cases List.mem_singleton.1 hev
    exact hk
  · intro env _ _ ha
    simp [appends, hd env ha]

theorem Emitted.em {s s' : ES} {k : Option (Nat × Nat)} {c : List Instr} (h : Emitted s s' k c) :
    Em s s' k [] [] [] c := by
  obtain ⟨n1, e1, x1, b1, f1, g1, i1, j1, d1⟩ := h
  refine ⟨n1, e1, x1, b1, ?_, by simp, j1, fun env he hk _ => d1 env he hk⟩
  intro l
  unfold rng
  by_cases h : s.lbl ≤ l ∧ l < s'.lbl
  · rw [if_pos h, f1 l h.1 h.2]; rfl
  · rw [if_neg h]
    rcases Nat.lt_or_ge l s.lbl with hl | hl
    · rw [g1 l hl]; rfl
    · rw [i1 l (by omega)]; rfl

/-- A loop body: its `break` is a label of the piece. -/
theorem Emitted.emBrk {s s' : ES} {k : Option (Nat × Nat)} {l b : Nat} {c : List Instr}
    (h : Emitted s s' (some (l, b)) c) : Em s s' k [] [] [(l, b)] c := by
  obtain ⟨n1, e1, x1, b1, f1, g1, j1, i1⟩ := h.em
  refine ⟨n1, e1, x1, b1, f1, g1, j1, ?_⟩
  intro env he _ ha
  refine i1 env he ?_ (by simp)
  · intro l' b' e
    cases e
    exact ha (l, b) (by simp)

theorem Em.close {s s' : ES} {k : Option (Nat × Nat)} {A : List Nat} {G asm : List (Nat × Nat)}
    {c : List Instr} (h : Em s s' k A G asm c) (hp : A.Perm (G.map Prod.fst))
    (ha : ∀ g ∈ asm, g ∈ G) : Emitted s s' k c := by
  obtain ⟨n1, e1, x1, b1, f1, g1, j1, d1⟩ := h
  have f1' : ∀ l, cntL n1 l = rng s.lbl s'.lbl l := by
    intro l
    have := f1 l
    rw [hp.count_eq l] at this
    omega
  refine ⟨n1, e1, x1, b1, ?_, ?_, ?_, j1, ?_⟩
  · intro l h1 h2
    rw [f1' l]; unfold rng; rw [if_pos ⟨h1, h2⟩]
  · intro l h1
    rw [f1' l]; unfold rng; rw [if_neg (by omega)]
  · intro l h1
    rw [f1' l]; unfold rng; rw [if_neg (by omega)]
  · intro env he hk
    refine d1 env he hk ?_
    intro g hg
    exact he g.1 g.2 (g1 g (ha g hg))

theorem Em.cast {s s' : ES} {k : Option (Nat × Nat)} {A : List Nat} {G asm : List (Nat × Nat)}
    {c c' : List Instr} (h : Em s s' k A G asm c) (e : c = c') : Em s s' k A G asm c' := e ▸ h

theorem dec_jump {op : Opcode} {l v : Nat} {off len : Int} (hop : optypes op = [.idx])
    (env : List (Nat × Int)) (h : ∀ g ∈ [(l, v)], env.lookup g.1 = some (g.2 : Int)) :
    dec env ⟨op, [.promise l], off, len⟩ = (op, [.idx v]) := by
  have := h (l, v) (by simp)
  simp [dec, hop, opdValue, this]

end Noja.VM
