import Verif.Parse.Where
import Verif.VM.CodegenTop
import Verif.VM.Machine
import Verif.VM.Demo

/-!
# The lines of a stack trace (C55, C82)

`shownLine` is the line that `printFrame` shows.  `C55_line`: one plus the number of newlines before the position.
`C55_compiled`: for every text that is compiled, the position of every instruction lies in the text, so that the line can be
computed without reading outside of it.

`C82_violated`: the line shown is not that of the instruction that failed, but that of the one after it (`C82_partial`).

Simplification: offsets are integers, in the C code they are `int`s.
-/

set_option linter.unusedVariables false
set_option linter.unusedSimpArgs false

namespace Noja.VM

open Noja Noja.Exe Noja.Parse

/-! ## The line of a position -/

/-- runtime.c:198-205, the loop of `printFrame`: `n` more characters, from the `i`-th on.  What is behind the body is not
known to be readable. -/
def lineLoop (body : List UInt8) : (n i line : Nat) → Exec Nat
  | 0, _, line => .ok line
  | n + 1, i, line =>
    match body[i]? with
    | none => .ub
    | some c => lineLoop body n (i + 1) (if c = 10 then line + 1 else line)

/-- runtime.c:171-212 `printFrame`: the line that is shown for a frame with this source and offset; 0 stands for none. -/
def shownLine (body : Option (List UInt8)) (off : Int) : Exec Nat :=
  match body with
  | none => .ok 0
  | some body => if off < 0 then .ok 0 else lineLoop body off.toNat 0 1

theorem lineLoop_ok (body : List UInt8) : ∀ (n i line : Nat), i + n ≤ body.length →
    lineLoop body n i line = .ok (line + ((body.drop i).take n).count 10)
  | 0, i, line, h => by simp [lineLoop]
  | n + 1, i, line, h => by
    have hi : i < body.length := by omega
    rw [lineLoop, List.getElem?_eq_getElem hi]
    simp only
    rw [lineLoop_ok body n (i + 1) _ (by omega), List.drop_eq_getElem_cons hi, List.take_succ_cons, List.count_cons]
    by_cases hc : body[i] = 10
    · rw [if_pos hc]
      simp only [hc, beq_self_eq_true, if_true]
      congr 1
      omega
    · rw [if_neg hc]
      have : (body[i] == 10) = false := by simpa using hc
      simp only [this, Bool.false_eq_true, if_false, Nat.add_zero]

theorem lineLoop_ub (body : List UInt8) : ∀ (n i line : Nat), i ≤ body.length → body.length < i + n →
    lineLoop body n i line = .ub
  | 0, i, line, h, h2 => by omega
  | n + 1, i, line, h, h2 => by
    rw [lineLoop]
    by_cases hi : i < body.length
    · rw [List.getElem?_eq_getElem hi]
      exact lineLoop_ub body n (i + 1) _ (by omega) (by omega)
    · rw [List.getElem?_eq_none (by omega)]

/-- C55: one plus the number of newlines before the position. -/
theorem C55_line (body : List UInt8) (off : Nat) (h : off ≤ body.length) :
    shownLine (some body) off = .ok (1 + (body.take off).count 10) := by
  have : ¬ ((off : Int) < 0) := by omega
  rw [shownLine, if_neg this, Int.toNat_natCast, lineLoop_ok body off 0 1 (by omega), List.drop_zero]

example : shownLine (some [97, 10, 98, 10, 99]) 4 = .ok 3 := by decide

/-- C55: no line without a source or a position. -/
theorem C55_none (off : Int) : shownLine none off = .ok 0 ∧ ∀ body, off < 0 → shownLine body off = .ok 0 := by
  refine ⟨rfl, fun body h => ?_⟩
  cases body with
  | none => rfl
  | some b => rw [shownLine, if_pos h]

/-- A position behind the end makes it read outside of the text. -/
theorem C55_beyond (body : List UInt8) (off : Nat) (h : body.length < off) : shownLine (some body) off = .ub := by
  have : ¬ ((off : Int) < 0) := by omega
  rw [shownLine, if_neg this, Int.toNat_natCast]
  exact lineLoop_ub body off 0 1 (by omega) (by omega)

/-- The lines grow with the position. -/
theorem C55_mono (body : List UInt8) (a b la lb : Nat) (h : a ≤ b) (hb : b ≤ body.length)
    (h1 : shownLine (some body) a = .ok la) (h2 : shownLine (some body) b = .ok lb) : la ≤ lb := by
  rw [C55_line _ _ (by omega)] at h1
  rw [C55_line _ _ hb] at h2
  cases h1
  cases h2
  have : (body.take a).count 10 ≤ (body.take b).count 10 :=
    List.Sublist.count_le _ (List.take_sublist_take_left h)
  omega

example : shownLine (some [97, 10, 98, 10, 99]) 1 = .ok 1 ∧ shownLine (some [97, 10, 98, 10, 99]) 3 = .ok 2 := by decide

/-! ## The positions of instructions -/

/-- What is appended has a position in the text, and its strings are C strings. -/
def EvIn (n : Int) : Ev → Prop
  | .append _ opv off len _ => (∀ s, Opd.str s ∈ opv → NoNul s) ∧ PosIn n ⟨off, len⟩
  | .resolve _ _ => True

/-- If everything so far is in the text then it is afterwards. -/
def EmitsIn (n : Int) {α : Type} (m : EM α) : Prop :=
  ∀ s a s', m s = .ok (a, s') → (∀ ev ∈ s.evs, EvIn n ev) → ∀ ev ∈ s'.evs, EvIn n ev

theorem EmitsIn.pure {n : Int} {α : Type} (a : α) : EmitsIn n (Pure.pure a : EM α) := by
  intro s b s' h hs
  cases h
  exact hs

theorem EmitsIn.bind {n : Int} {α β : Type} {m : EM α} {f : α → EM β} (hm : EmitsIn n m) (hf : ∀ a, EmitsIn n (f a)) :
    EmitsIn n (m >>= f) := by
  intro s b s' h hs
  have h : EM.bind m f s = .ok (b, s') := h
  unfold EM.bind at h
  cases hr : m s with
  | ok r =>
    obtain ⟨a, t⟩ := r
    rw [hr] at h
    exact hf a t b s' h (hm s a t hr hs)
  | err => rw [hr] at h; cases h
  | ub => rw [hr] at h; cases h
  | diverge => rw [hr] at h; cases h

theorem EmitsIn.emit {n : Int} {op : Opcode} {opv : List Opd} {off len : Int} (h : PosIn n ⟨off, len⟩)
    (hs : ∀ s, Opd.str s ∈ opv → NoNul s := by simp) : EmitsIn n (emitI op opv off len) := by
  have hstr := hs
  intro s a s' he hs ev hev
  cases he
  simp only [List.mem_append, List.mem_singleton] at hev
  rcases hev with hev | rfl
  · exact hs ev hev
  · exact ⟨hstr, h⟩

theorem str_one {v s : List UInt8} (h : NoNul v) (hs : Opd.str s ∈ [Opd.str v]) : NoNul s := by
  simp only [List.mem_singleton, Opd.str.injEq] at hs
  exact hs ▸ h

theorem EmitsIn.label {n : Int} : EmitsIn n newLabel := by
  intro s a s' he hs
  cases he
  exact hs

theorem EmitsIn.here {n : Int} (l : Nat) : EmitsIn n (setHere l) := by
  intro s a s' he hs ev hev
  cases he
  simp only [List.mem_append, List.mem_singleton] at hev
  rcases hev with hev | rfl
  · exact hs ev hev
  · trivial

theorem EmitsIn.count {n : Int} : EmitsIn n instrCountE := by
  intro s a s' he hs
  cases he
  exact hs

theorem EmitsIn.error {n : Int} : EmitsIn n reportError := by
  intro s a s' he hs
  cases he

/-- A length of zero at the start of a position. -/
theorem _root_.Noja.Parse.PosIn.start {n : Int} {p : Pos} (h : PosIn n p) : PosIn n ⟨p.off, 0⟩ := by
  obtain ⟨h1, h2, h3, h4⟩ := h
  refine ⟨?_, ?_, ?_, ?_⟩ <;> dsimp only <;> omega

theorem _root_.Noja.Parse.PosIn.stop {n : Int} {p : Pos} (h : PosIn n p) : PosIn n ⟨p.off + p.len, 0⟩ := by
  obtain ⟨h1, h2, h3, h4⟩ := h
  refine ⟨?_, ?_, ?_, ?_⟩ <;> dsimp only <;> omega

theorem EmitsIn.popAfter {n : Int} (s : RStmt) {off : Int} (h : PosIn n ⟨off, 0⟩) : EmitsIn n (s.popAfter off) := by
  cases s <;> first | exact EmitsIn.emit h | exact EmitsIn.pure ()

theorem EmitsIn.ite {n : Int} {α : Type} {c : Prop} [Decidable c] {a b : EM α} (ha : EmitsIn n a) (hb : EmitsIn n b) :
    EmitsIn n (if c then a else b) := by
  by_cases h : c
  · rw [if_pos h]; exact ha
  · rw [if_neg h]; exact hb

mutual
theorem within_E (n : Int) : ∀ (e : RExpr) (tup : Bool) (k : Option Nat), InE n e → EmitsIn n (e.emit tup k)
  | .none p, _, _, h => .emit h
  | .tru p, _, _, h => .emit h
  | .fls p, _, _, h => .emit h
  | .int v p, _, _, h => .emit h
  | .float x p, _, _, h => .emit h
  | .str s p, _, _, h => .emit h.2 fun _ => str_one h.1
  | .ident m p, _, _, h => .emit h.2 fun _ => str_one h.1
  | .un op a p, _, k, h => .bind (within_E n a false k h.1) fun _ => .emit h.2
  | .bin op a b p, _, k, h => .bind (within_E n a false k h.1) fun _ => .bind (within_E n b false k h.2.1) fun _ => .emit h.2.2
  | .and a b p, _, k, h =>
    .bind .label fun _ => .bind .label fun _ => .bind (within_E n a false k h.1) fun _ => .bind (.emit h.2.2) fun _ =>
    .bind (within_E n b false k h.2.1) fun _ => .bind (.emit h.2.2) fun _ => .bind (.emit h.2.2) fun _ =>
    .bind (.emit h.2.2) fun _ => .bind (.here _) fun _ => .bind (.emit h.2.2) fun _ => .here _
  | .or a b p, _, k, h =>
    .bind .label fun _ => .bind .label fun _ => .bind (within_E n a false k h.1) fun _ => .bind (.emit h.2.2) fun _ =>
    .bind (within_E n b false k h.2.1) fun _ => .bind (.emit h.2.2) fun _ => .bind (.emit h.2.2) fun _ =>
    .bind (.emit h.2.2) fun _ => .bind (.here _) fun _ => .bind (.emit h.2.2) fun _ => .here _
  | .ass l r p, _, k, h => by
    have ht := within_targets n l p k h.1 h.2.2
    have hr : EmitsIn n (do
        if l.tupleCount = 1 then r.emit false k else r.emitCall k l.tupleCount
        l.emitTargets p k) :=
      EmitsIn.ite (.bind (within_E n r false k h.2.1) fun _ => ht) (.bind (within_call n r k _ h.2.1) fun _ => ht)
    exact EmitsIn.ite (.bind .error fun _ => hr) hr
  | .pair a b p, tup, k, h => by
    unfold RExpr.emit
    exact .ite (.bind (within_E n a true k h.1) fun _ => within_E n b true k h.2.1) .error
  | .arw _ _ _, _, _, _ => .error
  | .list items p, _, k, h => .bind (.emit h.2) fun _ => within_items n items 0 k h.1
  | .map items p, _, k, h => .bind (.emit h.2) fun _ => within_Ps n items k h.1
  | .call c p, _, k, h => within_C n c p k 1 h.1 h.2
  | .select s i p, _, k, h => .bind (within_E n s false k h.1) fun _ => .bind (within_E n i false k h.2.1) fun _ => .emit h.2.2
  | .func f p, _, _, h => within_F n f anonName p h.1 h.2 (by simp [NoNul, anonName])
theorem within_call (n : Int) : ∀ (e : RExpr) (k : Option Nat) (m : Nat), InE n e → EmitsIn n (e.emitCall k m)
  | .call c p, k, m, h => within_C n c p k m h.1 h.2
  | .none _, _, _, _ | .tru _, _, _, _ | .fls _, _, _, _ | .int _ _, _, _, _ | .float _ _, _, _, _ | .str _ _, _, _, _
  | .ident _ _, _, _, _ | .un _ _ _, _, _, _ | .bin _ _ _ _, _, _, _ | .and _ _ _, _, _, _ | .or _ _ _, _, _, _
  | .ass _ _ _, _, _, _ | .pair _ _ _, _, _, _ | .arw _ _ _, _, _, _ | .list _ _, _, _, _ | .map _ _, _, _, _
  | .select _ _ _, _, _, _ | .func _ _, _, _, _ => .error
theorem within_targets (n : Int) : ∀ (e : RExpr) (q : Pos) (k : Option Nat), InE n e → PosIn n q → EmitsIn n (e.emitTargets q k)
  | .pair a b _, q, k, h, hq =>
    .bind (within_targets n b q k h.2.1 hq) fun _ => .bind (.emit hq.start) fun _ => within_targets n a q k h.1 hq
  | .ident m p, _, _, h, _ => .emit h.2 fun _ => str_one h.1
  | .select s i p, _, k, h, _ =>
    .bind (within_E n s false k h.1) fun _ => .bind (within_E n i false k h.2.1) fun _ => .emit h.2.2
  | .none _, _, _, _, _ | .tru _, _, _, _, _ | .fls _, _, _, _, _ | .int _ _, _, _, _, _ | .float _ _, _, _, _, _ | .str _ _, _, _, _, _
  | .un _ _ _, _, _, _, _ | .bin _ _ _ _, _, _, _, _ | .and _ _ _, _, _, _, _ | .or _ _ _, _, _, _, _
  | .ass _ _ _, _, _, _, _ | .arw _ _ _, _, _, _, _ | .list _ _, _, _, _, _ | .map _ _, _, _, _, _
  | .call _ _, _, _, _, _ | .func _ _, _, _, _, _ => .error
theorem within_C (n : Int) : ∀ (c : RCall) (p : Pos) (k : Option Nat) (m : Nat), InC n c → PosIn n p → EmitsIn n (c.emit p k m)
  | .fn f args, p, k, m, h, hp => .bind (within_Es n args k h.2) fun _ => .bind (within_E n f false k h.1) fun _ => .emit hp
  | .method s i q args, p, k, m, h, hp =>
    .bind (within_Es n args k h.2.2.2) fun _ => .bind (within_E n s false k h.1) fun _ => .bind (within_E n i false k h.2.1) fun _ =>
    .bind (.emit h.2.2.1) fun _ => .emit hp
theorem within_Es (n : Int) : ∀ (es : RExprs) (k : Option Nat), InEs n es → EmitsIn n (es.emit k)
  | .nil, _, _ => .pure ()
  | .cons e es, k, h => .bind (within_E n e false k h.1) fun _ => within_Es n es k h.2
theorem within_items (n : Int) : ∀ (es : RExprs) (i : Nat) (k : Option Nat), InEs n es → EmitsIn n (es.emitItems i k)
  | .nil, _, _, _ => .pure ()
  | .cons e es, i, k, h =>
    .bind (.emit h.1.pos) fun _ => .bind (within_E n e false k h.1) fun _ => .bind (.emit h.1.pos) fun _ =>
    within_items n es (i + 1) k h.2
theorem within_Ps (n : Int) : ∀ (ps : RPairs) (k : Option Nat), InPs n ps → EmitsIn n (ps.emit k)
  | .nil, _, _ => .pure ()
  | .cons key item ps, k, h =>
    .bind (within_E n key false k h.1) fun _ => .bind (within_E n item false k h.2.1) fun _ => .bind (.emit h.2.1.pos) fun _ =>
    within_Ps n ps k h.2.2
theorem within_F (n : Int) : ∀ (f : RFun) (m : Name) (p : Pos), InF n f → PosIn n p → NoNul m → EmitsIn n (f.emit m p)
  | .mk ps b, m, p, h, hp, hm =>
    .bind .label fun _ => .bind .label fun _ => .bind (.emit hp (by simpa using hm)) fun _ => .bind (.emit hp) fun _ => .bind (.here _) fun _ =>
    .bind (within_Args n ps h.1) fun _ => .bind (within_S n b none h.2) fun _ => .bind (.popAfter b h.2.pos.stop) fun _ =>
    .bind (.emit h.2.pos.start) fun _ => .here _
theorem within_Args (n : Int) : ∀ (ps : RParams), InArgs n ps → EmitsIn n ps.emit
  | .nil, _ => .pure ()
  | .cons m d t p ps, h =>
    .bind (within_dflt n d h.1) fun _ => .bind (within_typ n t _ m h.2.1 h.2.2.2.2) fun _ =>
    .bind (.emit h.2.2.1 fun _ => str_one h.2.2.2.2) fun _ => .bind (.emit h.2.2.1) fun _ => within_Args n ps h.2.2.2.1
theorem within_dflt (n : Int) : ∀ (o : ROpt), InO n o → EmitsIn n o.emitDflt
  | .no, _ => .pure ()
  | .yes e, h =>
    .bind .label fun _ => .bind (.emit (InE.pos h)) fun _ => .bind (.emit (InE.pos h)) fun _ => .bind (.emit (InE.pos h)) fun _ =>
    .bind (.emit (InE.pos h)) fun _ => .bind (.emit (InE.pos h)) fun _ => .bind (within_E n e false none h) fun _ => .here _
theorem within_typ (n : Int) : ∀ (o : ROpt) (i : Nat) (m : Name), InO n o → NoNul m → EmitsIn n (o.emitTyp i m)
  | .no, _, _, _, _ => .pure ()
  | .yes e, i, m, h, hm => .bind (within_E n e false none h) fun _ => .emit (InE.pos h) (by simpa using hm)
theorem within_S (n : Int) : ∀ (s : RStmt) (k : Option Nat), InS n s → EmitsIn n (s.emit k)
  | .expr e, k, h => within_E n e false k h
  | .ifElse c t f p, k, h =>
    .bind (within_E n c false k h.1) fun _ => .bind .label fun _ => .bind .label fun _ => .bind (.emit h.1.pos) fun _ =>
    .bind (within_S n t k h.2.1) fun _ => .bind (.popAfter t h.2.1.pos.start) fun _ => .bind (.emit h.2.2.2) fun _ =>
    .bind (.here _) fun _ => .bind (within_S n f k h.2.2.1) fun _ => .bind (.popAfter f h.2.2.1.pos.start) fun _ => .here _
  | .ifOnly c t _, k, h =>
    .bind (within_E n c false k h.1) fun _ => .bind .label fun _ => .bind (.emit h.1.pos) fun _ =>
    .bind (within_S n t k h.2.1) fun _ => .bind (.popAfter t h.2.1.pos.start) fun _ => .here _
  | .while c b p, k, h =>
    .bind .label fun _ => .bind .label fun _ => .bind (.here _) fun _ => .bind (within_E n c false k h.1) fun _ =>
    .bind (.emit h.1.pos) fun _ => .bind (within_S n b (some _) h.2.1) fun _ => .bind (.popAfter b h.2.1.pos.start) fun _ =>
    .bind (.emit h.2.2) fun _ => .here _
  | .doWhile b c _, k, h =>
    .bind .label fun _ => .bind .count fun _ => .bind (within_S n b (some _) h.1) fun _ =>
    .bind (.popAfter b h.1.pos.start) fun _ => .bind (within_E n c false k h.2.1) fun _ => .bind (.emit h.2.1.pos) fun _ => .here _
  | .comp ss _, k, h => within_Ss n ss k h.1
  | .ret e p, k, h => by
    have hr : EmitsIn n (do
        e.emit true k
        emitI .RETURN [.int e.tupleCount] p.off p.len) := .bind (within_E n e true k h.1) fun _ => .emit h.2
    exact EmitsIn.ite (.bind .error fun _ => hr) hr
  | .func m f fp p, _, h =>
    .bind (within_F n f m fp h.2.1 h.2.2.1 h.1) fun _ => .bind (.emit h.2.2.2 fun _ => str_one h.1) fun _ => .emit h.2.2.2
  | .brk p, none, h => .error
  | .brk p, some l, h => .emit h
theorem within_Ss (n : Int) : ∀ (ss : RStmts) (k : Option Nat), InSs n ss → EmitsIn n (ss.emit k)
  | .nil, _, _ => .pure ()
  | .cons s ss, k, h =>
    .bind (within_S n s k h.1) fun _ => .bind (.popAfter s h.1.pos.start) fun _ => within_Ss n ss k h.2
end

/-- All instructions of a tree in the text have a position in the text. -/
theorem codegen_within {root : RStmts} {n : Int} (hn : 0 ≤ n) (h : InSs n root) {evs : List Ev} (he : codegen root n = .ok evs) :
    ∀ ev ∈ evs, EvIn n ev := by
  have hw : EmitsIn n (do root.emit Option.none; emitI .EXIT [] n 0 : EM Unit) :=
    .bind (within_Ss n root none h) fun _ => .emit ⟨hn, Int.le_refl _, by dsimp only; omega, by dsimp only; omega⟩
  obtain ⟨⟨_, s⟩, h1, h2⟩ := Exec.bind_eq_ok.mp he
  cases h2
  exact hw _ _ _ h1 (by simp)

theorem mem_appends_in {n : Int} {evs : List Ev} (h : ∀ ev ∈ evs, EvIn n ev) : ∀ a ∈ appends evs,
    (∀ s, Opd.str s ∈ a.opv → NoNul s) ∧ PosIn n ⟨a.off, a.len⟩ := by
  induction evs with
  | nil => simp [appends]
  | cons ev evs ih =>
    have h' : ∀ ev ∈ evs, EvIn n ev := fun e he => h e (List.mem_cons_of_mem _ he)
    intro a ha
    cases ev with
    | resolve l v => exact ih h' a (by simpa [appends] using ha)
    | append op opv off len room =>
      simp only [appends, List.mem_cons] at ha
      rcases ha with rfl | ha
      · exact h _ (List.mem_cons_self ..)
      · exact ih h' a ha

/-! ## The executable of a text -/

/-- compile.c:8-42 `compile`, codegen.c:766-797: the executable of a text.  (The source is kept in the executable.) -/
def compileText (flt : List UInt8 → Option (BitVec 64)) (past : UInt8) (src : List UInt8) : Exec Executable := do
  let root ← parse flt past src
  let evs ← codegen root src.length
  match build evs Exe.new with
  | (b, true) =>
    match finalize b with
    | some e => .ok e
    | none => .err
  | (_, false) => .err

/-- What codegen appends for a tree that is accepted: no label is given a value twice, and it is what is found in the
executable. -/
theorem codegen_labels (root : RStmts) (size : Int) (p : Stmts) (h : root.elab false = some p) (evs : List Ev)
    (hc : codegen root size = .ok evs) : ((given evs).map Prod.fst).Nodup ∧ (appends evs).length = (compile p).length ∧
      (∀ ev ∈ evs, Kinds ev) ∧ (appends evs).map (dec (given evs)) = (compile p).map Instr.encode := by
  have hs := codegen_spec root size
  rw [h] at hs
  obtain ⟨s', hc', es, hev, hcnt, hlbl, f1, f2, f3, hk, hd⟩ := hs
  simp only [List.nil_append] at hev
  rw [hev] at hc'
  rw [hc'] at hc
  cases hc
  have hn : ((given evs).map Prod.fst).Nodup := by
    rw [List.nodup_iff_count]
    intro l
    show cntL evs l ≤ 1
    by_cases hl : l < s'.lbl
    · exact Nat.le_of_eq (f1 l (Nat.zero_le _) hl)
    · rw [f3 l (by omega)]; omega
  have hdec := hd (given evs) (fun l v hv => lookup_of_mem hn hv) (by simp)
  refine ⟨hn, ?_, hk, hdec⟩
  have := congrArg List.length hdec
  simpa using this

/-- The strings in the code of a text are C strings. -/
theorem compile_noNul {flt : List UInt8 → Option (BitVec 64)} {past : UInt8} {src : List UInt8} {root : RStmts} {p : Stmts}
    (hp : parse flt past src = .ok root) (he : root.elab false = some p) :
    ∀ i ∈ compile p, ∀ s, FOpd.str s ∈ i.encode.2 → (0 : UInt8) ∉ s := by
  obtain ⟨evs, b, e, hc, -⟩ := codegen_accepts root src.length p he
  obtain ⟨hn, -, hk, hd⟩ := codegen_labels root _ p he evs hc
  have hin := mem_appends_in (codegen_within (by omega) (parse_within flt past src root hp) hc)
  intro i hi s hs
  have hm : i.encode ∈ (appends evs).map (dec (given evs)) := by
    rw [hd]; exact List.mem_map_of_mem hi
  obtain ⟨a, ha, hae⟩ := List.mem_map.1 hm
  rw [← hae] at hs
  obtain ⟨hlen, hkind⟩ := mem_appends_kinds hk a ha
  obtain ⟨j, hj, hjs⟩ := List.mem_iff_getElem.1 hs
  have hj' : (dec (given evs) a).2[j]? = some (.str s) := by rw [List.getElem?_eq_getElem hj, hjs]
  simp only [dec, List.getElem?_zipWith] at hj'
  cases ht : (optypes a.op)[j]? with
  | none => rw [ht] at hj'; simp at hj'
  | some t =>
    cases ho : a.opv[j]? with
    | none => rw [ht, ho] at hj'; simp at hj'
    | some o =>
      rw [ht, ho] at hj'
      simp only [Option.some.injEq] at hj'
      have hok := hkind j t o ht ho
      cases o with
      | str v =>
        cases t <;> simp [opdValue] at hj' <;> first
          | (subst hj'; exact (hin a ha).1 v (List.mem_of_getElem? ho))
      | promise l =>
        exfalso
        cases t <;> simp [kindOk] at hok <;> (simp only [opdValue] at hj'; cases hg : (given evs).lookup l <;> rw [hg] at hj' <;> simp at hj')
      | idx v => cases t <;> simp [opdValue] at hj'
      | int v => cases t <;> simp [opdValue] at hj'
      | float v => cases t <;> simp [opdValue] at hj'

/-- C84: a text that the grammar reads as a program whose tree meets the conditions of the code generator is compiled, and
what is found in the executable is the code of that program. -/
theorem C84_compiled (flt : List UInt8 → Option (BitVec 64)) (past : UInt8) (src : List UInt8) (ts : List Token) (root : RStmts)
    (p : Stmts) (h1 : Split src 0 ts) (h2 : Program flt ts root) (h3 : root.elab false = some p) :
    ∃ e, compileText flt past src = .ok e ∧ e.body.length = (compile p).length ∧
      ∀ i, Exe.fetch e i = ((compile p)[i]?).map Instr.encode := by
  have hp := (C80_parse flt past src root).mpr ⟨ts, h1, h2⟩
  obtain ⟨evs, b, e, hc, hb, hf, hl, hi⟩ := codegen_accepts root src.length p h3
  refine ⟨e, ?_, hl, hi (compile_noNul hp h3)⟩
  unfold compileText
  rw [hp, Exec.bind_ok, hc, Exec.bind_ok, hb]
  simp only [hf]

/-- C84: nothing else is compiled. -/
theorem C84_only (flt : List UInt8 → Option (BitVec 64)) (past : UInt8) (src : List UInt8) (e : Executable)
    (h : compileText flt past src = .ok e) :
    ∃ ts root p, Split src 0 ts ∧ Program flt ts root ∧ root.elab false = some p ∧ e.body.length = (compile p).length ∧
      ∀ i, Exe.fetch e i = ((compile p)[i]?).map Instr.encode := by
  obtain ⟨root, hp, h2⟩ := Exec.bind_eq_ok.mp h
  obtain ⟨ts, hs, hpr⟩ := (C80_parse flt past src root).mp hp
  cases he : root.elab false with
  | none =>
    rw [codegen_rejects root _ he] at h2
    cases h2
  | some p =>
    obtain ⟨e', h', hl, hi⟩ := C84_compiled flt past src ts root p hs hpr he
    rw [h'] at h
    cases h
    exact ⟨ts, root, p, hs, hpr, he, hl, hi⟩

/-- C84: a text is never compiled in two ways. -/
theorem C84_past (flt : List UInt8 → Option (BitVec 64)) (past past' : UInt8) (src : List UInt8) (e : Executable)
    (h : compileText flt past src = .ok e) : compileText flt past' src = .ok e := by
  obtain ⟨root, hp, h2⟩ := Exec.bind_eq_ok.mp h
  obtain ⟨ts, hs, hpr⟩ := (C80_parse flt past src root).mp hp
  have hp' := (C80_parse flt past' src root).mpr ⟨ts, hs, hpr⟩
  unfold compileText
  rw [hp', Exec.bind_ok]
  exact h2

/-- `x = 1;` meets the conditions. -/
example : (compileText (fun _ => none) 0 [120, 32, 61, 32, 49, 59] >>= fun e =>
      .ok [Exe.fetch e 0, Exe.fetch e 1, Exe.fetch e 2, Exe.fetch e 3]) =
    .ok [some (.PUSHINT, [.int 1]), some (.ASS, [.str [120]]), some (.POP, [.int 1]), some (.EXIT, [])] := by decide +kernel

/-- C55: the position of every instruction of a text lies in the text, and the line shown for it is one plus the number of
newlines before it; no line is shown for an instruction that does not exist. -/
theorem C55_compiled (flt : List UInt8 → Option (BitVec 64)) (past : UInt8) (src : List UInt8) (e : Executable)
    (h : compileText flt past src = .ok e) (i : Nat) :
    (i < e.body.length → ∃ off : Nat, off ≤ src.length ∧ instrOffset e i = off ∧
      shownLine (some src) (instrOffset e i) = .ok (1 + (src.take off).count 10)) ∧
    (e.body.length ≤ i → shownLine (some src) (instrOffset e i) = .ok 0) := by
  obtain ⟨root, hp, h2⟩ := Exec.bind_eq_ok.mp h
  obtain ⟨evs, hc, h3⟩ := Exec.bind_eq_ok.mp h2
  cases he : root.elab false with
  | none =>
    rw [codegen_rejects root _ he] at hc
    cases hc
  | some p =>
    obtain ⟨evs', b, e', hc', hb, hf, hl, -⟩ := codegen_accepts root src.length p he
    rw [hc'] at hc
    cases hc
    rw [hb] at h3
    simp only [hf] at h3
    cases h3
    obtain ⟨hn, hlen, -, -⟩ := codegen_labels root _ p he evs hc'
    have hin := mem_appends_in (codegen_within (by omega) (parse_within flt past src root hp) hc')
    constructor
    · intro hi
      have hi' : i < (appends evs).length := by omega
      have ha := List.getElem?_eq_getElem hi'
      obtain ⟨ho, -⟩ := C11_positions evs b e hb hf hn i _ ha
      obtain ⟨-, h1, h2, -⟩ := hin _ (List.getElem_mem hi')
      dsimp only at h1 h2
      refine ⟨((appends evs)[i]).off.toNat, by omega, by omega, ?_⟩
      rw [ho]
      have := C55_line src ((appends evs)[i]).off.toNat (by omega)
      rwa [Int.toNat_of_nonneg h1] at this
    · intro hi
      have : instrOffset e i = -1 := by
        unfold instrOffset
        rw [List.getElem?_eq_none hi]
      rw [this]
      rfl

/-! ## The line of a failed instruction -/

/-- The texts and executables loaded, and the code that the machine runs. -/
def Loaded (flt : List UInt8 → Option (BitVec 64)) (es : List (List UInt8 × Executable)) (exes : List (List Instr)) : Prop :=
  ∀ (k : Nat) src e, es[k]? = some (src, e) → (∃ past, compileText flt past src = .ok e) ∧
    ∃ code, exes[k]? = some code ∧ ∀ i, Exe.fetch e i = (code[i]?).map Instr.encode

/-- runtime.c:143-212: the line shown for a frame. -/
def frameLine (es : List (List UInt8 × Executable)) : Frame → Exec Nat
  | .normal f =>
    match es[f.exe]? with
    | some (src, e) => shownLine (some src) (instrOffset e f.idx)
    | none => shownLine none 0
  | .native _ => shownLine none (-1)

/-- The topmost frame of a program. -/
def topFrame : List Frame → Option NFrame
  | [] => none
  | .normal f :: _ => some f
  | .native _ :: fs => topFrame fs

/-- Instructions that end a loop. -/
def endsLoop : Instr → Bool
  | .exit => true
  | .ret _ => true
  | _ => false

section
variable {W : Type} {L : Layer W} {cap : Nat}

/-- The frame of the program is still the one of the instruction, at the next one. -/
def Still (g : NFrame) (s : St W) : Prop := ∃ f, topFrame s.frames = some f ∧ f.exe = g.exe ∧ f.idx = g.idx

/-- If it fails then in that frame. -/
def FailsAt (g : NFrame) (x : Status W) : Prop := ∀ s, x = .err s → Still g s

/-- Where the frame on top is the one of the instruction. -/
def OnTop (g : NFrame) (s : St W) : Prop := ∃ f fs, s.frames = .normal f :: fs ∧ f.exe = g.exe ∧ f.idx = g.idx

theorem OnTop.still {g : NFrame} {s : St W} (h : OnTop g s) : Still g s := by
  obtain ⟨f, fs, h1, h2⟩ := h
  exact ⟨f, by rw [h1]; rfl, h2⟩

theorem OnTop.w {g : NFrame} {s : St W} (h : OnTop g s) (w : W) : OnTop g { s with w := w } := h

/-- A push onto a frame of a program does not fail but for want of room. -/
theorem push_top {s : St W} {f : NFrame} {fs : List Frame} (h1 : s.frames = .normal f :: fs) (v : Ref) :
    (∀ t, s.push cap v ≠ .err t) ∧ ∀ s', s.push cap v = .run s' → ∃ g, s'.frames = .normal g :: fs := by
  unfold St.push
  rw [h1]
  simp only
  by_cases a : f.used = maxFrameStack
  · rw [if_pos a]; exact ⟨nofun, nofun⟩
  · rw [if_neg a]
    by_cases b : cap ≤ s.stack.length
    · rw [if_pos b]; exact ⟨nofun, nofun⟩
    · rw [if_neg b]
      refine ⟨nofun, fun s' h => ?_⟩
      cases h
      exact ⟨_, rfl⟩

theorem pushAll_top : ∀ (vs : List Ref) {s : St W} {f : NFrame} {fs : List Frame}, s.frames = .normal f :: fs →
    ∀ t, s.pushAll cap vs ≠ .err t
  | [], s, f, fs, h => nofun
  | v :: vs, s, f, fs, h => by
    intro t ht
    unfold St.pushAll at ht
    obtain ⟨h1, h2⟩ := push_top (cap := cap) h v
    cases hp : s.push cap v with
    | run s' =>
      rw [hp] at ht
      obtain ⟨g, hg⟩ := h2 s' hp
      exact pushAll_top vs hg t ht
    | err s' => exact h1 _ hp
    | done a b => rw [hp] at ht; cases ht
    | limit a => rw [hp] at ht; cases ht
    | ub => rw [hp] at ht; cases ht

theorem failsAt_push {g : NFrame} {s : St W} (h : OnTop g s) (v : Ref) : FailsAt g (s.push cap v) := by
  obtain ⟨f, fs, h1, h2⟩ := h
  exact fun t ht => absurd ht ((push_top h1 v).1 t)

theorem failsAt_pushAll {g : NFrame} (vs : List Ref) {s : St W} (h : OnTop g s) : FailsAt g (s.pushAll cap vs) := by
  obtain ⟨f, fs, h1, h2⟩ := h
  exact fun t ht => absurd ht (pushAll_top vs h1 t)

theorem failsAt_pop {g : NFrame} {s : St W} (h : OnTop g s) (n : Nat) {k : List Ref → St W → Status W}
    (hk : ∀ vs t, OnTop g t → FailsAt g (k vs t)) : FailsAt g (s.pop n k) := by
  obtain ⟨f, fs, h1, h2⟩ := h
  intro t ht
  unfold St.pop at ht
  rw [h1] at ht
  simp only at ht
  by_cases a : f.used < n
  · rw [if_pos a] at ht
    cases ht
    exact OnTop.still ⟨f, fs, h1, h2⟩
  · rw [if_neg a] at ht
    exact hk _ _ ⟨{ f with used := f.used - n }, fs, rfl, h2⟩ t ht

theorem failsAt_peek {g : NFrame} {s : St W} (h : OnTop g s) (n : Nat) {k : List Ref → Status W}
    (hk : ∀ vs, FailsAt g (k vs)) : FailsAt g (s.peek n k) := by
  obtain ⟨f, fs, h1, h2⟩ := h
  intro t ht
  unfold St.peek at ht
  rw [h1] at ht
  simp only at ht
  by_cases a : f.used < n
  · rw [if_pos a] at ht
    cases ht
    exact OnTop.still ⟨f, fs, h1, h2⟩
  · rw [if_neg a] at ht
    exact hk _ t ht

theorem failsAt_prim {α : Type} {g : NFrame} {s : St W} (h : Still g s) (o : Out W α) {k : α → St W → Status W}
    (hk : ∀ w a, o = .ok w a → FailsAt g (k a { s with w := w })) : FailsAt g (s.prim o k) := by
  intro t ht
  unfold St.prim at ht
  cases o with
  | ok w a => exact hk w a rfl t ht
  | err w => cases ht; exact h
  | ub => cases ht

theorem failsAt_goto {g : NFrame} {s : St W} (h : OnTop g s) (a : Nat) : FailsAt g (s.goto a) := by
  obtain ⟨f, fs, h1, h2⟩ := h
  intro t ht
  unfold St.goto at ht
  rw [h1] at ht
  cases ht

theorem failsAt_run {g : NFrame} (s : St W) : FailsAt g (.run s) := fun _ h => by cases h
theorem failsAt_limit {g : NFrame} (s : St W) : FailsAt g (.limit s) := fun _ h => by cases h
theorem failsAt_ub {g : NFrame} : FailsAt g (.ub : Status W) := fun _ h => by cases h
theorem failsAt_err {g : NFrame} {s : St W} (h : OnTop g s) : FailsAt g (.err s) := by
  intro t ht
  cases ht
  exact h.still

theorem failsAt_deliver {g : NFrame} {s : St W} (h : OnTop g s) (want : Nat) (rets : List Ref) :
    FailsAt g (deliver L cap want rets s) := by
  unfold deliver
  by_cases a : maxRets < min rets.length want
  · rw [if_pos a]; exact failsAt_ub
  · rw [if_neg a]; exact failsAt_pushAll _ h

theorem failsAt_enter {g : NFrame} {s : St W} (h : Still g s) (exe addr : Nat) (clo : Option Ref) (want : Nat) (args : List Ref) :
    FailsAt g (enter L cap exe addr clo want args s) := by
  unfold enter
  refine failsAt_prim h _ fun w locals _ => ?_
  by_cases a : maxFrames ≤ s.frames.length
  · simp only [a, if_true]; exact failsAt_limit _
  · simp only [a, if_false]
    exact fun t ht => absurd ht (pushAll_top _ rfl t)

theorem failsAt_call {g : NFrame} {s : St W} (h : OnTop g s) (f : Ref) (argv : List Ref) (want : Nat) :
    FailsAt g (callObj L cap f argv want s) := by
  unfold callObj
  refine failsAt_prim h.still _ fun w c _ => ?_
  cases c with
  | no => exact failsAt_err h
  | noja clo =>
    simp only
    cases s.funcs f with
    | none => exact failsAt_ub
    | some fn => exact failsAt_enter (s := { s with w := w }) h.still _ _ _ _ _
  | native id argc =>
    simp only
    by_cases a : maxFrames ≤ s.frames.length
    · rw [if_pos a]; exact failsAt_limit _
    · rw [if_neg a]
      have hn : Still g { s with w := w, frames := Frame.native want :: s.frames } := h.still
      refine failsAt_prim hn _ fun w' r _ => ?_
      cases r with
      | done rets => exact failsAt_deliver (s := { s with w := w' }) h _ _
      | load p =>
        simp only
        by_cases b : p.wf false = true
        · rw [if_pos b]; exact failsAt_enter (s := { s with w := w', exes := s.exes ++ [compile p], frames := Frame.native want :: s.frames }) hn _ _ _ _ _
        · rw [if_neg b]; exact failsAt_ub

theorem failsAt_exec {g : NFrame} (i : Instr) (hi : endsLoop i = false) {s : St W} (h : OnTop g s) : FailsAt g (execI L cap i s) := by
  cases i with
  | nope => exact failsAt_run _
  | un op =>
    have gen : FailsAt g (s.pop 1 fun vs s =>
        match vs with
        | [a] => s.prim (L.un op a s.w) fun r s => s.push cap r
        | _ => .ub) := by
      refine failsAt_pop h 1 fun vs t ht => ?_
      rcases vs with _ | ⟨a, _ | ⟨b, vs⟩⟩
      · exact failsAt_ub
      · exact failsAt_prim ht.still _ fun w r _ => failsAt_push (ht.w w) r
      · exact failsAt_ub
    cases op with
    | pos => exact failsAt_peek h 1 fun _ => failsAt_run _
    | nlb => exact gen
    | not => exact gen
    | neg => exact gen
  | bin op =>
      unfold execI
      refine failsAt_pop h 2 fun vs t ht => ?_
      rcases vs with _ | ⟨a, _ | ⟨b, _ | ⟨c, vs⟩⟩⟩
      · exact failsAt_ub
      · exact failsAt_ub
      · exact failsAt_prim ht.still _ fun w r _ => failsAt_push (ht.w w) r
      · exact failsAt_ub
  | ass n =>
      unfold execI
      refine failsAt_peek h 1 fun vs => ?_
      obtain ⟨f, fs, h1, h2⟩ := h
      rcases vs with _ | ⟨a, _ | ⟨b, vs⟩⟩
      · exact failsAt_ub
      · simp only [h1]
        exact failsAt_prim (OnTop.still ⟨f, fs, h1, h2⟩) _ fun w r _ => failsAt_run _
      · exact failsAt_ub
  | pop n => exact failsAt_pop (k := fun _ s => .run s) h n fun vs t ht => failsAt_run _
  | checkType a b =>
      unfold execI
      refine failsAt_peek h 2 fun vs => ?_
      rcases vs with _ | ⟨a, _ | ⟨b, _ | ⟨c, vs⟩⟩⟩
      · exact failsAt_ub
      · exact failsAt_ub
      · exact failsAt_pop h 1 fun _ t ht => failsAt_prim ht.still _ fun w r _ => by
          cases r
          · exact failsAt_err (ht.w w)
          · exact failsAt_run _
      · exact failsAt_ub
  | call argc want =>
      unfold execI
      refine failsAt_pop h 1 fun vs t ht => ?_
      rcases vs with _ | ⟨a, _ | ⟨b, vs⟩⟩
      · exact failsAt_ub
      · simp only
        by_cases c : maxArgs < argc
        · rw [if_pos c]; exact failsAt_limit _
        · rw [if_neg c]; exact failsAt_pop ht _ fun argv u hu => failsAt_call hu _ _ _
      · exact failsAt_ub
  | select =>
      unfold execI
      refine failsAt_peek h 2 fun vs => ?_
      rcases vs with _ | ⟨a, _ | ⟨b, _ | ⟨c, vs⟩⟩⟩
      · exact failsAt_ub
      · exact failsAt_ub
      · exact failsAt_pop h 2 fun _ t ht => failsAt_prim ht.still _ fun w r _ => failsAt_push (ht.w w) r
      · exact failsAt_ub
  | select2 =>
      unfold execI
      refine failsAt_peek h 2 fun vs => ?_
      rcases vs with _ | ⟨a, _ | ⟨b, _ | ⟨c, vs⟩⟩⟩
      · exact failsAt_ub
      · exact failsAt_ub
      · exact failsAt_pop h 1 fun _ t ht => failsAt_prim ht.still _ fun w r _ => failsAt_push (ht.w w) r
      · exact failsAt_ub
  | insert =>
      unfold execI
      refine failsAt_peek h 3 fun vs => ?_
      rcases vs with _ | ⟨a, _ | ⟨b, _ | ⟨c, _ | ⟨d, vs⟩⟩⟩⟩
      · exact failsAt_ub
      · exact failsAt_ub
      · exact failsAt_ub
      · exact failsAt_pop h 2 fun _ t ht => failsAt_prim ht.still _ fun w r _ => failsAt_run _
      · exact failsAt_ub
  | insert2 =>
      unfold execI
      refine failsAt_peek h 3 fun vs => ?_
      rcases vs with _ | ⟨a, _ | ⟨b, _ | ⟨c, _ | ⟨d, vs⟩⟩⟩⟩
      · exact failsAt_ub
      · exact failsAt_ub
      · exact failsAt_ub
      · exact failsAt_pop h 2 fun _ t ht => failsAt_prim ht.still _ fun w r _ => failsAt_run _
      · exact failsAt_ub
  | pushInt v => exact failsAt_prim h.still _ fun w r _ => failsAt_push (h.w w) r
  | pushFlt v => exact failsAt_prim h.still _ fun w r _ => failsAt_push (h.w w) r
  | pushStr v => exact failsAt_prim h.still _ fun w r _ => failsAt_push (h.w w) r
  | pushVar n =>
    have h0 := h
    obtain ⟨f, fs, h1, h2⟩ := h
    simp only [execI, h1]
    exact failsAt_prim h0.still _ fun w r _ => failsAt_push (h0.w w) r
  | pushNne => exact failsAt_push h _
  | pushTru => exact failsAt_push h _
  | pushFls => exact failsAt_push h _
  | pushFun a argc n =>
    have h0 := h
    obtain ⟨f, fs, h1, h2⟩ := h
    simp only [execI, h1]
    exact failsAt_prim h0.still _ fun w r _ => failsAt_push (s := { s with w := w, funcs := _ }) ⟨f, fs, h1, h2⟩ r
  | pushLst n => exact failsAt_prim h.still _ fun w r _ => failsAt_push (h.w w) r
  | pushMap n => exact failsAt_prim h.still _ fun w r _ => failsAt_push (h.w w) r
  | pushNneTyp => exact failsAt_push h _
  | pushTyp =>
      unfold execI
      refine failsAt_peek h 1 fun vs => ?_
      rcases vs with _ | ⟨a, _ | ⟨b, vs⟩⟩
      · exact failsAt_ub
      · exact failsAt_prim h.still _ fun w r _ => failsAt_push (h.w w) r
      · exact failsAt_ub
  | exit => cases hi
  | ret n => cases hi
  | jump a => exact failsAt_goto h a
  | jumpIf a =>
      unfold execI
      refine failsAt_pop h 1 fun vs t ht => ?_
      rcases vs with _ | ⟨a, _ | ⟨b, vs⟩⟩
      · exact failsAt_ub
      · exact failsAt_prim ht.still _ fun w r _ => by
          cases r
          · exact failsAt_run _
          · exact failsAt_goto (ht.w w) _
      · exact failsAt_ub
  | jumpIfNot a =>
      unfold execI
      refine failsAt_pop h 1 fun vs t ht => ?_
      rcases vs with _ | ⟨a, _ | ⟨b, vs⟩⟩
      · exact failsAt_ub
      · exact failsAt_prim ht.still _ fun w r _ => by
          cases r
          · exact failsAt_goto (ht.w w) _
          · exact failsAt_run _
      · exact failsAt_ub

/-- C82: when an instruction fails, the line shown for the frame of the program is that of the instruction. -/
def C82Statement : Prop :=
  ∀ (W : Type) (L : Layer W) (cap : Nat) (flt : List UInt8 → Option (BitVec 64)) (es : List (List UInt8 × Executable)) (s s' : St W)
    (f g : NFrame) (fs : List Frame) (i : Instr), Loaded flt es s.exes → s.frames = .normal f :: fs →
    fetch s.exes f.exe f.idx = some i → endsLoop i = false → step L cap s = .err s' → topFrame s'.frames = some g →
    frameLine es (.normal g) = frameLine es (.normal f)

/-- C82, what holds: the frame is that of the instruction, but the line shown is that of the next instruction in the code. -/
theorem C82_partial {s s' : St W} {f : NFrame} {fs : List Frame} {i : Instr} (hf : s.frames = .normal f :: fs)
    (hi : fetch s.exes f.exe f.idx = some i) (he : endsLoop i = false) (h : step L cap s = .err s') :
    ∃ g, topFrame s'.frames = some g ∧ g.exe = f.exe ∧ g.idx = f.idx + 1 ∧
      ∀ es : List (List UInt8 × Executable), frameLine es (.normal g) = frameLine es (.normal { f with idx := f.idx + 1 }) := by
  unfold step at h
  rw [hf] at h
  simp only [hi] at h
  obtain ⟨g, h1, h2, h3⟩ := failsAt_exec (L := L) (cap := cap) i he
    (g := { f with idx := f.idx + 1 }) (s := { s with frames := .normal { f with idx := f.idx + 1 } :: fs })
    ⟨_, fs, rfl, rfl, rfl⟩ _ h
  refine ⟨g, h1, h2, h3, fun es => ?_⟩
  simp only [frameLine]
  rw [h2, h3]
end

/-! ### The program

    if 1:
    x;

fails in its first line. -/

def wrongLine : List UInt8 := [105, 102, 32, 49, 58, 10, 120, 59, 10]

def wrongProg : Stmts := .cons (.ifOnly (.int 1) (.expr (.ident [120]))) .nil

namespace Demo

def isErr : Status World → Bool
  | .err _ => true
  | _ => false

def getErr : Status World → St World
  | .err s => s
  | _ => s₀

theorem err_get {x : Status World} (h : isErr x = true) : x = .err (getErr x) := by
  cases x <;> first | rfl | cases h

/-- The machine before the jump. -/
def wrongState : St World := get (runN L 100 1 (get (boot L 100 0 ⟨world, fun _ => none, [compile wrongProg], [], []⟩)))

/-- The machine after it. -/
def wrongEnd : St World := getErr (step L 100 wrongState)

end Demo

open Demo in
theorem C82_violated : ¬ C82Statement := by
  intro h
  have hc : ∃ e, compileText (fun _ => none) 0 wrongLine = .ok e ∧
      (∀ i, Exe.fetch e i = ((compile wrongProg)[i]?).map Instr.encode) ∧ instrOffset e 1 = 3 ∧ instrOffset e 2 = 6 := by
    cases he : compileText (fun _ => none) 0 wrongLine with
    | ok e =>
      obtain ⟨ts, root, p, h1, h2, h3, -, h4⟩ := C84_only _ _ _ _ he
      have hp : parse (fun _ => none) 0 wrongLine = .ok root := (C80_parse _ _ _ _).mpr ⟨ts, h1, h2⟩
      have h5 : (parse (fun _ => none) 0 wrongLine >>= fun root => .ok ((root.elab false).map compile)) =
        .ok (some (compile wrongProg)) := by decide +kernel
      rw [hp, Exec.bind_ok, h3] at h5
      have h6 : compile p = compile wrongProg := by
        injection h5 with h5
        injection h5
      have h7 : (compileText (fun _ => none) 0 wrongLine >>= fun e => .ok (instrOffset e 1, instrOffset e 2)) = .ok (3, 6) := by
        decide +kernel
      rw [he, Exec.bind_ok] at h7
      injection h7 with h7
      injection h7 with h8 h9
      exact ⟨e, rfl, by rw [← h6]; exact h4, h8, h9⟩
    | err =>
      have : (compileText (fun _ => none) 0 wrongLine >>= fun e => .ok ()) = .ok () := by decide +kernel
      rw [he] at this
      cases this
    | ub =>
      have : (compileText (fun _ => none) 0 wrongLine >>= fun e => .ok ()) = .ok () := by decide +kernel
      rw [he] at this
      cases this
    | diverge =>
      have : (compileText (fun _ => none) 0 wrongLine >>= fun e => .ok ()) = .ok () := by decide +kernel
      rw [he] at this
      cases this
  obtain ⟨e, he, hf, ho1, ho2⟩ := hc
  have hx : wrongState.exes = [compile wrongProg] := by decide +kernel
  have hl : Loaded (fun _ => none) [(wrongLine, e)] wrongState.exes := by
    intro k src e' hk
    cases k with
    | zero =>
      simp only [List.getElem?_cons_zero, Option.some.injEq, Prod.mk.injEq] at hk
      obtain ⟨rfl, rfl⟩ := hk
      exact ⟨⟨0, he⟩, compile wrongProg, by rw [hx]; rfl, hf⟩
    | succ k => simp at hk
  have ht : (top wrongState).map (fun f => (f.exe, f.idx)) = some (0, 1) := by decide +kernel
  cases hf0 : top wrongState with
  | none => rw [hf0] at ht; cases ht
  | some f =>
    rw [hf0] at ht
    simp only [Option.map_some, Option.some.injEq, Prod.mk.injEq] at ht
    obtain ⟨fs, hfs⟩ := top_eq hf0
    have hs : step L 100 wrongState = .err wrongEnd := err_get (by decide +kernel)
    have hi : fetch wrongState.exes f.exe f.idx = some (.jumpIfNot 4) := by
      rw [hx, ht.1, ht.2]; decide
    obtain ⟨g, hg, h1, h2, -⟩ := C82_partial (L := L) (cap := 100) hfs hi rfl hs
    have := h World L 100 (fun _ => none) _ _ _ _ _ _ _ hl hfs hi rfl hs hg
    simp only [frameLine, h1, h2, ht.1, ht.2, List.getElem?_cons_zero, ho1, ho2] at this
    revert this
    decide

open Demo in
/-- The failed jump meets the conditions of `C82_partial`. -/
example : ∃ f fs, wrongState.frames = .normal f :: fs ∧ fetch wrongState.exes f.exe f.idx = some (.jumpIfNot 4) ∧
    step L 100 wrongState = .err wrongEnd := by
  have hx : wrongState.exes = [compile wrongProg] := by decide +kernel
  have ht : (top wrongState).map (fun f => (f.exe, f.idx)) = some (0, 1) := by decide +kernel
  cases hf0 : top wrongState with
  | none => rw [hf0] at ht; cases ht
  | some f =>
    rw [hf0] at ht
    simp only [Option.map_some, Option.some.injEq, Prod.mk.injEq] at ht
    obtain ⟨fs, hfs⟩ := top_eq hf0
    exact ⟨f, fs, hfs, by rw [hx, ht.1, ht.2]; decide, err_get (by decide +kernel)⟩

end Noja.VM
