import Verif.VM.Codegen
import Verif.VM.SimBase

/-! # `codegen.c` produces the instructions of `compile`: proof -/

namespace Noja.VM

open Noja.Exe (Opcode Opd FOpd Ev App OpType optypes opdValue given appends kindOk)

set_option linter.unusedSimpArgs false
set_option linter.unusedVariables false

/-! ## Single instructions -/

section
variable {k : Option (Nat × Nat)} {off len : Int}

theorem spec0 (op : Opcode) (i : Instr) (ho : optypes op = []) (hi : i.encode = (op, [])) :
    Spec (emitI op [] off len) k (some fun _ => [i]) :=
  Spec.instr i (kinds0 ho) (fun env => by simp [dec, ho, hi])

theorem spec_pop1 : Spec (emitPop1 off len) k (some fun _ => [.pop 1]) :=
  Spec.instr (.pop 1) (kinds1 .int rfl rfl) (fun env => rfl)

theorem spec_ass (n : Name) : Spec (emitI .ASS [.str n] off len) k (some fun _ => [.ass n]) :=
  Spec.instr (.ass n) (kinds1 .str rfl rfl) (fun env => rfl)

theorem spec_call (a w : Nat) :
    Spec (emitI .CALL [.int a, .int w] off len) k (some fun _ => [.call a w]) :=
  Spec.instr (.call a w) (kinds2 .int .int rfl rfl rfl) (fun env => rfl)

theorem spec_ret (a : Nat) :
    Spec (emitI .RETURN [.int a] off len) k (some fun _ => [.ret a]) :=
  Spec.instr (.ret a) (kinds1 .int rfl rfl) (fun env => rfl)

/-! ## Pieces without labels -/

variable {m m1 m2 m3 : EM Unit}

theorem spec_un {o : Option Expr} (h : Spec m k (o.map Expr.code)) (op : UnOp) :
    Spec (do m; emitI op.opcode [] off len) k ((o.bind fun a => some (.un op a)).map Expr.code) := by
  refine (h.seq (spec0 op.opcode (.un op) op.optypes rfl)).cast ?_
  cases o with
  | none => rfl
  | some a => simp [seqCode, Expr.code]; rfl

theorem spec_bin {o1 o2 : Option Expr} (h1 : Spec m1 k (o1.map Expr.code))
    (h2 : Spec m2 k (o2.map Expr.code)) (op : Opcode) (i : Instr) (f : Expr → Expr → Expr)
    (ho : optypes op = []) (hi : i.encode = (op, []))
    (hf : ∀ a b p, (f a b).code p = a.code p ++ b.code (p + a.len) ++ [i]) :
    Spec (do m1; m2; emitI op [] off len) k
      ((o1.bind fun a => o2.bind fun b => some (f a b)).map Expr.code) := by
  refine (h1.seq (h2.seq (spec0 op i ho hi))).cast ?_
  cases o1 with
  | none => rfl
  | some a =>
    cases o2 with
    | none => rfl
    | some b =>
      simp only [Option.map_some, Option.bind_some]
      congr 1
      funext p
      simp [seqCode, hf]

theorem spec_sel2 {α : Type} {cd : α → Nat → List Instr} {o1 o2 : Option Expr}
    (h1 : Spec m1 k (o1.map Expr.code))
    (h2 : Spec m2 k (o2.map Expr.code)) (op : Opcode) (i : Instr) (f : Expr → Expr → α)
    (ho : optypes op = []) (hi : i.encode = (op, []))
    (hf : ∀ a b p, cd (f a b) p = a.code p ++ b.code (p + a.len) ++ [i]) :
    Spec (do m1; m2; emitI op [] off len) k
      ((o1.bind fun a => o2.bind fun b => some (f a b)).map cd) := by
  refine (h1.seq (h2.seq (spec0 op i ho hi))).cast ?_
  cases o1 with
  | none => rfl
  | some a =>
    cases o2 with
    | none => rfl
    | some b =>
      simp only [Option.map_some, Option.bind_some]
      congr 1
      funext p
      simp [seqCode, hf]

theorem spec_fn {oa : Option Exprs} {of : Option Expr} (ha : Spec m1 k (oa.map Exprs.code))
    (hf : Spec m2 k (of.map Expr.code)) (n w : Nat) (hn : ∀ es, oa = some es → es.count = n) :
    Spec (do m1; m2; emitI .CALL [.int n, .int w] off len) k
      ((oa.bind fun args => of.bind fun f => some (Call.fn f args)).map fun c => c.code w) := by
  refine (ha.seq (hf.seq (spec_call n w))).cast ?_
  cases oa with
  | none => rfl
  | some a =>
    have := hn a rfl
    cases of with
    | none => rfl
    | some b =>
      simp only [Option.map_some, Option.bind_some]
      congr 1
      funext p
      simp [seqCode, Call.code, this]

theorem spec_method {oa : Option Exprs} {os oi : Option Expr} {q : Pos}
    (ha : Spec m1 k (oa.map Exprs.code)) (hs : Spec m2 k (os.map Expr.code))
    (hi : Spec m3 k (oi.map Expr.code)) (n w : Nat) (hn : ∀ es, oa = some es → es.count = n) :
    Spec (do m1; m2; m3; emitI .SELECT2 [] q.off q.len; emitI .CALL [.int (n + 1 : Nat), .int w] off len) k
      ((oa.bind fun args => os.bind fun s => oi.bind fun i => some (Call.method s i args)).map
        fun c => c.code w) := by
  refine (ha.seq (hs.seq (hi.seq ((spec0 .SELECT2 .select2 rfl rfl).seq (spec_call (n + 1) w))))).cast ?_
  cases oa with
  | none => rfl
  | some a =>
    have := hn a rfl
    cases os with
    | none => rfl
    | some s =>
      cases oi with
      | none => rfl
      | some i =>
        simp only [Option.map_some, Option.bind_some]
        congr 1
        funext p
        simp [seqCode, Call.code, this]

theorem spec_exprs {o1 : Option Expr} {o2 : Option Exprs} (h1 : Spec m1 k (o1.map Expr.code))
    (h2 : Spec m2 k (o2.map Exprs.code)) :
    Spec (do m1; m2) k
      ((o1.bind fun e => o2.bind fun es => some (Exprs.cons e es)).map Exprs.code) := by
  refine (h1.seq h2).cast ?_
  cases o1 with
  | none => rfl
  | some a =>
    cases o2 with
    | none => rfl
    | some b =>
      simp only [Option.map_some, Option.bind_some]
      congr 1
      funext p
      simp [seqCode, Exprs.code]

theorem spec_items {o1 : Option Expr} {o2 : Option Exprs} {q : Pos} (i : Nat)
    (h1 : Spec m1 k (o1.map Expr.code)) (h2 : Spec m2 k (o2.map fun es => es.codeItems (i + 1))) :
    Spec (do emitI .PUSHINT [.int i] q.off q.len; m1; emitI .INSERT [] q.off q.len; m2) k
      ((o1.bind fun e => o2.bind fun es => some (Exprs.cons e es)).map fun es => es.codeItems i) := by
  have hp : Spec (emitI .PUSHINT [.int i] q.off q.len) k (some fun _ => [.pushInt i]) :=
    Spec.instr (.pushInt i) (kinds1 .int rfl rfl) (fun env => rfl)
  refine (hp.seq (h1.seq ((spec0 .INSERT .insert rfl rfl).seq h2))).cast ?_
  cases o1 with
  | none => rfl
  | some a =>
    cases o2 with
    | none => rfl
    | some b =>
      simp only [Option.map_some, Option.bind_some]
      congr 1
      funext p
      simp [seqCode, Exprs.codeItems, Nat.add_assoc]

theorem spec_pairs {o1 o2 : Option Expr} {o3 : Option Pairs}
    (h1 : Spec m1 k (o1.map Expr.code)) (h2 : Spec m2 k (o2.map Expr.code))
    (h3 : Spec m3 k (o3.map Pairs.code)) :
    Spec (do m1; m2; emitI .INSERT [] off len; m3) k
      ((o1.bind fun a => o2.bind fun b => o3.bind fun ps => some (Pairs.cons a b ps)).map
        Pairs.code) := by
  refine (h1.seq (h2.seq ((spec0 .INSERT .insert rfl rfl).seq h3))).cast ?_
  cases o1 with
  | none => rfl
  | some a =>
    cases o2 with
    | none => rfl
    | some b =>
      cases o3 with
      | none => rfl
      | some c =>
        simp only [Option.map_some, Option.bind_some]
        congr 1
        funext p
        simp [seqCode, Pairs.code, Nat.add_assoc]

theorem spec_list {o : Option Exprs} (n : Nat) (h : Spec m k (o.map fun es => es.codeItems 0))
    (hn : ∀ es, o = some es → es.count = n) :
    Spec (do emitI .PUSHLST [.int n] off len; m) k
      ((o.bind fun es => some (Expr.list es)).map Expr.code) := by
  have hp : Spec (emitI .PUSHLST [.int n] off len) k (some fun _ => [.pushLst n]) :=
    Spec.instr (.pushLst n) (kinds1 .int rfl rfl) (fun env => rfl)
  refine (hp.seq h).cast ?_
  cases o with
  | none => rfl
  | some a =>
    have := hn a rfl
    simp only [Option.map_some, Option.bind_some]
    congr 1
    funext p
    simp [seqCode, Expr.code, this]

theorem spec_map {o : Option Pairs} (n : Nat) (h : Spec m k (o.map Pairs.code))
    (hn : ∀ es, o = some es → es.count = n) :
    Spec (do emitI .PUSHMAP [.int n] off len; m) k
      ((o.bind fun es => some (Expr.map es)).map Expr.code) := by
  have hp : Spec (emitI .PUSHMAP [.int n] off len) k (some fun _ => [.pushMap n]) :=
    Spec.instr (.pushMap n) (kinds1 .int rfl rfl) (fun env => rfl)
  refine (hp.seq h).cast ?_
  cases o with
  | none => rfl
  | some a =>
    have := hn a rfl
    simp only [Option.map_some, Option.bind_some]
    congr 1
    funext p
    simp [seqCode, Expr.code, this]

/-! ## Pieces with labels -/

theorem em_jump (s : ES) (k : Option (Nat × Nat)) (l v : Nat) :
    Em s { s with evs := s.evs ++ [.append .JUMP [.promise l] off len true], cnt := s.cnt + 1 } k
      [] [] [(l, v)] [.jump v] :=
  Em.instr s k [(l, v)] (.jump v) (kinds1 .idx rfl rfl) (fun env h => dec_jump rfl env h)

theorem em_jumpIf (s : ES) (k : Option (Nat × Nat)) (l v : Nat) :
    Em s { s with evs := s.evs ++ [.append .JUMPIFANDPOP [.promise l] off len true], cnt := s.cnt + 1 } k
      [] [] [(l, v)] [.jumpIf v] :=
  Em.instr s k [(l, v)] (.jumpIf v) (kinds1 .idx rfl rfl) (fun env h => dec_jump rfl env h)

theorem em_jumpIfNot (s : ES) (k : Option (Nat × Nat)) (l v : Nat) :
    Em s { s with evs := s.evs ++ [.append .JUMPIFNOTANDPOP [.promise l] off len true], cnt := s.cnt + 1 } k
      [] [] [(l, v)] [.jumpIfNot v] :=
  Em.instr s k [(l, v)] (.jumpIfNot v) (kinds1 .idx rfl rfl) (fun env h => dec_jump rfl env h)

theorem em0 (s : ES) (k : Option (Nat × Nat)) (op : Opcode) (i : Instr) (ho : optypes op = [])
    (hi : i.encode = (op, [])) :
    Em s { s with evs := s.evs ++ [.append op [] off len true], cnt := s.cnt + 1 } k [] [] [] [i] :=
  Em.instr s k [] i (kinds0 ho) (fun env _ => by simp [dec, ho, hi])

theorem spec_and {o1 o2 : Option Expr}
    (h1 : Spec m1 k (o1.map Expr.code)) (h2 : Spec m2 k (o2.map Expr.code)) :
    Spec (do
      let labelEnd ← newLabel
      let labelFalse ← newLabel
      m1
      emitI .JUMPIFNOTANDPOP [.promise labelFalse] off len
      m2
      emitI .JUMPIFNOTANDPOP [.promise labelFalse] off len
      emitI .PUSHTRU [] off len
      emitI .JUMP [.promise labelEnd] off len
      setHere labelFalse
      emitI .PUSHFLS [] off len
      setHere labelEnd) k
      ((o1.bind fun a => o2.bind fun b => some (Expr.and a b)).map Expr.code) := by
  intro s
  rw [EM.bind_ok (rfl : newLabel s = _), EM.bind_ok (rfl : newLabel _ = _)]
  have g1 := h1 { s with lbl := s.lbl + 1 + 1 }
  cases o1 with
  | none => exact EM.bind_ub g1
  | some a =>
    obtain ⟨s1, e1, t1⟩ := g1
    rw [EM.bind_ok e1, EM.bind_ok (rfl : emitI _ _ _ _ s1 = _)]
    have c1 := t1.cnt
    generalize hs2 : ({ s1 with
      evs := s1.evs ++ [.append .JUMPIFNOTANDPOP [.promise (s.lbl + 1)] off len true],
      cnt := s1.cnt + 1 } : ES) = s2
    have g2 := h2 s2
    cases o2 with
    | none => exact EM.bind_ub g2
    | some b =>
      obtain ⟨s3, e3, t3⟩ := g2
      have c3 := t3.cnt
      rw [EM.bind_ok e3]
      simp only [Expr.length_code] at c1 c3
      have c2 : s2.cnt = s1.cnt + 1 := by rw [← hs2]
      have hno : s3.cnt + 3 = s.cnt + a.len + 1 + b.len + 3 := by omega
      refine ⟨_, rfl, ?_⟩
      have hj := em_jumpIfNot (off := off) (len := len) s1 k (s.lbl + 1) (s3.cnt + 3)
      rw [hs2] at hj
      have := ((Em.new s k).trans ((Em.new _ k).trans (t1.em.trans (hj.trans (t3.em.trans
        ((em_jumpIfNot (off := off) (len := len) s3 k (s.lbl + 1) (s3.cnt + 3)).trans
        ((em0 (off := off) (len := len) _ k .PUSHTRU .pushTru rfl rfl).trans
        ((em_jump (off := off) (len := len) _ k s.lbl (s3.cnt + 4)).trans
        ((Em.here _ k (s.lbl + 1)).trans
        ((em0 (off := off) (len := len) _ k .PUSHFLS .pushFls rfl rfl).trans
        (Em.here _ k s.lbl))))))))))).close (by exact .swap _ _ _) (by simp)
      refine this.cast ?_
      simp only [Option.map_some, Option.bind_some, Expr.code]
      rw [c2, c1, hno]
      simp [Nat.add_assoc]
      omega

theorem spec_or {o1 o2 : Option Expr}
    (h1 : Spec m1 k (o1.map Expr.code)) (h2 : Spec m2 k (o2.map Expr.code)) :
    Spec (do
      let labelEnd ← newLabel
      let labelTrue ← newLabel
      m1
      emitI .JUMPIFANDPOP [.promise labelTrue] off len
      m2
      emitI .JUMPIFANDPOP [.promise labelTrue] off len
      emitI .PUSHFLS [] off len
      emitI .JUMP [.promise labelEnd] off len
      setHere labelTrue
      emitI .PUSHTRU [] off len
      setHere labelEnd) k
      ((o1.bind fun a => o2.bind fun b => some (Expr.or a b)).map Expr.code) := by
  intro s
  rw [EM.bind_ok (rfl : newLabel s = _), EM.bind_ok (rfl : newLabel _ = _)]
  have g1 := h1 { s with lbl := s.lbl + 1 + 1 }
  cases o1 with
  | none => exact EM.bind_ub g1
  | some a =>
    obtain ⟨s1, e1, t1⟩ := g1
    rw [EM.bind_ok e1, EM.bind_ok (rfl : emitI _ _ _ _ s1 = _)]
    have c1 := t1.cnt
    generalize hs2 : ({ s1 with
      evs := s1.evs ++ [.append .JUMPIFANDPOP [.promise (s.lbl + 1)] off len true],
      cnt := s1.cnt + 1 } : ES) = s2
    have g2 := h2 s2
    cases o2 with
    | none => exact EM.bind_ub g2
    | some b =>
      obtain ⟨s3, e3, t3⟩ := g2
      have c3 := t3.cnt
      rw [EM.bind_ok e3]
      simp only [Expr.length_code] at c1 c3
      have c2 : s2.cnt = s1.cnt + 1 := by rw [← hs2]
      have hno : s3.cnt + 3 = s.cnt + a.len + 1 + b.len + 3 := by omega
      refine ⟨_, rfl, ?_⟩
      have hj := em_jumpIf (off := off) (len := len) s1 k (s.lbl + 1) (s3.cnt + 3)
      rw [hs2] at hj
      have := ((Em.new s k).trans ((Em.new _ k).trans (t1.em.trans (hj.trans (t3.em.trans
        ((em_jumpIf (off := off) (len := len) s3 k (s.lbl + 1) (s3.cnt + 3)).trans
        ((em0 (off := off) (len := len) _ k .PUSHFLS .pushFls rfl rfl).trans
        ((em_jump (off := off) (len := len) _ k s.lbl (s3.cnt + 4)).trans
        ((Em.here _ k (s.lbl + 1)).trans
        ((em0 (off := off) (len := len) _ k .PUSHTRU .pushTru rfl rfl).trans
        (Em.here _ k s.lbl))))))))))).close (by exact .swap _ _ _) (by simp)
      refine this.cast ?_
      simp only [Option.map_some, Option.bind_some, Expr.code]
      rw [c2, c1, hno]
      simp [Nat.add_assoc]
      omega

theorem spec_dflt {o : Option Expr} (h : Spec m none (o.map Expr.code)) :
    Spec (do
      let l ← newLabel
      emitI .PUSHTYP [] off len
      emitI .PUSHNNETYP [] off len
      emitI .EQL [] off len
      emitI .JUMPIFNOTANDPOP [.promise l] off len
      emitPop1 off len
      m
      setHere l) none ((o.bind fun e => some (OExpr.yes e)).map OExpr.codeDflt) := by
  intro s
  rw [EM.bind_ok (rfl : newLabel s = _), EM.bind_ok (rfl : emitI _ _ _ _ _ = _),
    EM.bind_ok (rfl : emitI _ _ _ _ _ = _), EM.bind_ok (rfl : emitI _ _ _ _ _ = _),
    EM.bind_ok (rfl : emitI _ _ _ _ _ = _), EM.bind_ok (rfl : emitPop1 _ _ _ = _)]
  have hpre : ∀ v, Em s _ none _ _ _ _ := fun v =>
    (Em.new s none).trans ((em0 (off := off) (len := len) _ none .PUSHTYP .pushTyp rfl rfl).trans
    ((em0 (off := off) (len := len) _ none .PUSHNNETYP .pushNneTyp rfl rfl).trans
    ((em0 (off := off) (len := len) _ none .EQL (.bin .eql) rfl rfl).trans
    ((em_jumpIfNot (off := off) (len := len) _ none s.lbl v).trans
    (Em.instr (op := .POP) (opv := [.int 1]) (off := off) (len := len) _ none [] (.pop 1)
      (kinds1 .int rfl rfl) (fun env _ => rfl))))))
  generalize hs1 : (ES.mk _ _ _ : ES) = s1 at hpre ⊢
  have g := h s1
  cases o with
  | none => exact EM.bind_ub g
  | some e =>
    obtain ⟨s2, e2, t2⟩ := g
    have c2 := t2.cnt
    simp only [Expr.length_code] at c2
    have c1 : s1.cnt = s.cnt + 5 := by rw [← hs1]
    rw [EM.bind_ok e2]
    refine ⟨_, rfl, ?_⟩
    have := ((hpre (s.cnt + 5 + e.len)).trans (t2.em.trans (Em.here s2 none s.lbl))).close
      (by exact .refl _) (by simp; omega)
    refine this.cast ?_
    simp only [Option.map_some, Option.bind_some, OExpr.codeDflt]
    rw [c1]
    simp

/-- The code of a function and what surrounds it. -/
def funCode (n : Name) (f : FunDef) (p : Nat) : List Instr :=
  [.pushFun (p + 2) f.params.count n, .jump (p + 2 + f.len)] ++ f.code (p + 2)

theorem spec_func {ops : Option Params} {ob : Option Stmt} {off2 : Int} (name : Name) (n : Nat)
    (h1 : Spec m1 none (ops.map Params.code)) (h2 : Spec m2 none (ob.map fun b => b.code none))
    (hn : ∀ ps, ops = some ps → ps.count = n) :
    Spec (do
      let labelFunc ← newLabel
      let labelJump ← newLabel
      emitI .PUSHFUN [.promise labelFunc, .int n, .str name] off len
      emitI .JUMP [.promise labelJump] off len
      setHere labelFunc
      m1
      m2
      emitI .RETURN [.int 0] off2 0
      setHere labelJump) none
      ((ops.bind fun ps => ob.bind fun b => some (FunDef.mk ps b)).map (funCode name)) := by
  intro s
  rw [EM.bind_ok (rfl : newLabel s = _), EM.bind_ok (rfl : newLabel _ = _),
    EM.bind_ok (rfl : emitI _ _ _ _ _ = _),
    EM.bind_ok (rfl : emitI _ _ _ _ _ = _), EM.bind_ok (rfl : setHere _ _ = _)]
  have hpre : ∀ v, Em s _ none _ _ _ _ := fun v =>
    (Em.new s none).trans ((Em.new _ none).trans
    ((Em.instr (op := .PUSHFUN) (opv := [.promise s.lbl, .int n, .str name]) (off := off) (len := len) _
        none [(s.lbl, s.cnt + 2)] (.pushFun (s.cnt + 2) n name)
        (by
          refine ⟨rfl, rfl, ?_⟩
          intro j t o ht ho
          match j with
          | 0 => cases ht; cases ho; rfl
          | 1 => cases ht; cases ho; rfl
          | 2 => cases ht; cases ho; rfl
          | j + 3 => simp [optypes] at ht)
        (fun env ha => by
          have := ha (s.lbl, s.cnt + 2) (by simp)
          simp only at this
          simp [dec, optypes, opdValue, this, Instr.encode])).trans
    ((em_jump (off := off) (len := len) _ none (s.lbl + 1) v).trans (Em.here _ none s.lbl))))
  generalize hs1 : (ES.mk _ _ _ : ES) = s1 at hpre ⊢
  have c1 : s1.cnt = s.cnt + 2 := by rw [← hs1]
  have g1 := h1 s1
  cases ops with
  | none => exact EM.bind_ub g1
  | some ps =>
    obtain ⟨s2, e2, t2⟩ := g1
    have c2 := t2.cnt
    rw [EM.bind_ok e2]
    have g2 := h2 s2
    cases ob with
    | none => exact EM.bind_ub g2
    | some b =>
      obtain ⟨s3, e3, t3⟩ := g2
      have c3 := t3.cnt
      rw [EM.bind_ok e3]
      have hnn := hn ps rfl
      simp only [Params.length_code, Stmt.length_code] at c2 c3
      refine ⟨_, rfl, ?_⟩
      have := ((hpre (s3.cnt + 1)).trans (t2.em.trans (t3.em.trans
        ((Em.instr (op := .RETURN) (opv := [.int 0]) (off := off2) (len := 0) s3 none [] (.ret 0)
          (kinds1 .int rfl rfl) (fun env _ => rfl)).trans (Em.here _ none (s.lbl + 1)))))).close
        (by exact .refl _) (by simp)
      refine this.cast ?_
      simp only [Option.map_some, Option.bind_some, funCode, FunDef.code, FunDef.len, FunDef.params]
      rw [c3, c2, c1, hnn]
      simp
      omega

theorem spec_ifElse {oc : Option Expr} {ot oe : Option Stmt} {off2 len2 : Int}
    (h1 : Spec m1 k (oc.map Expr.code)) (h2 : Spec m2 k (ot.map fun t => t.code (k.map Prod.snd)))
    (h3 : Spec m3 k (oe.map fun t => t.code (k.map Prod.snd))) :
    Spec (do
      m1
      let labelElse ← newLabel
      let labelDone ← newLabel
      emitI .JUMPIFNOTANDPOP [.promise labelElse] off len
      m2
      emitI .JUMP [.promise labelDone] off2 len2
      setHere labelElse
      m3
      setHere labelDone) k
      ((oc.bind fun c => ot.bind fun t => oe.bind fun f => some (Stmt.ifElse c t f)).map
        fun s => s.code (k.map Prod.snd)) := by
  intro s
  have g1 := h1 s
  cases oc with
  | none => exact EM.bind_ub g1
  | some c =>
    obtain ⟨s1, e1, t1⟩ := g1
    have c1 := t1.cnt
    rw [EM.bind_ok e1, EM.bind_ok (rfl : newLabel s1 = _), EM.bind_ok (rfl : newLabel _ = _),
      EM.bind_ok (rfl : emitI _ _ _ _ _ = _)]
    have hpre : ∀ v, Em s1 _ k _ _ _ _ := fun v =>
      (Em.new s1 k).trans ((Em.new _ k).trans (em_jumpIfNot (off := off) (len := len) _ k s1.lbl v))
    generalize hs2 : (ES.mk _ _ _ : ES) = s2 at hpre ⊢
    have c2 : s2.cnt = s1.cnt + 1 := by rw [← hs2]
    have g2 := h2 s2
    cases ot with
    | none => exact EM.bind_ub g2
    | some t =>
      obtain ⟨s3, e3, t3⟩ := g2
      have c3 := t3.cnt
      rw [EM.bind_ok e3, EM.bind_ok (rfl : emitI _ _ _ _ _ = _), EM.bind_ok (rfl : setHere _ _ = _)]
      have hmid : ∀ v, Em s3 _ k _ _ _ _ := fun v =>
        (em_jump (off := off2) (len := len2) s3 k (s1.lbl + 1) v).trans (Em.here _ k s1.lbl)
      generalize hs4 : (ES.mk _ _ _ : ES) = s4 at hmid ⊢
      have c4 : s4.cnt = s3.cnt + 1 := by rw [← hs4]
      have g3 := h3 s4
      cases oe with
      | none => exact EM.bind_ub g3
      | some f =>
        obtain ⟨s5, e5, t5⟩ := g3
        have c5 := t5.cnt
        rw [EM.bind_ok e5]
        simp only [Expr.length_code, Stmt.length_code] at c1 c3 c5
        refine ⟨_, rfl, ?_⟩
        have := (t1.em.trans ((hpre (s3.cnt + 1)).trans (t3.em.trans ((hmid s5.cnt).trans
          (t5.em.trans (Em.here s5 k (s1.lbl + 1))))))).close (by exact .refl _) (by simp)
        refine this.cast ?_
        simp only [Option.map_some, Option.bind_some, Stmt.code]
        rw [c5, c4, c3, c2, c1]
        simp

theorem spec_ifOnly {oc : Option Expr} {ot : Option Stmt}
    (h1 : Spec m1 k (oc.map Expr.code)) (h2 : Spec m2 k (ot.map fun t => t.code (k.map Prod.snd))) :
    Spec (do
      m1
      let labelDone ← newLabel
      emitI .JUMPIFNOTANDPOP [.promise labelDone] off len
      m2
      setHere labelDone) k
      ((oc.bind fun c => ot.bind fun t => some (Stmt.ifOnly c t)).map
        fun s => s.code (k.map Prod.snd)) := by
  intro s
  have g1 := h1 s
  cases oc with
  | none => exact EM.bind_ub g1
  | some c =>
    obtain ⟨s1, e1, t1⟩ := g1
    have c1 := t1.cnt
    rw [EM.bind_ok e1, EM.bind_ok (rfl : newLabel s1 = _),
      EM.bind_ok (rfl : emitI _ _ _ _ _ = _)]
    have hpre : ∀ v, Em s1 _ k _ _ _ _ := fun v =>
      (Em.new s1 k).trans (em_jumpIfNot (off := off) (len := len) _ k s1.lbl v)
    generalize hs2 : (ES.mk _ _ _ : ES) = s2 at hpre ⊢
    have c2 : s2.cnt = s1.cnt + 1 := by rw [← hs2]
    have g2 := h2 s2
    cases ot with
    | none => exact EM.bind_ub g2
    | some t =>
      obtain ⟨s3, e3, t3⟩ := g2
      have c3 := t3.cnt
      rw [EM.bind_ok e3]
      simp only [Expr.length_code, Stmt.length_code] at c1 c3
      refine ⟨_, rfl, ?_⟩
      have := (t1.em.trans ((hpre s3.cnt).trans (t3.em.trans (Em.here s3 k s1.lbl)))).close
        (by exact .refl _) (by simp)
      refine this.cast ?_
      simp only [Option.map_some, Option.bind_some, Stmt.code]
      rw [c3, c2, c1]
      simp

theorem spec_while {oc : Option Expr} {ob : Option Stmt} {off2 len2 : Int} {m2 : Option Nat → EM Unit}
    (h1 : Spec m1 k (oc.map Expr.code))
    (h2 : ∀ l v, Spec (m2 (some l)) (some (l, v)) (ob.map fun t => t.code (some v))) :
    Spec (do
      let labelStart ← newLabel
      let labelEnd ← newLabel
      setHere labelStart
      m1
      emitI .JUMPIFNOTANDPOP [.promise labelEnd] off len
      m2 (some labelEnd)
      emitI .JUMP [.promise labelStart] off2 len2
      setHere labelEnd) k
      ((oc.bind fun c => ob.bind fun b => some (Stmt.while c b)).map
        fun s => s.code (k.map Prod.snd)) := by
  intro s
  rw [EM.bind_ok (rfl : newLabel s = _), EM.bind_ok (rfl : newLabel _ = _),
    EM.bind_ok (rfl : setHere _ _ = _)]
  have hpre : Em s _ k _ _ _ _ :=
    (Em.new s k).trans ((Em.new _ k).trans (Em.here _ k s.lbl))
  generalize hs1 : (ES.mk _ _ _ : ES) = s1 at hpre ⊢
  have c1 : s1.cnt = s.cnt := by rw [← hs1]
  have g1 := h1 s1
  cases oc with
  | none => exact EM.bind_ub g1
  | some c =>
    obtain ⟨s2, e2, t2⟩ := g1
    have c2 := t2.cnt
    rw [EM.bind_ok e2, EM.bind_ok (rfl : emitI _ _ _ _ _ = _)]
    have hmid : ∀ v, Em s2 _ k _ _ _ _ := fun v =>
      em_jumpIfNot (off := off) (len := len) s2 k (s.lbl + 1) v
    generalize hs3 : (ES.mk _ _ _ : ES) = s3 at hmid ⊢
    have c3 : s3.cnt = s2.cnt + 1 := by rw [← hs3]
    cases ob with
    | none => exact EM.bind_ub (h2 (s.lbl + 1) 0 s3)
    | some b =>
      simp only [Expr.length_code] at c2
      obtain ⟨s4, e4, t4⟩ := h2 (s.lbl + 1) (s3.cnt + b.len + 1) s3
      have c4 := t4.cnt
      rw [EM.bind_ok e4]
      simp only [Stmt.length_code] at c4
      refine ⟨_, rfl, ?_⟩
      have := (hpre.trans (t2.em.trans ((hmid (s3.cnt + b.len + 1)).trans (t4.emBrk.trans
        ((em_jump (off := off2) (len := len2) s4 k s.lbl s.cnt).trans
          (Em.here _ k (s.lbl + 1))))))).close (by exact .refl _)
          (by simp [c4])
      refine this.cast ?_
      simp only [Option.map_some, Option.bind_some, Stmt.code]
      rw [c3, c2, c1]
      simp

theorem spec_doWhile {oc : Option Expr} {ob : Option Stmt} {m2 : Option Nat → EM Unit}
    (h1 : Spec m1 k (oc.map Expr.code))
    (h2 : ∀ l v, Spec (m2 (some l)) (some (l, v)) (ob.map fun t => t.code (some v))) :
    Spec (do
      let labelEnd ← newLabel
      let start ← instrCountE
      m2 (some labelEnd)
      m1
      emitI .JUMPIFANDPOP [.idx start] off len
      setHere labelEnd) k
      ((ob.bind fun b => oc.bind fun c => some (Stmt.doWhile b c)).map
        fun s => s.code (k.map Prod.snd)) := by
  intro s
  rw [EM.bind_ok (rfl : newLabel s = _), EM.bind_ok (rfl : instrCountE _ = _)]
  have hpre : Em s _ k _ _ _ _ := Em.new s k
  generalize hs1 : (ES.mk _ _ _ : ES) = s1 at hpre ⊢
  have c1 : s1.cnt = s.cnt := by rw [← hs1]
  cases ob with
  | none => exact EM.bind_ub (h2 s.lbl 0 s1)
  | some b =>
    cases oc with
    | none =>
      obtain ⟨s2, e2, t2⟩ := h2 s.lbl 0 s1
      rw [EM.bind_ok e2]
      exact EM.bind_ub (h1 s2)
    | some c =>
      obtain ⟨s2, e2, t2⟩ := h2 s.lbl (s.cnt + b.len + c.len + 1) s1
      have c2 := t2.cnt
      obtain ⟨s3, e3, t3⟩ := h1 s2
      have c3 := t3.cnt
      rw [EM.bind_ok e2, EM.bind_ok e3]
      simp only [Expr.length_code, Stmt.length_code] at c2 c3
      refine ⟨_, rfl, ?_⟩
      have := (hpre.trans (t2.emBrk.trans (t3.em.trans
        ((Em.instr (op := .JUMPIFANDPOP) (opv := [.idx s1.cnt]) (off := off) (len := len) s3 k []
          (.jumpIf s1.cnt) (kinds1 .idx rfl rfl) (fun env _ => rfl)).trans
          (Em.here _ k s.lbl))))).close (by exact .refl _)
          (by simp; omega)
      refine this.cast ?_
      simp only [Option.map_some, Option.bind_some, Stmt.code]
      rw [c2, c1]
      simp

end

/-! ## Counting -/

theorem Exprs.count_append : ∀ a b : Exprs, (a.append b).count = a.count + b.count
  | .nil, b => by simp [Exprs.append, Exprs.count]
  | .cons e es, b => by simp only [Exprs.append, Exprs.count, es.count_append b]; omega

theorem Targets.count_append : ∀ a b : Targets, (a.append b).count = a.count + b.count
  | .one t, b => by simp only [Targets.append, Targets.count]; omega
  | .cons e es, b => by simp only [Targets.append, Targets.count, es.count_append b]; omega

theorem Exprs.len_append : ∀ a b : Exprs, (a.append b).len = a.len + b.len
  | .nil, b => by simp [Exprs.append, Exprs.len]
  | .cons e es, b => by simp only [Exprs.append, Exprs.len, es.len_append b]; omega

theorem Exprs.code_append : ∀ (a b : Exprs) (p : Nat),
    (a.append b).code p = a.code p ++ b.code (p + a.len)
  | .nil, b, p => by simp [Exprs.append, Exprs.code, Exprs.len]
  | .cons e es, b, p => by
    simp only [Exprs.append, Exprs.code, Exprs.len, es.code_append b, List.append_assoc]
    rw [Nat.add_assoc]

theorem Targets.len_append : ∀ a b : Targets, (a.append b).len = b.len + 1 + a.len
  | .one t, b => by simp only [Targets.append, Targets.len]
  | .cons t ts, b => by simp only [Targets.append, Targets.len, ts.len_append b]; omega

theorem Targets.code_append : ∀ (a b : Targets) (p : Nat),
    (a.append b).code p = b.code p ++ [.pop 1] ++ a.code (p + b.len + 1)
  | .one t, b, p => by simp [Targets.append, Targets.code]
  | .cons t ts, b, p => by
    have : p + (b.len + 1 + ts.len) + 1 = p + b.len + 1 + ts.len + 1 := by omega
    simp [Targets.append, Targets.code, ts.code_append b, ts.len_append b, this]

theorem Targets.count_pos : ∀ a : Targets, 1 ≤ a.count
  | .one _ => Nat.le_refl _
  | .cons _ _ => by simp [Targets.count]

theorem RExpr.tupleCount_pos : ∀ e : RExpr, 1 ≤ e.tupleCount
  | .pair a b _ => by
    have := a.tupleCount_pos
    simp only [RExpr.tupleCount]; omega
  | .none _ | .tru _ | .fls _ | .int .. | .float .. | .str .. | .ident .. | .un .. | .bin .. | .and ..
  | .or .. | .ass .. | .arw .. | .list .. | .map .. | .call .. | .select .. | .func .. => by
    simp [RExpr.tupleCount]

theorem bind_single {o : Option α} {f : α → Expr} {es : Exprs}
    (h : (o.bind fun a => some (Exprs.cons (f a) .nil)) = some es) : es.count = 1 := by
  cases o with
  | none => simp at h
  | some a => simp at h; subst h; rfl

theorem RExpr.elabT_count : ∀ (e : RExpr) (es : Exprs), e.elabT = some es → es.count = e.tupleCount
  | .pair a b _, es, h => by
    simp only [RExpr.elabT, Option.bind_eq_bind, Option.bind_eq_some_iff] at h
    obtain ⟨x, hx, y, hy, h⟩ := h
    cases h
    rw [Exprs.count_append, a.elabT_count x hx, b.elabT_count y hy, RExpr.tupleCount]
  | .none _, es, h => by cases h; rfl
  | .tru _, es, h => by cases h; rfl
  | .fls _, es, h => by cases h; rfl
  | .int .., es, h => by cases h; rfl
  | .float .., es, h => by cases h; rfl
  | .str .., es, h => by cases h; rfl
  | .ident .., es, h => by cases h; rfl
  | .un .., es, h => by
    simp only [RExpr.elabT, Option.bind_eq_bind, Option.bind_eq_some_iff] at h
    obtain ⟨x, hx, y, hy, h⟩ := h
    cases h; rfl
  | .bin .., es, h => by
    simp only [RExpr.elabT, Option.bind_eq_bind, Option.bind_eq_some_iff] at h
    obtain ⟨x, hx, y, hy, z, hz, w, hw, h⟩ := h
    cases h; rfl
  | .and .., es, h => by
    simp only [RExpr.elabT, Option.bind_eq_bind, Option.bind_eq_some_iff] at h
    obtain ⟨x, hx, y, hy, z, hz, w, hw, h⟩ := h
    cases h; rfl
  | .or .., es, h => by
    simp only [RExpr.elabT, Option.bind_eq_bind, Option.bind_eq_some_iff] at h
    obtain ⟨x, hx, y, hy, z, hz, w, hw, h⟩ := h
    cases h; rfl
  | .ass l r p, es, h => by
    simp only [RExpr.elabT, Option.bind_eq_bind, Option.bind_eq_some_iff] at h
    obtain ⟨ts, hts, h⟩ := h
    by_cases hc : ts.count > 32
    · rw [if_pos hc] at h; simp at h
    · rw [if_neg hc] at h
      cases ts with
      | one t =>
        simp only [Option.bind_eq_some_iff] at h
        obtain ⟨x, hx, y, hy, h⟩ := h
        cases h; rfl
      | cons t ts =>
        simp only [Option.bind_eq_some_iff] at h
        obtain ⟨x, hx, h⟩ := h
        cases h; rfl
  | .arw .., es, h => by simp [RExpr.elabT] at h
  | .list .., es, h => by
    simp only [RExpr.elabT, Option.bind_eq_bind, Option.bind_eq_some_iff] at h
    obtain ⟨x, hx, h⟩ := h
    cases h; rfl
  | .map .., es, h => by
    simp only [RExpr.elabT, Option.bind_eq_bind, Option.bind_eq_some_iff] at h
    obtain ⟨x, hx, h⟩ := h
    cases h; rfl
  | .call .., es, h => by
    simp only [RExpr.elabT, Option.bind_eq_bind, Option.bind_eq_some_iff] at h
    obtain ⟨x, hx, h⟩ := h
    cases h; rfl
  | .select .., es, h => by
    simp only [RExpr.elabT, Option.bind_eq_bind, Option.bind_eq_some_iff] at h
    obtain ⟨x, hx, y, hy, z, hz, w, hw, h⟩ := h
    cases h; rfl
  | .func .., es, h => by
    simp only [RExpr.elabT, Option.bind_eq_bind, Option.bind_eq_some_iff] at h
    obtain ⟨x, hx, h⟩ := h
    cases h; rfl

theorem RExpr.elabTargets_count : ∀ (e : RExpr) (ts : Targets), e.elabTargets = some ts →
    ts.count = e.tupleCount
  | .pair a b _, ts, h => by
    simp only [RExpr.elabTargets, Option.bind_eq_bind, Option.bind_eq_some_iff] at h
    obtain ⟨x, hx, y, hy, h⟩ := h
    cases h
    rw [Targets.count_append, a.elabTargets_count x hx, b.elabTargets_count y hy, RExpr.tupleCount]
  | .ident .., ts, h => by
    simp only [RExpr.elabTargets] at h
    cases h; rfl
  | .select .., ts, h => by
    simp only [RExpr.elabTargets, Option.bind_eq_bind, Option.bind_eq_some_iff] at h
    obtain ⟨x, hx, y, hy, z, hz, w, hw, h⟩ := h
    cases h; rfl
  | .none _, ts, h => by simp [RExpr.elabTargets] at h
  | .tru _, ts, h => by simp [RExpr.elabTargets] at h
  | .fls _, ts, h => by simp [RExpr.elabTargets] at h
  | .int .., ts, h => by simp [RExpr.elabTargets] at h
  | .float .., ts, h => by simp [RExpr.elabTargets] at h
  | .str .., ts, h => by simp [RExpr.elabTargets] at h
  | .un .., ts, h => by simp [RExpr.elabTargets] at h
  | .bin .., ts, h => by simp [RExpr.elabTargets] at h
  | .and .., ts, h => by simp [RExpr.elabTargets] at h
  | .or .., ts, h => by simp [RExpr.elabTargets] at h
  | .ass .., ts, h => by simp [RExpr.elabTargets] at h
  | .arw .., ts, h => by simp [RExpr.elabTargets] at h
  | .list .., ts, h => by simp [RExpr.elabTargets] at h
  | .map .., ts, h => by simp [RExpr.elabTargets] at h
  | .call .., ts, h => by simp [RExpr.elabTargets] at h
  | .func .., ts, h => by simp [RExpr.elabTargets] at h

theorem RExprs.elab_count : ∀ (e : RExprs) (es : Exprs), e.elab = some es → es.count = e.count
  | .nil, es, h => by simp only [RExprs.elab] at h; cases h; rfl
  | .cons e es, x, h => by
    simp only [RExprs.elab, Option.bind_eq_bind, Option.bind_eq_some_iff] at h
    obtain ⟨a, ha, b, hb, c, hc, h⟩ := h
    cases h
    simp only [Exprs.count, RExprs.count, es.elab_count c hc]

theorem RPairs.elab_count : ∀ (e : RPairs) (es : Pairs), e.elab = some es → es.count = e.count
  | .nil, es, h => by simp only [RPairs.elab] at h; cases h; rfl
  | .cons k v es, x, h => by
    simp only [RPairs.elab, Option.bind_eq_bind, Option.bind_eq_some_iff] at h
    obtain ⟨a, ha, b, hb, a', ha', b', hb', c, hc, h⟩ := h
    cases h
    simp only [Pairs.count, RPairs.count, es.elab_count c hc]

theorem RParams.elab_count : ∀ (e : RParams) (es : Params), e.elab = some es → es.count = e.count
  | .nil, es, h => by simp only [RParams.elab] at h; cases h; rfl
  | .cons n d t p es, x, h => by
    simp only [RParams.elab, Option.bind_eq_bind, Option.bind_eq_some_iff] at h
    obtain ⟨a, ha, b, hb, c, hc, h⟩ := h
    cases h
    simp only [Params.count, RParams.count, es.elab_count c hc]

/-! ## All trees -/

/-- The expression alone. -/
def RExpr.elab (e : RExpr) : Option Expr := e.elabT.bind Exprs.one

/-- The code expected of an expression. -/
def RExpr.expect (e : RExpr) (tup : Bool) : Option (Nat → List Instr) :=
  if tup then e.elabT.map Exprs.code else e.elab.map Expr.code

theorem RExpr.expect_of {e : RExpr} {o : Option Expr}
    (h : e.elabT = o.bind fun x => some (.cons x .nil)) (tup : Bool) :
    o.map Expr.code = e.expect tup := by
  unfold RExpr.expect RExpr.elab
  rw [h]
  cases o with
  | none => cases tup <;> rfl
  | some x =>
    cases tup with
    | false => rfl
    | true =>
      simp only [if_true, Option.bind_some, Option.map_some]
      congr 1
      funext p
      simp [Exprs.code]

theorem RExpr.one_eq (e : RExpr) {α : Type} (f : Expr → Option α) :
    (e.elabT.bind fun x => x.one.bind f) = e.elab.bind f := by
  unfold RExpr.elab
  rw [Option.bind_assoc]

theorem Spec.guard {m : EM Unit} {k : Option (Nat × Nat)} {c : Prop} [Decidable c]
    {o o' : Option (Nat → List Instr)} (h : ¬c → Spec m k o') (ho : o = if c then none else o') :
    Spec (if c then (do reportError; m) else m) k o := by
  intro s
  subst ho
  by_cases hc : c
  · rw [if_pos hc, if_pos hc]
    exact EM.bind_ub rfl
  · rw [if_neg hc, if_neg hc]
    exact h hc s

/-- The assignment to a flattened list of targets. -/
def RExpr.assignTo (r : RExpr) : Targets → Option Expr
  | .one t => r.elab.bind fun r => some (Expr.assign t r)
  | .cons t ts => r.elabCall.bind fun c => some (Expr.massign t ts c)

theorem spec_assign {l r : RExpr} {p : Pos} {kk : Option Nat} (tup : Bool)
    (hT : Spec (l.emitTargets p kk) none (l.elabTargets.map Targets.code))
    (hR : Spec (r.emit false kk) none (r.expect false))
    (hC : ∀ n, Spec (r.emitCall kk n) none (r.elabCall.map fun c => c.code n)) :
    Spec ((RExpr.ass l r p).emit tup kk) none ((RExpr.ass l r p).expect tup) := by
  have hc := l.elabTargets_count
  have key : (RExpr.ass l r p).elabT = Option.bind (l.elabTargets.bind fun ts =>
      if ts.count > 32 then none else r.assignTo ts)
      fun x => some (.cons x .nil) := by
    simp only [RExpr.elabT, Option.bind_eq_bind]
    cases l.elabTargets with
    | none => rfl
    | some ts =>
      simp only [Option.bind_some]
      by_cases h : ts.count > 32
      · simp [h]
      · rw [if_neg h, if_neg h]
        cases ts with
        | one t =>
          simp only [RExpr.assignTo]
          rw [RExpr.one_eq]
          cases r.elab <;> rfl
        | cons t ts =>
          simp only [RExpr.assignTo]
          cases r.elabCall <;> rfl
  rw [← RExpr.expect_of key tup]
  simp only [RExpr.emit]
  cases ht : l.elabTargets with
  | none =>
    rw [ht] at hT
    refine Spec.guard (c := l.tupleCount > 32) (o := none) (o' := none) (fun h => ?_) (by simp)
    intro s
    show _ = Exec.ub
    by_cases h1 : l.tupleCount = 1
    · rw [if_pos h1]
      have := hR s
      cases hr : r.expect false with
      | none => rw [hr] at this; exact EM.bind_ub this
      | some c =>
        rw [hr] at this
        obtain ⟨s1, e1, -⟩ := this
        rw [EM.bind_ok e1]
        exact hT s1
    · rw [if_neg h1]
      have := hC l.tupleCount s
      cases hr : r.elabCall with
      | none => rw [hr] at this; exact EM.bind_ub this
      | some c =>
        rw [hr] at this
        obtain ⟨s1, e1, -⟩ := this
        rw [EM.bind_ok e1]
        exact hT s1
  | some ts =>
    rw [ht] at hT
    have hcnt := hc ts ht
    simp only [Option.bind_some]
    rw [hcnt]
    refine Spec.guard (c := l.tupleCount > 32) (o' := Option.map Expr.code (r.assignTo ts))
      (fun h => ?_) ?_
    rotate_left
    · by_cases h : l.tupleCount > 32
      · rw [if_pos h, if_pos h]; rfl
      · rw [if_neg h, if_neg h]
    cases ts with
    | one t =>
      simp only [Targets.count] at hcnt
      rw [if_pos hcnt.symm]
      refine (hR.seq hT).cast ?_
      simp only [RExpr.expect, if_false, Bool.false_eq_true, RExpr.assignTo]
      cases r.elab with
      | none => rfl
      | some e =>
        simp only [Option.map_some, Option.bind_some]
        congr 1
        funext q
        simp [seqCode, Expr.code, Targets.code]
    | cons t ts =>
      simp only [Targets.count] at hcnt
      have := ts.count_pos
      rw [if_neg (by omega)]
      refine ((hC l.tupleCount).seq hT).cast ?_
      simp only [RExpr.assignTo]
      cases r.elabCall with
      | none => rfl
      | some c =>
        simp only [Option.map_some, Option.bind_some]
        congr 1
        funext q
        simp [seqCode, Expr.code, Targets.code, ← hcnt]

theorem spec_pair {a b : RExpr} {p : Pos} {kk : Option Nat} (tup : Bool)
    (ha : Spec (a.emit true kk) none (a.expect true))
    (hb : Spec (b.emit true kk) none (b.expect true)) :
    Spec ((RExpr.pair a b p).emit tup kk) none ((RExpr.pair a b p).expect tup) := by
  simp only [RExpr.emit]
  cases tup with
  | true =>
    simp only [if_true]
    refine (ha.seq hb).cast ?_
    simp only [RExpr.expect, if_true, RExpr.elabT, Option.bind_eq_bind]
    cases a.elabT with
    | none => rfl
    | some x =>
      cases b.elabT with
      | none => rfl
      | some y =>
        simp only [Option.map_some, Option.bind_some]
        congr 1
        funext q
        simp [seqCode, Exprs.code_append]
  | false =>
    have : (RExpr.pair a b p).expect false = none := by
      simp only [RExpr.expect, Bool.false_eq_true, if_false, Option.map_eq_none_iff]
      unfold RExpr.elab
      have hc := (RExpr.pair a b p).elabT_count
      have h1 := a.tupleCount_pos
      have h2 := b.tupleCount_pos
      cases he : (RExpr.pair a b p).elabT with
      | none => rfl
      | some es =>
        have := hc es he
        simp only [RExpr.tupleCount] at this
        simp only [Option.bind_some]
        cases es with
        | nil => rfl
        | cons e es =>
          cases es with
          | nil => simp only [Exprs.count] at this; omega
          | cons _ _ => rfl
    rw [this]
    intro s
    rfl

theorem spec_targets {a b : RExpr} {p q : Pos} {kk : Option Nat}
    (ha : Spec (a.emitTargets q kk) none (a.elabTargets.map Targets.code))
    (hb : Spec (b.emitTargets q kk) none (b.elabTargets.map Targets.code)) :
    Spec ((RExpr.pair a b p).emitTargets q kk) none
      ((RExpr.pair a b p).elabTargets.map Targets.code) := by
  simp only [RExpr.emitTargets, RExpr.elabTargets, Option.bind_eq_bind]
  refine (hb.seq (spec_pop1.seq ha)).cast ?_
  cases b.elabTargets with
  | none => cases a.elabTargets <;> rfl
  | some y =>
    cases a.elabTargets with
    | none => rfl
    | some x =>
      simp only [Option.map_some, Option.bind_some]
      congr 1
      funext r
      simp [seqCode, Targets.code_append]

theorem spec_params {d t : ROpt} {ps : RParams} {n : Name} {p : Pos}
    (hd : Spec d.emitDflt none (d.elab.map OExpr.codeDflt))
    (ht : ∀ i n, Spec (t.emitTyp i n) none (t.elab.map fun t => t.codeTyp i n))
    (hp : Spec ps.emit none (ps.elab.map Params.code)) :
    Spec (RParams.cons n d t p ps).emit none ((RParams.cons n d t p ps).elab.map Params.code) := by
  simp only [RParams.emit, RParams.elab, Option.bind_eq_bind]
  refine (hd.seq ((ht _ _).seq ((spec_ass n).seq (spec_pop1.seq hp)))).cast ?_
  have hc := ps.elab_count
  cases d.elab with
  | none => rfl
  | some d =>
    cases t.elab with
    | none => rfl
    | some t =>
      cases hps : ps.elab with
      | none => rfl
      | some ps' =>
        simp only [Option.map_some, Option.bind_some]
        congr 1
        funext r
        simp [seqCode, Params.code, hc ps' hps, Nat.add_assoc]

theorem spec_typ {o : Option Expr} {m : EM Unit} {off len : Int} (i : Nat) (n : Name)
    (h : Spec m none (o.map Expr.code)) :
    Spec (do m; emitI .CHECKTYPE [.int i, .str n] off len) none
      ((o.bind fun e => some (OExpr.yes e)).map fun t => t.codeTyp i n) := by
  refine (h.seq (Spec.instr (.checkType i n) (kinds2 .int .str rfl rfl rfl) (fun env => rfl))).cast ?_
  cases o with
  | none => rfl
  | some e =>
    simp only [Option.map_some, Option.bind_some]
    congr 1

theorem spec_return {e : RExpr} {p : Pos} {kk : Option Nat} {k : Option (Nat × Nat)}
    (h : Spec (e.emit true kk) none (e.expect true)) (loop : Bool) :
    Spec ((RStmt.ret e p).emit kk) k
      (((RStmt.ret e p).elab loop).map fun s => s.code (k.map Prod.snd)) := by
  simp only [RStmt.emit, RStmt.elab, Option.bind_eq_bind]
  have hc := e.elabT_count
  simp only [RExpr.expect, if_true] at h
  cases he : e.elabT with
  | none =>
    rw [he] at h
    refine Spec.guard (c := e.tupleCount > 32) (o := none) (o' := none) (fun _ => ?_) (by simp)
    intro s
    exact EM.bind_ub (h s)
  | some es =>
    rw [he] at h
    have hcnt := hc es he
    simp only [Option.bind_some]
    rw [hcnt]
    refine Spec.guard (c := e.tupleCount > 32)
      (o' := some fun q => es.code q ++ [.ret es.count]) (fun _ => ?_) ?_
    · refine (h.weaken.seq (spec_ret e.tupleCount)).cast ?_
      simp only [Option.map_some, Option.bind_some]
      congr 1
      funext q
      simp [seqCode, hcnt]
    · by_cases hh : e.tupleCount > 32
      · simp [hh]
      · rw [if_neg hh, if_neg hh]; rfl

theorem popAfter_pure {t : RStmt} (h : ∀ e, t ≠ .expr e) (kk : Option Nat) (off : Int) :
    (do t.emit kk; t.popAfter off) = t.emit kk := by
  have : t.popAfter off = pure () := by
    cases t with
    | expr e => exact absurd rfl (h e)
    | _ => rfl
  rw [this]
  exact EM.bind_pure _

theorem spec_stmts {s : RStmt} {ss : RStmts} {k : Option (Nat × Nat)} {loop : Bool}
    (h1 : ∀ off, Spec (do s.emit (k.map Prod.fst); s.popAfter off) k
      ((s.elab loop).map fun s => s.code (k.map Prod.snd)))
    (h2 : Spec (ss.emit (k.map Prod.fst)) k
      ((ss.elab loop).map fun s => s.code (k.map Prod.snd))) :
    Spec ((RStmts.cons s ss).emit (k.map Prod.fst)) k
      (((RStmts.cons s ss).elab loop).map fun s => s.code (k.map Prod.snd)) := by
  simp only [RStmts.emit, RStmts.elab, Option.bind_eq_bind]
  have := (h1 s.pos.off).seq h2
  simp only [EM.bind_assoc] at this
  refine this.cast ?_
  cases s.elab loop with
  | none => rfl
  | some x =>
    cases ss.elab loop with
    | none => rfl
    | some y =>
      simp only [Option.map_some, Option.bind_some]
      congr 1
      funext q
      simp [seqCode, Stmts.code]

end Noja.VM
