import Verif.VM.CodegenProof

/-!
# The instructions of a tree

For every tree, `codegen.c` either fails (and then the tree is not one that `elab` accepts) or emits
exactly the code that `compile` assigns to the elaborated tree.
-/

set_option linter.unusedVariables false
set_option linter.unusedSimpArgs false

namespace Noja.VM
open Noja Noja.Exe

theorem one_bind {o : Option Exprs} {f : Expr → Option α} :
    (o.bind fun x => x.one.bind f) = (o.bind Exprs.one).bind f := by
  rw [Option.bind_assoc]

theorem spec_brk {off len : Int} (l v : Nat) :
    Spec (emitI .JUMP [.promise l] off len) (some (l, v)) (some fun _ => [.jump v]) := by
  intro s
  refine ⟨_, rfl, [.append .JUMP [.promise l] off len true], rfl, rfl, Nat.le_refl _, ?_, ?_, ?_, ?_, ?_⟩
  · intro l h1 h2
    exact absurd h2 (Nat.not_lt.2 h1)
  · intro l _; rfl
  · intro l _; rfl
  · intro ev h
    rw [List.mem_singleton] at h
    subst h
    exact kinds1 .idx rfl rfl
  · intro env _ hk
    have : dec env ⟨.JUMP, [.promise l], off, len⟩ = (.JUMP, [.idx v]) :=
      dec_jump rfl env (by
        intro g hg
        rw [List.mem_singleton] at hg
        subst hg
        exact hk l v rfl)
    simp [appends, this, Instr.encode]

mutual
theorem RExpr.emit_spec : ∀ (e : RExpr) (tup : Bool) (kk : Option Nat),
    Spec (e.emit tup kk) none (e.expect tup)
  | .none p, tup, kk => by
    rw [← RExpr.expect_of (o := some Expr.none) rfl tup]
    simp only [RExpr.emit]
    exact (spec0 .PUSHNNE .pushNne rfl rfl).cast rfl
  | .tru p, tup, kk => by
    rw [← RExpr.expect_of (o := some Expr.tru) rfl tup]
    simp only [RExpr.emit]
    exact (spec0 .PUSHTRU .pushTru rfl rfl).cast rfl
  | .fls p, tup, kk => by
    rw [← RExpr.expect_of (o := some Expr.fls) rfl tup]
    simp only [RExpr.emit]
    exact (spec0 .PUSHFLS .pushFls rfl rfl).cast rfl
  | .int v p, tup, kk => by
    rw [← RExpr.expect_of (o := some (Expr.int v)) rfl tup]
    simp only [RExpr.emit]
    exact (Spec.instr (.pushInt v) (kinds1 .int rfl rfl) (fun env => rfl)).cast rfl
  | .float v p, tup, kk => by
    rw [← RExpr.expect_of (o := some (Expr.float v)) rfl tup]
    simp only [RExpr.emit]
    exact (Spec.instr (.pushFlt v) (kinds1 .float rfl rfl) (fun env => rfl)).cast rfl
  | .str v p, tup, kk => by
    rw [← RExpr.expect_of (o := some (Expr.str v)) rfl tup]
    simp only [RExpr.emit]
    exact (Spec.instr (.pushStr v) (kinds1 .str rfl rfl) (fun env => rfl)).cast rfl
  | .ident v p, tup, kk => by
    rw [← RExpr.expect_of (o := some (Expr.ident v)) rfl tup]
    simp only [RExpr.emit]
    exact (Spec.instr (.pushVar v) (kinds1 .str rfl rfl) (fun env => rfl)).cast rfl
  | .un op a p, tup, kk => by
    rw [← RExpr.expect_of (o := a.elab.bind fun a => some (.un op a))
      (by simp only [RExpr.elabT, RExpr.elab, Option.bind_eq_bind, Option.bind_assoc, Option.bind_some]) tup]
    simp only [RExpr.emit]
    exact spec_un (a.emit_spec false kk) op
  | .bin op a b p, tup, kk => by
    rw [← RExpr.expect_of (o := a.elab.bind fun a => b.elab.bind fun b => some (.bin op a b))
      (by simp only [RExpr.elabT, RExpr.elab, Option.bind_eq_bind, Option.bind_assoc, Option.bind_some]) tup]
    simp only [RExpr.emit]
    exact spec_bin (a.emit_spec false kk) (b.emit_spec false kk) op.opcode (.bin op) (.bin op)
      op.optypes rfl (fun a b p => by simp [Expr.code])
  | .and a b p, tup, kk => by
    rw [← RExpr.expect_of (o := a.elab.bind fun a => b.elab.bind fun b => some (.and a b))
      (by simp only [RExpr.elabT, RExpr.elab, Option.bind_eq_bind, Option.bind_assoc, Option.bind_some]) tup]
    simp only [RExpr.emit]
    exact spec_and (a.emit_spec false kk) (b.emit_spec false kk)
  | .or a b p, tup, kk => by
    rw [← RExpr.expect_of (o := a.elab.bind fun a => b.elab.bind fun b => some (.or a b))
      (by simp only [RExpr.elabT, RExpr.elab, Option.bind_eq_bind, Option.bind_assoc, Option.bind_some]) tup]
    simp only [RExpr.emit]
    exact spec_or (a.emit_spec false kk) (b.emit_spec false kk)
  | .ass l r p, tup, kk =>
    spec_assign tup (l.emitTargets_spec p kk) (r.emit_spec false kk) (fun n => r.emitCall_spec kk n)
  | .pair a b p, tup, kk => spec_pair tup (a.emit_spec true kk) (b.emit_spec true kk)
  | .arw a b p, tup, kk => by
    rw [← RExpr.expect_of (o := none) rfl tup]
    intro s
    simp only [RExpr.emit]
    rfl
  | .list items p, tup, kk => by
    rw [← RExpr.expect_of (o := items.elab.bind fun es => some (.list es))
      (by simp only [RExpr.elabT, RExpr.elab, Option.bind_eq_bind, Option.bind_assoc, Option.bind_some]) tup]
    simp only [RExpr.emit]
    exact spec_list _ (items.emitItems_spec 0 kk) (items.elab_count)
  | .map items p, tup, kk => by
    rw [← RExpr.expect_of (o := items.elab.bind fun es => some (.map es))
      (by simp only [RExpr.elabT, RExpr.elab, Option.bind_eq_bind, Option.bind_assoc, Option.bind_some]) tup]
    simp only [RExpr.emit]
    exact spec_map _ (items.emit_spec kk) (items.elab_count)
  | .call c p, tup, kk => by
    rw [← RExpr.expect_of (o := c.elab.bind fun c => some (.call c))
      (by simp only [RExpr.elabT, RExpr.elab, Option.bind_eq_bind, Option.bind_assoc, Option.bind_some]) tup]
    simp only [RExpr.emit]
    refine (c.emit_spec p kk 1).cast ?_
    cases c.elab with
    | none => rfl
    | some c =>
      simp only [Option.map_some, Option.bind_some]
      congr 1
  | .select s i p, tup, kk => by
    rw [← RExpr.expect_of (o := s.elab.bind fun a => i.elab.bind fun b => some (.select a b))
      (by simp only [RExpr.elabT, RExpr.elab, Option.bind_eq_bind, Option.bind_assoc, Option.bind_some]) tup]
    simp only [RExpr.emit]
    exact spec_bin (s.emit_spec false kk) (i.emit_spec false kk) .SELECT .select .select
      rfl rfl (fun a b p => by simp [Expr.code])
  | .func f p, tup, kk => by
    rw [← RExpr.expect_of (o := f.elab.bind fun f => some (.func anonName f))
      (by simp only [RExpr.elabT, RExpr.elab, Option.bind_eq_bind, Option.bind_assoc, Option.bind_some]) tup]
    simp only [RExpr.emit]
    refine (f.emit_spec anonName p).cast ?_
    cases f.elab with
    | none => rfl
    | some f =>
      simp only [Option.map_some, Option.bind_some]
      congr 1
theorem RExpr.emitCall_spec : ∀ (r : RExpr) (kk : Option Nat) (n : Nat),
    Spec (r.emitCall kk n) none (r.elabCall.map fun c => c.code n)
  | .call c p, kk, n => by
    simp only [RExpr.emitCall, RExpr.elabCall]
    exact c.emit_spec p kk n
  | .none _, _, _ | .tru _, _, _ | .fls _, _, _ | .int .., _, _ | .float .., _, _ | .str .., _, _
  | .ident .., _, _ | .un .., _, _ | .bin .., _, _ | .and .., _, _ | .or .., _, _ | .ass .., _, _
  | .pair .., _, _ | .arw .., _, _ | .list .., _, _ | .map .., _, _ | .select .., _, _
  | .func .., _, _ => by
    intro s
    simp only [RExpr.emitCall, RExpr.elabCall]
    rfl
theorem RExpr.emitTargets_spec : ∀ (l : RExpr) (q : Pos) (kk : Option Nat),
    Spec (l.emitTargets q kk) none (l.elabTargets.map Targets.code)
  | .pair a b p, q, kk => spec_targets (a.emitTargets_spec q kk) (b.emitTargets_spec q kk)
  | .ident n p, q, kk => by
    simp only [RExpr.emitTargets, RExpr.elabTargets]
    refine (spec_ass n).cast ?_
    rfl
  | .select s i p, q, kk => by
    simp only [RExpr.emitTargets, RExpr.elabTargets, Option.bind_eq_bind, one_bind]
    exact spec_sel2 (cd := Targets.code) (s.emit_spec false kk) (i.emit_spec false kk) .INSERT2 .insert2
      (fun s i => Targets.one (.sel s i)) rfl rfl (fun a b p => by simp [Targets.code, Target.code])
  | .none _, _, _ | .tru _, _, _ | .fls _, _, _ | .int .., _, _ | .float .., _, _ | .str .., _, _
  | .un .., _, _ | .bin .., _, _ | .and .., _, _ | .or .., _, _ | .ass .., _, _
  | .arw .., _, _ | .list .., _, _ | .map .., _, _ | .call .., _, _
  | .func .., _, _ => by
    intro s
    simp only [RExpr.emitTargets, RExpr.elabTargets]
    rfl
theorem RCall.emit_spec : ∀ (c : RCall) (p : Pos) (kk : Option Nat) (n : Nat),
    Spec (c.emit p kk n) none (c.elab.map fun c => c.code n)
  | .fn f args, p, kk, n => by
    simp only [RCall.emit, RCall.elab, Option.bind_eq_bind, one_bind]
    exact spec_fn (args.emit_spec kk) (f.emit_spec false kk) _ n (args.elab_count)
  | .method s i q args, p, kk, n => by
    simp only [RCall.emit, RCall.elab, Option.bind_eq_bind, one_bind]
    exact spec_method (args.emit_spec kk) (s.emit_spec false kk) (i.emit_spec false kk) _ n
      (args.elab_count)
theorem RExprs.emit_spec : ∀ (es : RExprs) (kk : Option Nat),
    Spec (es.emit kk) none (es.elab.map Exprs.code)
  | .nil, kk => by
    simp only [RExprs.emit, RExprs.elab]
    exact (Spec.pure _).cast rfl
  | .cons e es, kk => by
    simp only [RExprs.emit, RExprs.elab, Option.bind_eq_bind, one_bind]
    exact spec_exprs (e.emit_spec false kk) (es.emit_spec kk)
theorem RExprs.emitItems_spec : ∀ (es : RExprs) (i : Nat) (kk : Option Nat),
    Spec (es.emitItems i kk) none (es.elab.map fun es => es.codeItems i)
  | .nil, i, kk => by
    simp only [RExprs.emitItems, RExprs.elab]
    exact (Spec.pure _).cast rfl
  | .cons e es, i, kk => by
    simp only [RExprs.emitItems, RExprs.elab, Option.bind_eq_bind, one_bind]
    exact spec_items i (e.emit_spec false kk) (es.emitItems_spec (i + 1) kk)
theorem RPairs.emit_spec : ∀ (ps : RPairs) (kk : Option Nat),
    Spec (ps.emit kk) none (ps.elab.map Pairs.code)
  | .nil, kk => by
    simp only [RPairs.emit, RPairs.elab]
    exact (Spec.pure _).cast rfl
  | .cons k v ps, kk => by
    simp only [RPairs.emit, RPairs.elab, Option.bind_eq_bind, one_bind]
    exact spec_pairs (k.emit_spec false kk) (v.emit_spec false kk) (ps.emit_spec kk)
theorem RFun.emit_spec : ∀ (f : RFun) (name : Name) (p : Pos),
    Spec (f.emit name p) none (f.elab.map (funCode name))
  | .mk ps b, name, p => by
    simp only [RFun.emit, RFun.elab, Option.bind_eq_bind]
    have := spec_func (off := p.off) (len := p.len) (off2 := b.pos.off) name ps.count
      ps.emit_spec (b.emit_spec none (b.pos.off + b.pos.len)) ps.elab_count
    simp only [EM.bind_assoc] at this
    exact this
theorem RParams.emit_spec : ∀ (ps : RParams), Spec ps.emit none (ps.elab.map Params.code)
  | .nil => by
    simp only [RParams.emit, RParams.elab]
    exact (Spec.pure _).cast rfl
  | .cons n d t p ps => spec_params d.emitDflt_spec (fun i n => t.emitTyp_spec i n) ps.emit_spec
theorem ROpt.emitDflt_spec : ∀ (d : ROpt), Spec d.emitDflt none (d.elab.map OExpr.codeDflt)
  | .no => by
    simp only [ROpt.emitDflt, ROpt.elab]
    exact (Spec.pure _).cast rfl
  | .yes e => by
    simp only [ROpt.emitDflt, ROpt.elab, Option.bind_eq_bind, one_bind]
    exact spec_dflt (e.emit_spec false none)
theorem ROpt.emitTyp_spec : ∀ (d : ROpt) (i : Nat) (n : Name),
    Spec (d.emitTyp i n) none (d.elab.map fun t => t.codeTyp i n)
  | .no, i, n => by
    simp only [ROpt.emitTyp, ROpt.elab]
    exact (Spec.pure _).cast rfl
  | .yes e, i, n => by
    simp only [ROpt.emitTyp, ROpt.elab, Option.bind_eq_bind, one_bind]
    exact spec_typ i n (e.emit_spec false none)
theorem RStmt.emit_spec : ∀ (t : RStmt) (k : Option (Nat × Nat)) (off : Int),
    Spec (do t.emit (k.map Prod.fst); t.popAfter off) k
      ((t.elab k.isSome).map fun t => t.code (k.map Prod.snd))
  | .expr e, k, off => by
    simp only [RStmt.emit, RStmt.elab, RStmt.popAfter, Option.bind_eq_bind, one_bind]
    refine ((e.emit_spec false _).weaken.seq spec_pop1).cast ?_
    simp only [RExpr.expect, RExpr.elab, Bool.false_eq_true, if_false]
    cases e.elabT.bind Exprs.one with
    | none => rfl
    | some x =>
      simp only [Option.map_some, Option.bind_some]
      congr 1
  | .ifElse c t f p, k, off => by
    rw [popAfter_pure (by simp)]
    simp only [RStmt.emit, RStmt.elab, Option.bind_eq_bind, one_bind]
    have := spec_ifElse (off := c.pos.off) (len := c.pos.len) (off2 := p.off) (len2 := p.len)
      (c.emit_spec false (k.map Prod.fst)).weaken (t.emit_spec k t.pos.off) (f.emit_spec k f.pos.off)
    simp only [EM.bind_assoc] at this
    exact this
  | .ifOnly c t p, k, off => by
    rw [popAfter_pure (by simp)]
    simp only [RStmt.emit, RStmt.elab, Option.bind_eq_bind, one_bind]
    have := spec_ifOnly (off := c.pos.off) (len := c.pos.len)
      (c.emit_spec false (k.map Prod.fst)).weaken (t.emit_spec k t.pos.off)
    simp only [EM.bind_assoc] at this
    exact this
  | .while c b p, k, off => by
    rw [popAfter_pure (by simp)]
    simp only [RStmt.emit, RStmt.elab, Option.bind_eq_bind, one_bind]
    have := spec_while (k := k) (off := c.pos.off) (len := c.pos.len) (off2 := p.off) (len2 := p.len)
      (m2 := fun l => do b.emit l; b.popAfter b.pos.off) (ob := b.elab true)
      (c.emit_spec false (k.map Prod.fst)).weaken
      (fun l v => b.emit_spec (some (l, v)) b.pos.off)
    simp only [EM.bind_assoc] at this
    exact this
  | .doWhile b c p, k, off => by
    rw [popAfter_pure (by simp)]
    simp only [RStmt.emit, RStmt.elab, Option.bind_eq_bind, one_bind]
    have := spec_doWhile (k := k) (off := c.pos.off) (len := c.pos.len)
      (m2 := fun l => do b.emit l; b.popAfter b.pos.off) (ob := b.elab true)
      (c.emit_spec false (k.map Prod.fst)).weaken
      (fun l v => b.emit_spec (some (l, v)) b.pos.off)
    simp only [EM.bind_assoc] at this
    exact this
  | .comp ss p, k, off => by
    rw [popAfter_pure (by simp)]
    simp only [RStmt.emit, RStmt.elab, Option.bind_eq_bind]
    refine (ss.emit_spec k).cast ?_
    cases ss.elab k.isSome with
    | none => rfl
    | some x =>
      simp only [Option.map_some, Option.bind_some]
      congr 1
  | .ret e p, k, off => by
    rw [popAfter_pure (by simp)]
    exact spec_return (e.emit_spec true _) _
  | .func n f fp p, k, off => by
    rw [popAfter_pure (by simp)]
    simp only [RStmt.emit, RStmt.elab, Option.bind_eq_bind]
    refine ((f.emit_spec n fp).weaken.seq ((spec_ass n).seq spec_pop1)).cast ?_
    cases f.elab with
    | none => rfl
    | some x =>
      simp only [Option.map_some, Option.bind_some]
      congr 1
  | .brk p, k, off => by
    rw [popAfter_pure (by simp)]
    cases k with
    | none =>
      intro s
      simp only [RStmt.emit, RStmt.elab]
      rfl
    | some lv =>
      simp only [RStmt.emit, RStmt.elab, Option.map_some]
      exact (spec_brk lv.1 lv.2).cast rfl
theorem RStmts.emit_spec : ∀ (ss : RStmts) (k : Option (Nat × Nat)),
    Spec (ss.emit (k.map Prod.fst)) k
      ((ss.elab k.isSome).map fun t => t.code (k.map Prod.snd))
  | .nil, k => by
    simp only [RStmts.emit, RStmts.elab]
    exact (Spec.pure _).cast rfl
  | .cons s ss, k => spec_stmts (fun off => s.emit_spec k off) (ss.emit_spec k)
end

end Noja.VM
