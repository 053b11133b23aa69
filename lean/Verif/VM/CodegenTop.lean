import Verif.VM.CodegenMain

/-!
# The executable of a program

Puts together `codegen.c` and the builder of `executable.c`: for every tree that meets the conditions
the compilation succeeds and what is read from the executable is `compile` of the tree.
-/

set_option linter.unusedVariables false
set_option linter.unusedSimpArgs false

namespace Noja.VM
open Noja Noja.Exe

/-! ## The builder accepts what the emitter appends -/

theorem storeOps_ok (k : Nat) : ∀ (i : Nat) (ts : List OpType) (os : List Opd) (b : Builder),
    ts.length = os.length →
    (∀ (j : Nat) t o, ts[j]? = some t → os[j]? = some o → kindOk t o = true) →
    (storeOps k i ts os b).2 = true
  | i, [], [], b, _, _ => by simp [storeOps]
  | i, t :: ts, o :: os, b, hl, h => by
    have h0 := h 0 t o rfl rfl
    have hr : ∀ b, (storeOps k (i + 1) ts os b).2 = true := fun b =>
      storeOps_ok k (i + 1) ts os b (by simpa using hl)
        (fun j t' o' ht ho => h (j + 1) t' o' (by simpa using ht) (by simpa using ho))
    cases o with
    | promise l =>
      have ht : t ≠ .str := by rintro rfl; simp [kindOk] at h0
      simp only [storeOps, if_neg ht]
      cases (b.proms l).val with
      | none => exact hr _
      | some v => exact hr _
    | str s =>
      have ht : t = .str := by cases t <;> simp_all [kindOk]
      subst ht
      simp only [storeOps, ne_eq, not_true_eq_false, if_false]
      exact hr _
    | idx v =>
      have ht : t = .idx := by cases t <;> simp_all [kindOk]
      subst ht
      simp only [storeOps, ne_eq, not_true_eq_false, if_false]
      exact hr _
    | int v =>
      have ht : t = .int := by cases t <;> simp_all [kindOk]
      subst ht
      simp only [storeOps, ne_eq, not_true_eq_false, if_false]
      exact hr _
    | float v =>
      have ht : t = .float := by cases t <;> simp_all [kindOk]
      subst ht
      simp only [storeOps, ne_eq, not_true_eq_false, if_false]
      exact hr _

theorem build_ok : ∀ (evs : List Ev) (b : Builder), (∀ ev ∈ evs, Kinds ev) →
    ∃ b', build evs b = (b', true)
  | [], b, _ => ⟨b, rfl⟩
  | .resolve l v :: evs, b, h => by
    simp only [build]
    exact build_ok evs _ (fun ev he => h ev (List.mem_cons_of_mem _ he))
  | .append op opv off len room :: evs, b, h => by
    obtain ⟨hr, hl, hk⟩ := h _ (List.mem_cons_self ..)
    subst hr
    have : (append op opv off len true b).2 = true := by
      unfold append
      rw [if_neg (by simpa using hl), if_neg (by simp)]
      exact storeOps_ok _ _ _ _ _ hl.symm hk
    simp only [build]
    generalize append op opv off len true b = r at this
    obtain ⟨b', ok⟩ := r
    cases this
    exact build_ok evs b' (fun ev he => h ev (List.mem_cons_of_mem _ he))

theorem mem_appends_kinds {evs : List Ev} (h : ∀ ev ∈ evs, Kinds ev) (a : App)
    (ha : a ∈ appends evs) : a.opv.length = (optypes a.op).length ∧
      ∀ (j : Nat) t o, (optypes a.op)[j]? = some t → a.opv[j]? = some o → kindOk t o = true := by
  induction evs with
  | nil => simp [appends] at ha
  | cons ev evs ih =>
    have h' : ∀ ev ∈ evs, Kinds ev := fun e he => h e (List.mem_cons_of_mem _ he)
    cases ev with
    | resolve l v => exact ih h' (by simpa [appends] using ha)
    | append op opv off len room =>
      simp only [appends, List.mem_cons] at ha
      rcases ha with rfl | ha
      · exact (h _ (List.mem_cons_self ..)).2
      · exact ih h' ha

/-! ## Labels -/

theorem lookup_of_mem {env : List (Nat × Int)} (hn : (env.map Prod.fst).Nodup) {l : Nat} {v : Int}
    (h : (l, v) ∈ env) : env.lookup l = some v := by
  induction env with
  | nil => simp at h
  | cons x env ih =>
    obtain ⟨l', v'⟩ := x
    simp only [List.map_cons, List.nodup_cons] at hn
    rw [List.lookup_cons]
    simp only [List.mem_cons, Prod.mk.injEq] at h
    rcases h with ⟨rfl, rfl⟩ | h
    · simp
    · have : l ≠ l' := by
        rintro rfl
        exact hn.1 (List.mem_map.2 ⟨(l, v), h, rfl⟩)
      have hb : (l == l') = false := by simpa using this
      simp [hb, ih hn.2 h]

theorem lookup_none {env : List (Nat × Int)} {l : Nat} (h : ∀ v, (l, v) ∉ env) :
    env.lookup l = none := by
  induction env with
  | nil => rfl
  | cons x env ih =>
    obtain ⟨l', v'⟩ := x
    have : l ≠ l' := by
      rintro rfl
      exact h v' (List.mem_cons_self ..)
    have hb : (l == l') = false := by simpa using this
    simp only [List.lookup_cons, hb]
    exact ih (fun v hv => h v (List.mem_cons_of_mem _ hv))

/-- A label that has not been given a value would show in the decoded instructions. -/
theorem allGiven_of_dec {evs : List Ev} {code : List Instr} (hn : ((given evs).map Prod.fst).Nodup)
    (hk : ∀ ev ∈ evs, Kinds ev)
    (hd : ∀ env : List (Nat × Int), (∀ l v, (l, v) ∈ given evs → env.lookup l = some v) →
      (appends evs).map (dec env) = code.map Instr.encode) :
    AllGiven (appends evs) (given evs) := by
  intro a ha l hl
  refine Classical.byContradiction fun hno => ?_
  have hno : ∀ v, (l, v) ∉ given evs := fun v hv => hno ⟨v, hv⟩
  obtain ⟨hlen, hkind⟩ := mem_appends_kinds hk a ha
  obtain ⟨j, hj, hjl⟩ := List.mem_iff_getElem.1 hl
  have hjo : a.opv[j]? = some (.promise l) := by rw [List.getElem?_eq_getElem hj, hjl]
  obtain ⟨t, ht⟩ : ∃ t, (optypes a.op)[j]? = some t := by
    rw [hlen] at hj
    exact ⟨_, List.getElem?_eq_getElem hj⟩
  have hkj := hkind j t _ ht hjo
  have hx : ∀ x : Int, ∀ l' v, (l', v) ∈ given evs → ((l, x) :: given evs).lookup l' = some v := by
    intro x l' v h
    have : l' ≠ l := by rintro rfl; exact hno v h
    have hb : (l' == l) = false := by simpa using this
    simp [List.lookup_cons, hb, lookup_of_mem hn h]
  have e : (appends evs).map (dec ((l, 0) :: given evs)) =
      (appends evs).map (dec ((l, 1) :: given evs)) :=
    (hd _ (hx 0)).trans (hd _ (hx 1)).symm
  have e1 : dec ((l, 0) :: given evs) a = dec ((l, 1) :: given evs) a := by
    have := List.map_inj_left.1 e a ha
    exact this
  have e2 : opdValue ((l, 0) :: given evs) t (.promise l) = opdValue ((l, 1) :: given evs) t (.promise l) := by
    simp only [dec, Prod.mk.injEq, true_and] at e1
    have := congrArg (fun x : List FOpd => x[j]?) e1
    simpa [List.getElem?_zipWith, ht, hjo] using this
  cases t <;> simp [opdValue, kindOk, List.lookup_cons] at e2 hkj

/-! ## The conditions include that of `break` -/

theorem Exprs.wf_append : ∀ a b : Exprs, (a.append b).wf = (a.wf && b.wf)
  | .nil, b => by simp [Exprs.append, Exprs.wf]
  | .cons e es, b => by simp [Exprs.append, Exprs.wf, es.wf_append b, Bool.and_assoc]

theorem Targets.wf_append : ∀ a b : Targets, (a.append b).wf = (a.wf && b.wf)
  | .one t, b => by simp [Targets.append, Targets.wf]
  | .cons e es, b => by simp [Targets.append, Targets.wf, es.wf_append b, Bool.and_assoc]

theorem Exprs.one_wf {es : Exprs} {e : Expr} (h : es.one = some e) (hw : es.wf = true) :
    e.wf = true := by
  cases es with
  | nil => simp [Exprs.one] at h
  | cons x xs =>
    cases xs with
    | nil => simp only [Exprs.one, Option.some.injEq] at h; subst h; simpa [Exprs.wf] using hw
    | cons _ _ => simp [Exprs.one] at h

theorem wf1 {e : Expr} (h : e.wf = true) : (Exprs.cons e .nil).wf = true := by
  simp [Exprs.wf, h]

mutual
theorem RExpr.elabT_wf : ∀ (e : RExpr) (es : Exprs), e.elabT = some es → es.wf = true
  | .none _, es, h => by simp only [RExpr.elabT, Option.some.injEq] at h; subst h; exact wf1 rfl
  | .tru _, es, h => by simp only [RExpr.elabT, Option.some.injEq] at h; subst h; exact wf1 rfl
  | .fls _, es, h => by simp only [RExpr.elabT, Option.some.injEq] at h; subst h; exact wf1 rfl
  | .int .., es, h => by simp only [RExpr.elabT, Option.some.injEq] at h; subst h; exact wf1 rfl
  | .float .., es, h => by simp only [RExpr.elabT, Option.some.injEq] at h; subst h; exact wf1 rfl
  | .str .., es, h => by simp only [RExpr.elabT, Option.some.injEq] at h; subst h; exact wf1 rfl
  | .ident .., es, h => by simp only [RExpr.elabT, Option.some.injEq] at h; subst h; exact wf1 rfl
  | .un op a _, es, h => by
    simp only [RExpr.elabT, Option.bind_eq_bind, Option.bind_eq_some_iff] at h
    obtain ⟨x, hx, y, hy, h⟩ := h
    cases h
    exact wf1 (by simp [Expr.wf, Exprs.one_wf hy (a.elabT_wf x hx)])
  | .bin op a b _, es, h => by
    simp only [RExpr.elabT, Option.bind_eq_bind, Option.bind_eq_some_iff] at h
    obtain ⟨x, hx, y, hy, z, hz, w, hw, h⟩ := h
    cases h
    exact wf1 (by simp [Expr.wf, Exprs.one_wf hy (a.elabT_wf x hx), Exprs.one_wf hw (b.elabT_wf z hz)])
  | .and a b _, es, h => by
    simp only [RExpr.elabT, Option.bind_eq_bind, Option.bind_eq_some_iff] at h
    obtain ⟨x, hx, y, hy, z, hz, w, hw, h⟩ := h
    cases h
    exact wf1 (by simp [Expr.wf, Exprs.one_wf hy (a.elabT_wf x hx), Exprs.one_wf hw (b.elabT_wf z hz)])
  | .or a b _, es, h => by
    simp only [RExpr.elabT, Option.bind_eq_bind, Option.bind_eq_some_iff] at h
    obtain ⟨x, hx, y, hy, z, hz, w, hw, h⟩ := h
    cases h
    exact wf1 (by simp [Expr.wf, Exprs.one_wf hy (a.elabT_wf x hx), Exprs.one_wf hw (b.elabT_wf z hz)])
  | .ass l r _, es, h => by
    simp only [RExpr.elabT, Option.bind_eq_bind, Option.bind_eq_some_iff] at h
    obtain ⟨ts, hts, h⟩ := h
    have hw := l.elabTargets_wf ts hts
    by_cases hc : ts.count > 32
    · simp [hc] at h
    · rw [if_neg hc] at h
      cases ts with
      | one t =>
        simp only [Option.bind_eq_some_iff] at h
        obtain ⟨x, hx, y, hy, h⟩ := h
        cases h
        exact wf1 (by simp_all [Expr.wf, Targets.wf, Exprs.one_wf hy (r.elabT_wf x hx)])
      | cons t ts =>
        simp only [Option.bind_eq_some_iff] at h
        obtain ⟨x, hx, h⟩ := h
        cases h
        exact wf1 (by simp_all [Expr.wf, Targets.wf, r.elabCall_wf x hx])
  | .pair a b _, es, h => by
    simp only [RExpr.elabT, Option.bind_eq_bind, Option.bind_eq_some_iff] at h
    obtain ⟨x, hx, y, hy, h⟩ := h
    cases h
    simp [Exprs.wf_append, a.elabT_wf x hx, b.elabT_wf y hy]
  | .arw .., es, h => by simp [RExpr.elabT] at h
  | .list items _, es, h => by
    simp only [RExpr.elabT, Option.bind_eq_bind, Option.bind_eq_some_iff] at h
    obtain ⟨x, hx, h⟩ := h
    cases h
    exact wf1 (by simp [Expr.wf, items.elab_wf x hx])
  | .map items _, es, h => by
    simp only [RExpr.elabT, Option.bind_eq_bind, Option.bind_eq_some_iff] at h
    obtain ⟨x, hx, h⟩ := h
    cases h
    exact wf1 (by simp [Expr.wf, items.elab_wf x hx])
  | .call c _, es, h => by
    simp only [RExpr.elabT, Option.bind_eq_bind, Option.bind_eq_some_iff] at h
    obtain ⟨x, hx, h⟩ := h
    cases h
    exact wf1 (by simp [Expr.wf, c.elab_wf x hx])
  | .select a b _, es, h => by
    simp only [RExpr.elabT, Option.bind_eq_bind, Option.bind_eq_some_iff] at h
    obtain ⟨x, hx, y, hy, z, hz, w, hw, h⟩ := h
    cases h
    exact wf1 (by simp [Expr.wf, Exprs.one_wf hy (a.elabT_wf x hx), Exprs.one_wf hw (b.elabT_wf z hz)])
  | .func f _, es, h => by
    simp only [RExpr.elabT, Option.bind_eq_bind, Option.bind_eq_some_iff] at h
    obtain ⟨x, hx, h⟩ := h
    cases h
    exact wf1 (by simp [Expr.wf, f.elab_wf x hx])
theorem RExpr.elabCall_wf : ∀ (e : RExpr) (c : Call), e.elabCall = some c → c.wf = true
  | .call c _, x, h => by
    simp only [RExpr.elabCall] at h
    exact c.elab_wf x h
  | .none _, _, h | .tru _, _, h | .fls _, _, h | .int .., _, h | .float .., _, h | .str .., _, h
  | .ident .., _, h | .un .., _, h | .bin .., _, h | .and .., _, h | .or .., _, h | .ass .., _, h
  | .pair .., _, h | .arw .., _, h | .list .., _, h | .map .., _, h | .select .., _, h
  | .func .., _, h => by simp [RExpr.elabCall] at h
theorem RExpr.elabTargets_wf : ∀ (e : RExpr) (ts : Targets), e.elabTargets = some ts → ts.wf = true
  | .pair a b _, es, h => by
    simp only [RExpr.elabTargets, Option.bind_eq_bind, Option.bind_eq_some_iff] at h
    obtain ⟨x, hx, y, hy, h⟩ := h
    cases h
    simp [Targets.wf_append, a.elabTargets_wf x hx, b.elabTargets_wf y hy]
  | .ident .., es, h => by
    simp only [RExpr.elabTargets, Option.some.injEq] at h; subst h; rfl
  | .select a b _, es, h => by
    simp only [RExpr.elabTargets, Option.bind_eq_bind, Option.bind_eq_some_iff] at h
    obtain ⟨x, hx, y, hy, z, hz, w, hw, h⟩ := h
    cases h
    simp [Targets.wf, Target.wf, Exprs.one_wf hy (a.elabT_wf x hx), Exprs.one_wf hw (b.elabT_wf z hz)]
  | .none _, _, h | .tru _, _, h | .fls _, _, h | .int .., _, h | .float .., _, h | .str .., _, h
  | .un .., _, h | .bin .., _, h | .and .., _, h | .or .., _, h | .ass .., _, h
  | .arw .., _, h | .list .., _, h | .map .., _, h | .call .., _, h
  | .func .., _, h => by simp [RExpr.elabTargets] at h
theorem RCall.elab_wf : ∀ (e : RCall) (c : Call), e.elab = some c → c.wf = true
  | .fn f args, c, h => by
    simp only [RCall.elab, Option.bind_eq_bind, Option.bind_eq_some_iff] at h
    obtain ⟨x, hx, y, hy, z, hz, h⟩ := h
    cases h
    simp [Call.wf, args.elab_wf x hx, Exprs.one_wf hz (f.elabT_wf y hy)]
  | .method s i q args, c, h => by
    simp only [RCall.elab, Option.bind_eq_bind, Option.bind_eq_some_iff] at h
    obtain ⟨x, hx, y, hy, z, hz, u, hu, v, hv, h⟩ := h
    cases h
    simp [Call.wf, args.elab_wf x hx, Exprs.one_wf hz (s.elabT_wf y hy), Exprs.one_wf hv (i.elabT_wf u hu)]
theorem RExprs.elab_wf : ∀ (e : RExprs) (c : Exprs), e.elab = some c → c.wf = true
  | .nil, c, h => by simp only [RExprs.elab, Option.some.injEq] at h; subst h; rfl
  | .cons e es, c, h => by
    simp only [RExprs.elab, Option.bind_eq_bind, Option.bind_eq_some_iff] at h
    obtain ⟨x, hx, y, hy, z, hz, h⟩ := h
    cases h
    simp [Exprs.wf, es.elab_wf z hz, Exprs.one_wf hy (e.elabT_wf x hx)]
theorem RPairs.elab_wf : ∀ (e : RPairs) (c : Pairs), e.elab = some c → c.wf = true
  | .nil, c, h => by simp only [RPairs.elab, Option.some.injEq] at h; subst h; rfl
  | .cons k v es, c, h => by
    simp only [RPairs.elab, Option.bind_eq_bind, Option.bind_eq_some_iff] at h
    obtain ⟨x, hx, y, hy, x', hx', y', hy', z, hz, h⟩ := h
    cases h
    simp [Pairs.wf, es.elab_wf z hz, Exprs.one_wf hy (k.elabT_wf x hx), Exprs.one_wf hy' (v.elabT_wf x' hx')]
theorem RFun.elab_wf : ∀ (f : RFun) (fd : FunDef), f.elab = some fd → fd.wf = true
  | .mk ps b, fd, h => by
    simp only [RFun.elab, Option.bind_eq_bind, Option.bind_eq_some_iff] at h
    obtain ⟨x, hx, y, hy, h⟩ := h
    cases h
    simp [FunDef.wf, ps.elab_wf x hx, b.elab_wf false y hy]
theorem RParams.elab_wf : ∀ (f : RParams) (fd : Params), f.elab = some fd → fd.wf = true
  | .nil, c, h => by simp only [RParams.elab, Option.some.injEq] at h; subst h; rfl
  | .cons n d t p ps, c, h => by
    simp only [RParams.elab, Option.bind_eq_bind, Option.bind_eq_some_iff] at h
    obtain ⟨x, hx, y, hy, z, hz, h⟩ := h
    cases h
    simp [Params.wf, d.elab_wf x hx, t.elab_wf y hy, ps.elab_wf z hz]
theorem ROpt.elab_wf : ∀ (f : ROpt) (fd : OExpr), f.elab = some fd → fd.wf = true
  | .no, c, h => by simp only [ROpt.elab, Option.some.injEq] at h; subst h; rfl
  | .yes e, c, h => by
    simp only [ROpt.elab, Option.bind_eq_bind, Option.bind_eq_some_iff] at h
    obtain ⟨x, hx, y, hy, h⟩ := h
    cases h
    simp [OExpr.wf, Exprs.one_wf hy (e.elabT_wf x hx)]
theorem RStmt.elab_wf : ∀ (s : RStmt) (l : Bool) (t : Stmt), s.elab l = some t → t.wf l = true
  | .expr e, l, t, h => by
    simp only [RStmt.elab, Option.bind_eq_bind, Option.bind_eq_some_iff] at h
    obtain ⟨x, hx, y, hy, h⟩ := h
    cases h
    simp [Stmt.wf, Exprs.one_wf hy (e.elabT_wf x hx)]
  | .ifElse e s u _, l, t, h => by
    simp only [RStmt.elab, Option.bind_eq_bind, Option.bind_eq_some_iff] at h
    obtain ⟨x, hx, y, hy, z, hz, w, hw, h⟩ := h
    cases h
    simp [Stmt.wf, Exprs.one_wf hy (e.elabT_wf x hx), s.elab_wf l z hz, u.elab_wf l w hw]
  | .ifOnly e s _, l, t, h => by
    simp only [RStmt.elab, Option.bind_eq_bind, Option.bind_eq_some_iff] at h
    obtain ⟨x, hx, y, hy, z, hz, h⟩ := h
    cases h
    simp [Stmt.wf, Exprs.one_wf hy (e.elabT_wf x hx), s.elab_wf l z hz]
  | .while e s _, l, t, h => by
    simp only [RStmt.elab, Option.bind_eq_bind, Option.bind_eq_some_iff] at h
    obtain ⟨x, hx, y, hy, z, hz, h⟩ := h
    cases h
    simp [Stmt.wf, Exprs.one_wf hy (e.elabT_wf x hx), s.elab_wf true z hz]
  | .doWhile s e _, l, t, h => by
    simp only [RStmt.elab, Option.bind_eq_bind, Option.bind_eq_some_iff] at h
    obtain ⟨z, hz, x, hx, y, hy, h⟩ := h
    cases h
    simp [Stmt.wf, Exprs.one_wf hy (e.elabT_wf x hx), s.elab_wf true z hz]
  | .comp ss _, l, t, h => by
    simp only [RStmt.elab, Option.bind_eq_bind, Option.bind_eq_some_iff] at h
    obtain ⟨x, hx, h⟩ := h
    cases h
    simp [Stmt.wf, ss.elab_wf l x hx]
  | .ret e _, l, t, h => by
    simp only [RStmt.elab, Option.bind_eq_bind, Option.bind_eq_some_iff] at h
    obtain ⟨x, hx, h⟩ := h
    by_cases hc : x.count > 32
    · simp [hc] at h
    · rw [if_neg hc] at h
      cases h
      simp [Stmt.wf, e.elabT_wf x hx]
  | .func n f _ _, l, t, h => by
    simp only [RStmt.elab, Option.bind_eq_bind, Option.bind_eq_some_iff] at h
    obtain ⟨x, hx, h⟩ := h
    cases h
    simp [Stmt.wf, f.elab_wf x hx]
  | .brk _, l, t, h => by
    cases l <;> simp [RStmt.elab] at h
    subst h; rfl
theorem RStmts.elab_wf : ∀ (s : RStmts) (l : Bool) (t : Stmts), s.elab l = some t → t.wf l = true
  | .nil, l, t, h => by simp only [RStmts.elab, Option.some.injEq] at h; subst h; rfl
  | .cons s ss, l, t, h => by
    simp only [RStmts.elab, Option.bind_eq_bind, Option.bind_eq_some_iff] at h
    obtain ⟨x, hx, y, hy, h⟩ := h
    cases h
    simp [Stmts.wf, s.elab_wf l x hx, ss.elab_wf l y hy]
end

/-! ## Programs -/

theorem codegen_spec (root : RStmts) (size : Int) :
    match root.elab false with
    | none => codegen root size = .ub
    | some p => ∃ s', codegen root size = .ok s'.evs ∧ Emitted ⟨[], 0, 0⟩ s' none (compile p) := by
  have h := ((root.emit_spec none).seq (spec0 (off := size) (len := 0) .EXIT .exit rfl rfl)) ⟨[], 0, 0⟩
  simp only [Option.map_none, Option.isSome_none] at h
  have hrun : codegen root size =
      ((root.emit none >>= fun _ => emitI .EXIT [] size 0 : EM Unit) ⟨[], 0, 0⟩).bind
        fun r => .ok r.2.evs := rfl
  cases he : root.elab false with
  | none =>
    rw [he] at h
    simp only
    rw [hrun, show ((root.emit none >>= fun _ => emitI .EXIT [] size 0 : EM Unit) ⟨[], 0, 0⟩) = .ub from h]
    rfl
  | some p =>
    rw [he] at h
    obtain ⟨s', h1, h2⟩ := h
    refine ⟨s', ?_, h2⟩
    rw [hrun, h1]
    rfl

/-- A program that meets the conditions is compiled, into an executable in which the instructions of
`compile` are found; the strings must not contain the terminator of C strings. -/
theorem codegen_accepts (root : RStmts) (size : Int) (p : Stmts) (h : root.elab false = some p) :
    ∃ evs b e, codegen root size = .ok evs ∧ build evs Exe.new = (b, true) ∧ finalize b = some e ∧
      e.body.length = (compile p).length ∧
      ((∀ i ∈ compile p, ∀ s, FOpd.str s ∈ i.encode.2 → (0 : UInt8) ∉ s) →
        ∀ i, Exe.fetch e i = ((compile p)[i]?).map Instr.encode) := by
  have hs := codegen_spec root size
  rw [h] at hs
  obtain ⟨s', hc, new, hev, hcnt, hlbl, f1, f2, f3, hk, hd⟩ := hs
  simp only [List.nil_append] at hev
  rw [hev] at hc
  have hn : ((given new).map Prod.fst).Nodup := by
    rw [List.nodup_iff_count]
    intro l
    show cntL new l ≤ 1
    by_cases hl : l < s'.lbl
    · exact Nat.le_of_eq (f1 l (Nat.zero_le _) hl)
    · rw [f3 l (by omega)]; omega
  have hd' : ∀ env : List (Nat × Int), (∀ l v, (l, v) ∈ given new → env.lookup l = some v) →
      (appends new).map (dec env) = (compile p).map Instr.encode :=
    fun env henv => hd env henv (by simp)
  have hg := allGiven_of_dec hn hk hd'
  have hdec := hd' (given new) (fun l v hv => lookup_of_mem hn hv)
  obtain ⟨b, hb⟩ := build_ok new Exe.new hk
  have hfin := (C11_finalize new b hb hn).2 hg
  obtain ⟨e, he⟩ := Option.isSome_iff_exists.1 hfin
  refine ⟨new, b, e, hc, hb, he, ?_, ?_⟩
  · obtain ⟨hinv, -, -⟩ := build_inv new Exe.new b [] [] inv_new hb (by simp [Exe.new]) hn (by simp)
    have : e = ⟨b.data, b.code⟩ := by
      unfold finalize at he
      by_cases hp : b.promc > 0
      · simp [hp] at he
      · rw [if_neg hp] at he; cases he; rfl
    rw [this]
    simp only [List.nil_append] at hinv
    rw [hinv.len]
    have := congrArg List.length hdec
    simpa using this
  · intro hstr i
    have hcs : CStrings (appends new) := by
      intro a ha s hsm
      obtain ⟨hlen, -⟩ := mem_appends_kinds hk a ha
      obtain ⟨j, hj, hjl⟩ := List.mem_iff_getElem.1 hsm
      have hjo : a.opv[j]? = some (.str s) := by rw [List.getElem?_eq_getElem hj, hjl]
      obtain ⟨t, ht⟩ : ∃ t, (optypes a.op)[j]? = some t := by
        rw [hlen] at hj
        exact ⟨_, List.getElem?_eq_getElem hj⟩
      have hm : dec (given new) a ∈ (compile p).map Instr.encode := by
        rw [← hdec]; exact List.mem_map_of_mem ha
      obtain ⟨ins, hins, hie⟩ := List.mem_map.1 hm
      refine hstr ins hins s ?_
      rw [hie]
      apply List.mem_of_getElem? (i := j)
      simp [dec, List.getElem?_zipWith, ht, hjo, opdValue]
    rw [C11_fetch new b e hb he hcs hn i]
    have : ∀ i : Nat, ((appends new).map (dec (given new)))[i]? = ((compile p).map Instr.encode)[i]? := by
      rw [hdec]; intro _; rfl
    have := this i
    rw [List.getElem?_map, List.getElem?_map] at this
    exact this

/-- Every other program makes `codegen.c` write through a pointer that was never set. -/
theorem codegen_rejects (root : RStmts) (size : Int) (h : root.elab false = none) :
    codegen root size = .ub := by
  have hs := codegen_spec root size
  rw [h] at hs
  exact hs

/-- `while true: { if f(1, "a") and not x: break; a, b[0] = g(); } h = fun(n: int = 3) return n, n;`
meets the conditions and its code has no terminator in its strings. -/
def sampleProgram : RStmts :=
  let p : Pos := ⟨0, 1⟩
  .cons (.while (.tru p)
    (.comp
      (.cons (.ifOnly (.and (.call (.fn (.ident [102] p) (.cons (.int 1 p) (.cons (.str [97] p) .nil))) p)
          (.un .not (.ident [120] p) p) p) (.brk p) p)
      (.cons (.expr (.ass (.pair (.ident [97] p) (.select (.ident [98] p) (.int 0 p) p) p)
          (.call (.fn (.ident [103] p) .nil) p) p)) .nil)) p) p)
  (.cons (.expr (.ass (.ident [104] p)
    (.func (.mk (.cons [110] (.yes (.int 3 p)) (.yes (.ident [105, 110, 116] p)) p .nil)
      (.ret (.pair (.ident [110] p) (.ident [110] p) p) p)) p) p)) .nil)

example : ∃ p, sampleProgram.elab false = some p ∧ (compile p).length > 20 ∧
    ∀ i ∈ compile p, ∀ s, FOpd.str s ∈ i.encode.2 → (0 : UInt8) ∉ s := by
  refine ⟨_, rfl, by decide, ?_⟩
  have h : ∀ i ∈ compile ((sampleProgram.elab false).getD .nil), i.encode.2.all
      (fun o => match o with
        | .str s => !s.contains 0
        | _ => true) = true := by decide +kernel
  intro i hi s hs
  simpa using List.all_eq_true.1 (h i hi) _ hs

/-- `break` outside a loop is such a program. -/
example : (RStmts.cons (.brk ⟨0, 5⟩) .nil).elab false = none := rfl

end Noja.VM
