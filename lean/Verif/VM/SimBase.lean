import Verif.VM.Machine
import Verif.VM.Source

/-! # Simulation: basic notions -/

namespace Noja.VM

set_option linter.unusedSimpArgs false

variable {W : Type} {L : Layer W} {cap : Nat}

/-! ## Several steps -/

theorem runN_add (m n : Nat) (s : St W) :
    runN L cap (m + n) s =
      match runN L cap m s with
      | .run t => runN L cap n t
      | x => x := by
  induction m generalizing s with
  | zero => simp [runN]
  | succ m ih =>
    rw [Nat.succ_add_eq_add_succ, Nat.add_succ]
    simp only [runN]
    cases step L cap s <;> simp [ih]

theorem runN_run_le {m n : Nat} {s t : St W} (h : runN L cap n s = .run t) (hm : m ≤ n) :
    ∃ u, runN L cap m s = .run u := by
  obtain ⟨k, rfl⟩ := Nat.exists_eq_add_of_le hm
  rw [runN_add] at h
  cases hx : runN L cap m s with
  | run u => exact ⟨u, rfl⟩
  | _ => rw [hx] at h; simp at h

/-- The machine reaches a limit. -/
def Lim (L : Layer W) (cap : Nat) (s : St W) : Prop := ∃ k t, runN L cap k s = .limit t

/-- A run of the machine from `t` matches the outcome `r` of the program text. -/
def Sim (L : Layer W) (cap : Nat) {α : Type} (n : Nat) (r : Res W α) (t : St W)
    (post : SSt W → α → St W → Prop) : Prop :=
  Lim L cap t ∨
  match r with
  | .ok s a => ∃ k u, runN L cap k t = .run u ∧ post s a u
  | .err w => ∃ k u, runN L cap k t = .err u ∧ u.w = w
  | .ub => ∃ k, runN L cap k t = .ub
  | .off => True
  | .more => ∃ u, runN L cap n t = .run u

/-- The same for the status after one step. -/
def SimX (L : Layer W) (cap : Nat) {α : Type} (n : Nat) (r : Res W α) (x : Status W)
    (post : SSt W → α → St W → Prop) : Prop :=
  match x with
  | .run t => Sim L cap (n - 1) r t post
  | .limit _ => True
  | .err t =>
    match r with
    | .err w => t.w = w
    | .off => True
    | .more => n = 0
    | _ => False
  | .ub =>
    match r with
    | .ub => True
    | .off => True
    | .more => n = 0
    | _ => False
  | .done _ _ =>
    match r with
    | .off => True
    | .more => n = 0
    | _ => False

variable {α β : Type} {n : Nat}

theorem Sim.ok {s : SSt W} {a : α} {t : St W} {post : SSt W → α → St W → Prop} (h : post s a t) :
    Sim L cap n (.ok s a) t post := .inr ⟨0, t, rfl, h⟩

theorem Sim.mono {r : Res W α} {t : St W} {post : SSt W → α → St W → Prop} {m : Nat}
    (h : Sim L cap n r t post) (hm : m ≤ n) : Sim L cap m r t post := by
  rcases h with h | h
  · exact .inl h
  · refine .inr ?_
    cases r with
    | more =>
      obtain ⟨u, hu⟩ := h
      exact runN_run_le hu hm
    | _ => exact h

theorem Sim.post {r : Res W α} {t : St W} {post post' : SSt W → α → St W → Prop}
    (h : Sim L cap n r t post) (hp : ∀ s a u, post s a u → post' s a u) :
    Sim L cap n r t post' := by
  rcases h with h | h
  · exact .inl h
  · refine .inr ?_
    cases r with
    | ok s a =>
      obtain ⟨k, u, h1, h2⟩ := h
      exact ⟨k, u, h1, hp _ _ _ h2⟩
    | _ => exact h

/-- Prefixing a run with steps. -/
theorem Sim.steps {r : Res W α} {t u : St W} {post : SSt W → α → St W → Prop} {k : Nat}
    (hk : runN L cap k t = .run u) (h : Sim L cap n r u post) : Sim L cap n r t post := by
  have hrun : ∀ j x, runN L cap j u = x → runN L cap (k + j) t = x := by
    intro j x hx
    rw [runN_add, hk]
    exact hx
  rcases h with ⟨j, v, h⟩ | h
  · exact .inl ⟨k + j, v, hrun _ _ h⟩
  · refine .inr ?_
    cases r with
    | ok s a =>
      obtain ⟨j, v, h1, h2⟩ := h
      exact ⟨k + j, v, hrun _ _ h1, h2⟩
    | err w =>
      obtain ⟨j, v, h1, h2⟩ := h
      exact ⟨k + j, v, hrun _ _ h1, h2⟩
    | ub =>
      obtain ⟨j, h1⟩ := h
      exact ⟨k + j, hrun _ _ h1⟩
    | off => trivial
    | more =>
      obtain ⟨v, h1⟩ := h
      exact runN_run_le (hrun _ _ h1) (by omega)

theorem Sim.bind {x : M W α} {f : α → M W β} {s : SSt W} {t : St W}
    {post : SSt W → α → St W → Prop} {post' : SSt W → β → St W → Prop}
    (h : Sim L cap n (x s) t post)
    (hf : ∀ s' a u, post s' a u → Sim L cap n (f a s') u post') :
    Sim L cap n ((x >>= f) s) t post' := by
  show Sim L cap n (M.bind x f s) t post'
  unfold M.bind
  rcases h with h | h
  · exact .inl h
  · revert h
    cases x s with
    | ok s' a =>
      rintro ⟨k, u, h1, h2⟩
      exact (hf _ _ _ h2).steps h1
    | err w => exact fun h => .inr h
    | ub => exact fun h => .inr h
    | off => exact fun h => .inr h
    | more => exact fun h => .inr h

/-- One step. -/
theorem Sim.step {r : Res W α} {t : St W} {post : SSt W → α → St W → Prop}
    (h : SimX L cap n r (VM.step L cap t) post) : Sim L cap n r t post := by
  have h1 : runN L cap 1 t = VM.step L cap t := by
    simp only [runN]
    cases VM.step L cap t <;> rfl
  cases hs : VM.step L cap t with
  | run u =>
    rw [hs] at h h1
    replace h : Sim L cap (n - 1) r u post := h
    cases r with
    | more =>
      rcases h with h | ⟨v, h⟩
      · exact Sim.steps h1 (.inl h)
      · refine .inr ?_
        cases n with
        | zero => exact ⟨t, rfl⟩
        | succ n =>
          refine ⟨v, ?_⟩
          rw [Nat.add_comm, runN_add, h1]
          simpa using h
    | ok s a => exact Sim.mono (n := n) (Sim.steps h1 (by
        rcases h with h | h
        · exact .inl h
        · exact .inr h)) (Nat.le_refl _)
    | err w => exact Sim.steps h1 (by
        rcases h with h | h
        · exact .inl h
        · exact .inr h)
    | ub => exact Sim.steps h1 (by
        rcases h with h | h
        · exact .inl h
        · exact .inr h)
    | off => exact .inr trivial
  | limit u =>
    rw [hs] at h1
    exact .inl ⟨1, u, h1⟩
  | err u =>
    rw [hs] at h h1
    refine .inr ?_
    cases r with
    | err w => exact ⟨1, u, h1, h⟩
    | off => trivial
    | more => cases (show n = 0 from h); exact ⟨t, rfl⟩
    | ok s a => exact h.elim
    | ub => exact h.elim
  | ub =>
    rw [hs] at h h1
    refine .inr ?_
    cases r with
    | ub => exact ⟨1, h1⟩
    | off => trivial
    | more => cases (show n = 0 from h); exact ⟨t, rfl⟩
    | ok s a => exact h.elim
    | err w => exact h.elim
  | done vs u =>
    rw [hs] at h h1
    refine .inr ?_
    cases r with
    | off => trivial
    | more => cases (show n = 0 from h); exact ⟨t, rfl⟩
    | ok s a => exact h.elim
    | err w => exact h.elim
    | ub => exact h.elim

theorem SimX.run {r : Res W α} {t : St W} {post : SSt W → α → St W → Prop}
    (h : Sim L cap n r t post) : SimX L cap n r (.run t) post :=
  Sim.mono (m := n - 1) h (Nat.sub_le _ _)

theorem SimX.prim {f : W → Out W α} {s : SSt W} {t : St W} {g : α → M W β}
    {k : α → St W → Status W} {post : SSt W → β → St W → Prop} (hw : t.w = s.w)
    (h : ∀ w a, f s.w = .ok w a → L.pending w = false →
      SimX L cap n (g a ⟨w, s.funs⟩) (k a { t with w := w }) post) :
    SimX L cap n ((lift L f >>= g) s) (t.prim (f t.w) k) post := by
  show SimX L cap n (M.bind (lift L f) g s) (t.prim (f t.w) k) post
  unfold M.bind lift St.prim
  rw [hw]
  cases hf : f s.w with
  | ok w a =>
    cases hp : L.pending w with
    | false => simpa [hp] using h w a hf hp
    | true =>
      simp only [hp, if_true]
      generalize k a { t with w := w } = x
      cases x with
      | run u => exact .inr trivial
      | _ => trivial
  | err w => exact rfl
  | ub => trivial

theorem bind_pure' {α : Type} (x : M W α) : (x >>= pure) = x := by
  funext s
  show M.bind x _ s = x s
  unfold M.bind
  cases x s <;> rfl

theorem SimX.prim' {f : W → Out W α} {s : SSt W} {t : St W}
    {k : α → St W → Status W} {post : SSt W → α → St W → Prop} (hw : t.w = s.w)
    (h : ∀ w a, f s.w = .ok w a → L.pending w = false →
      SimX L cap n (.ok ⟨w, s.funs⟩ a) (k a { t with w := w }) post) :
    SimX L cap n (lift L f s) (t.prim (f t.w) k) post := by
  rw [← bind_pure' (lift L f)]
  exact SimX.prim hw h

/-- A push either works or hits a limit. -/
theorem SimX.push {r : Res W α} {v : Ref} {w : W} {fn : Ref → Option Func}
    {ex : List (List Instr)} {st : List Ref} {f : NFrame} {fs : List Frame}
    {post : SSt W → α → St W → Prop}
    (h : Sim L cap n r ⟨w, fn, ex, v :: st, .normal { f with used := f.used + 1 } :: fs⟩ post) :
    SimX L cap n r (St.push cap v ⟨w, fn, ex, st, .normal f :: fs⟩) post := by
  unfold St.push
  dsimp only
  split
  · trivial
  · split
    · trivial
    · exact SimX.run h

theorem SimX.pushAll {r : Res W α} {vs : List Ref} {w : W} {fn : Ref → Option Func}
    {ex : List (List Instr)} {st : List Ref} {f : NFrame} {fs : List Frame}
    {post : SSt W → α → St W → Prop}
    (h : SimX L cap n r (.run ⟨w, fn, ex, vs.reverse ++ st, .normal { f with used := f.used + vs.length } :: fs⟩) post) :
    SimX L cap n r (St.pushAll cap vs ⟨w, fn, ex, st, .normal f :: fs⟩) post := by
  induction vs generalizing st f with
  | nil => exact h
  | cons v vs ih =>
    unfold St.pushAll St.push
    dsimp only
    by_cases h1 : f.used = maxFrameStack
    · rw [if_pos h1]; trivial
    · rw [if_neg h1]
      by_cases h2 : cap ≤ st.length
      · rw [if_pos h2]; trivial
      · rw [if_neg h2]
        dsimp only
        apply ih
        simpa [Nat.add_comm, Nat.add_left_comm, Nat.add_assoc] using h

/-! ## Code in memory -/

/-- The instructions `c` are in executable `e` from index `p` on. -/
def CodeAt (ex : List (List Instr)) (e p : Nat) (c : List Instr) : Prop :=
  ∀ i x, c[i]? = some x → fetch ex e (p + i) = some x

theorem fetch_append {ex l : List (List Instr)} {e i : Nat} {x : Instr}
    (h : fetch ex e i = some x) : fetch (ex ++ l) e i = some x := by
  unfold fetch at h ⊢
  cases he : ex[e]? with
  | none => rw [he] at h; simp at h
  | some c =>
    have hlt : e < ex.length := by
      rcases Nat.lt_or_ge e ex.length with h' | h'
      · exact h'
      · rw [List.getElem?_eq_none h'] at he; simp at he
    rw [List.getElem?_append_left hlt, he]
    rw [he] at h
    exact h

theorem CodeAt.append {ex l : List (List Instr)} {e p : Nat} {c : List Instr}
    (h : CodeAt ex e p c) : CodeAt (ex ++ l) e p c := fun i x hx => fetch_append (h i x hx)

theorem CodeAt.left {ex : List (List Instr)} {e p : Nat} {c d : List Instr}
    (h : CodeAt ex e p (c ++ d)) : CodeAt ex e p c := by
  intro i x hx
  have hlt : i < c.length := by
    rcases Nat.lt_or_ge i c.length with h' | h'
    · exact h'
    · rw [List.getElem?_eq_none h'] at hx; simp at hx
  exact h i x (by rw [List.getElem?_append_left hlt]; exact hx)

theorem CodeAt.right {ex : List (List Instr)} {e p : Nat} {c d : List Instr}
    (h : CodeAt ex e p (c ++ d)) : CodeAt ex e (p + c.length) d := by
  intro i x hx
  rw [Nat.add_assoc]
  exact h (c.length + i) x (by rw [List.getElem?_append_right (by omega)]; simpa using hx)

theorem CodeAt.head {ex : List (List Instr)} {e p : Nat} {x : Instr} {c : List Instr}
    (h : CodeAt ex e p (x :: c)) : fetch ex e p = some x := h 0 x rfl

theorem CodeAt.tail {ex : List (List Instr)} {e p : Nat} {x : Instr} {c : List Instr}
    (h : CodeAt ex e p (x :: c)) : CodeAt ex e (p + 1) c := by
  intro i y hy
  rw [Nat.add_assoc, Nat.add_comm 1 i]
  exact h (i + 1) y hy

/-! ## Lengths -/

mutual
@[simp] theorem Expr.length_code : (e : Expr) → (p : Nat) → (e.code p).length = e.len
  | .none, _ | .tru, _ | .fls, _ | .int _, _ | .float _, _ | .str _, _ | .ident _, _ => by
    simp [Expr.code, Expr.len]
  | .un op a, p => by simp [Expr.code, Expr.len, a.length_code]
  | .bin op a b, p => by simp [Expr.code, Expr.len, a.length_code, b.length_code]; omega
  | .and a b, p => by simp [Expr.code, Expr.len, a.length_code, b.length_code]; omega
  | .or a b, p => by simp [Expr.code, Expr.len, a.length_code, b.length_code]; omega
  | .assign t e, p => by simp [Expr.code, Expr.len, e.length_code, t.length_code]
  | .massign t ts c, p => by
    simp [Expr.code, Expr.len, t.length_code, ts.length_code, c.length_code]; omega
  | .list items, p => by simp [Expr.code, Expr.len, items.length_codeItems]; omega
  | .map items, p => by simp [Expr.code, Expr.len, items.length_code]; omega
  | .call c, p => by simp [Expr.code, Expr.len, c.length_code]
  | .select s i, p => by simp [Expr.code, Expr.len, s.length_code, i.length_code]; omega
  | .func n f, p => by simp [Expr.code, Expr.len, f.length_code]; omega
@[simp] theorem Target.length_code : (t : Target) → (p : Nat) → (t.code p).length = t.len
  | .var n, p => by simp [Target.code, Target.len]
  | .sel s i, p => by simp [Target.code, Target.len, s.length_code, i.length_code]; omega
@[simp] theorem Targets.length_code : (t : Targets) → (p : Nat) → (t.code p).length = t.len
  | .one t, p => by simp [Targets.code, Targets.len, t.length_code]
  | .cons t ts, p => by simp [Targets.code, Targets.len, t.length_code, ts.length_code]; omega
@[simp] theorem Call.length_code : (c : Call) → (k p : Nat) → (c.code k p).length = c.len
  | .fn f args, k, p => by simp [Call.code, Call.len, f.length_code, args.length_code]; omega
  | .method s i args, k, p => by
    simp [Call.code, Call.len, s.length_code, i.length_code, args.length_code]; omega
@[simp] theorem Exprs.length_code : (e : Exprs) → (p : Nat) → (e.code p).length = e.len
  | .nil, p => by simp [Exprs.code, Exprs.len]
  | .cons e es, p => by simp [Exprs.code, Exprs.len, e.length_code, es.length_code]
@[simp] theorem Exprs.length_codeItems : (e : Exprs) → (i p : Nat) →
    (e.codeItems i p).length = e.lenItems
  | .nil, _, p => by simp [Exprs.codeItems, Exprs.lenItems]
  | .cons e es, i, p => by
    simp [Exprs.codeItems, Exprs.lenItems, e.length_code, es.length_codeItems]; omega
@[simp] theorem Pairs.length_code : (e : Pairs) → (p : Nat) → (e.code p).length = e.len
  | .nil, p => by simp [Pairs.code, Pairs.len]
  | .cons k v ps, p => by
    simp [Pairs.code, Pairs.len, k.length_code, v.length_code, ps.length_code]; omega
@[simp] theorem FunDef.length_code : (f : FunDef) → (p : Nat) → (f.code p).length = f.len
  | .mk ps b, p => by simp [FunDef.code, FunDef.len, ps.length_code, b.length_code]; omega
@[simp] theorem Params.length_code : (f : Params) → (p : Nat) → (f.code p).length = f.len
  | .nil, p => by simp [Params.code, Params.len]
  | .cons n d t ps, p => by
    simp [Params.code, Params.len, d.length_codeDflt, t.length_codeTyp, ps.length_code]; omega
@[simp] theorem OExpr.length_codeDflt : (d : OExpr) → (p : Nat) →
    (d.codeDflt p).length = d.lenDflt
  | .no, p => by simp [OExpr.codeDflt, OExpr.lenDflt]
  | .yes e, p => by simp [OExpr.codeDflt, OExpr.lenDflt, e.length_code]; omega
@[simp] theorem OExpr.length_codeTyp : (d : OExpr) → (i : Nat) → (n : Name) → (p : Nat) →
    (d.codeTyp i n p).length = d.lenTyp
  | .no, _, _, p => by simp [OExpr.codeTyp, OExpr.lenTyp]
  | .yes e, _, _, p => by simp [OExpr.codeTyp, OExpr.lenTyp, e.length_code]
@[simp] theorem Stmt.length_code : (s : Stmt) → (b : Option Nat) → (p : Nat) →
    (s.code b p).length = s.len
  | .expr e, _, p => by simp [Stmt.code, Stmt.len, e.length_code]
  | .ifElse c t f, b, p => by
    simp [Stmt.code, Stmt.len, c.length_code, t.length_code, f.length_code]; omega
  | .ifOnly c t, b, p => by
    simp [Stmt.code, Stmt.len, c.length_code, t.length_code]; omega
  | .while c s, _, p => by simp [Stmt.code, Stmt.len, c.length_code, s.length_code]; omega
  | .doWhile s c, _, p => by simp [Stmt.code, Stmt.len, c.length_code, s.length_code]; omega
  | .comp ss, b, p => by simp [Stmt.code, Stmt.len, ss.length_code]
  | .ret es, _, p => by simp [Stmt.code, Stmt.len, es.length_code]
  | .func n f, _, p => by simp [Stmt.code, Stmt.len, f.length_code]; omega
  | .brk, _, _ => by simp [Stmt.code, Stmt.len]
@[simp] theorem Stmts.length_code : (s : Stmts) → (b : Option Nat) → (p : Nat) →
    (s.code b p).length = s.len
  | .nil, _, p => by simp [Stmts.code, Stmts.len]
  | .cons s ss, b, p => by simp [Stmts.code, Stmts.len, s.length_code, ss.length_code]
end

end Noja.VM
