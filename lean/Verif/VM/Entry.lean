import Verif.VM.Lang

/-!
# C45, C46: parameters and multiple assignment

The tree keeps parameters and arguments in reverse (parse.c:1553, parse.c:2055), so the last
parameter is bound first.
-/

set_option linter.unusedVariables false
set_option linter.unusedSimpArgs false

namespace Noja.VM

variable {W : Type} {L : Layer W} {cap : Nat}

theorem bind_ok {α β : Type} {x : M W α} {f : α → M W β} {s s' : SSt W} {b : β} :
    (x >>= f) s = .ok s' b ↔ ∃ s1 a, x s = .ok s1 a ∧ f a s1 = .ok s' b := by
  show M.bind x f s = _ ↔ _
  unfold M.bind
  cases h : x s with
  | ok s1 a =>
    constructor
    · intro hf; exact ⟨s1, a, rfl, hf⟩
    · rintro ⟨_, _, ⟨⟩, hf⟩; exact hf
  | _ => simp

theorem lift_ok {α : Type} {o : W → Out W α} {s s' : SSt W} {a : α} :
    lift L o s = .ok s' a ↔ o s.w = .ok s'.w a ∧ L.pending s'.w = false ∧ s'.funs = s.funs := by
  unfold lift
  cases h : o s.w with
  | ok w b =>
    dsimp only
    obtain ⟨w', fs'⟩ := s'
    by_cases hp : L.pending w = true
    · rw [if_pos hp]
      constructor
      · intro h; cases h
      · rintro ⟨h1, h2, -⟩
        cases h1
        rw [hp] at h2; cases h2
    · rw [if_neg hp]
      simp only [Bool.not_eq_true] at hp
      constructor
      · intro h; cases h; exact ⟨rfl, hp, rfl⟩
      · rintro ⟨h1, h2, h3⟩
        cases h1
        dsimp only at h3
        rw [h3]
  | err w => simp
  | ub => simp

/-! ## C45 -/

/-- The value of a parameter that received `v` and has the default `d`. -/
inductive Defaulted (c : Ctx W) (v : Ref) : OExpr → SSt W → Ref → SSt W → Prop
  /-- no default -/
  | no {s : SSt W} : Defaulted c v .no s v s
  /-- a value other than none -/
  | keep {s s1 : SSt W} {e : Expr} : c.L.isNone v s.w = .ok s1.w false → c.L.pending s1.w = false → s1.funs = s.funs →
      Defaulted c v (.yes e) s v s1
  /-- none -/
  | default {s s1 s2 : SSt W} {e : Expr} {v' : Ref} : c.L.isNone v s.w = .ok s1.w true → c.L.pending s1.w = false →
      s1.funs = s.funs → e.eval c s1 = .ok s2 v' → Defaulted c v (.yes e) s v' s2

/-- Whether a value satisfies a type annotation. -/
inductive Typed (c : Ctx W) (v : Ref) : OExpr → SSt W → Bool → SSt W → Prop
  | no {s : SSt W} : Typed c v .no s true s
  | yes {s s1 s2 : SSt W} {e : Expr} {t : Ref} {b : Bool} : e.eval c s = .ok s1 t → c.L.isType t v s1.w = .ok s2.w b →
      c.L.pending s2.w = false → s2.funs = s1.funs → Typed c v (.yes e) s b s2

/-- Parameters receiving the values on the left end up with the ones on the right. -/
inductive Bound (c : Ctx W) : Params → List Ref → SSt W → List Ref → SSt W → Prop
  | nil {s : SSt W} : Bound c .nil [] s [] s
  | cons {n : Name} {d t : OExpr} {ps : Params} {v v' : Ref} {vs vs' : List Ref} {s s1 s2 s3 s4 : SSt W} :
      Defaulted c v d s v' s1 → Typed c v' t s1 true s2 →
      c.L.setVar c.locals n v' s2.w = .ok s3.w () → c.L.pending s3.w = false → s3.funs = s2.funs →
      Bound c ps vs s3 vs' s4 → Bound c (.cons n d t ps) (v :: vs) s (v' :: vs') s4

theorem defaulted_iff (c : Ctx W) (v : Ref) (d : OExpr) (s s' : SSt W) (v' : Ref) :
    orElse c.L v (d.eval c) s = .ok s' v' ↔ Defaulted c v d s v' s' := by
  cases d with
  | no =>
    simp only [OExpr.eval, orElse]
    constructor
    · intro h; cases h; exact .no
    · rintro ⟨⟩; rfl
  | yes e =>
    simp only [OExpr.eval, orElse, bind_ok, lift_ok]
    constructor
    · rintro ⟨s1, b, ⟨h1, h2, h3⟩, h⟩
      cases b with
      | true => exact .default h1 h2 h3 (by simpa using h)
      | false => simp only [Bool.false_eq_true, if_false] at h; cases h; exact .keep h1 h2 h3
    · rintro (h | ⟨h1, h2, h3⟩ | ⟨h1, h2, h3, h4⟩)
      · exact ⟨s', false, ⟨h1, h2, h3⟩, rfl⟩
      · exact ⟨_, true, ⟨h1, h2, h3⟩, by simpa using h4⟩

theorem typed_iff (c : Ctx W) (v : Ref) (t : OExpr) (s s' : SSt W) :
    checkArg c.L v (t.eval c) s = .ok s' () ↔ Typed c v t s true s' := by
  cases t with
  | no =>
    simp only [OExpr.eval, checkArg]
    constructor
    · intro h; cases h; exact .no
    · rintro ⟨⟩; rfl
  | yes e =>
    simp only [OExpr.eval, checkArg, bind_ok, lift_ok]
    constructor
    · rintro ⟨s1, tv, h0, s2, b, ⟨h1, h2, h3⟩, h⟩
      cases b with
      | true => simp only [if_true] at h; cases h; exact .yes h0 h1 h2 h3
      | false => simp only [Bool.false_eq_true, if_false] at h; cases h
    · rintro (h | ⟨h1, h2, h3, h4⟩)
      exact ⟨_, _, h1, s', true, ⟨h2, h3, h4⟩, rfl⟩

theorem bound_iff (c : Ctx W) : ∀ (ps : Params) (vs : List Ref) (s s' : SSt W),
    ps.bind c vs s = .ok s' () ↔ ∃ vs', Bound c ps vs s vs' s'
  | .nil, [], s, s' => by
    simp only [Params.bind]
    constructor
    · intro h; cases h; exact ⟨[], .nil⟩
    · rintro ⟨_, ⟨⟩⟩; rfl
  | .nil, _ :: _, s, s' => by
    simp only [Params.bind]
    constructor
    · intro h; cases h
    · rintro ⟨_, ⟨⟩⟩
  | .cons _ _ _ _, [], s, s' => by
    simp only [Params.bind]
    constructor
    · intro h; cases h
    · rintro ⟨_, ⟨⟩⟩
  | .cons n d t ps, v :: vs, s, s' => by
    simp only [Params.bind, bind_ok, lift_ok, defaulted_iff]
    constructor
    · rintro ⟨s1, v', hd, s2, _, ht, s3, _, ⟨h1, h2, h3⟩, h⟩
      obtain ⟨vs', hb⟩ := (bound_iff c ps vs s3 s').1 h
      exact ⟨v' :: vs', .cons hd ((typed_iff c v' t s1 s2).1 ht) h1 h2 h3 hb⟩
    · rintro ⟨_, hb⟩
      cases hb with
      | cons hd ht h1 h2 h3 hb =>
        exact ⟨_, _, hd, _, (), (typed_iff c _ t _ _).2 ht, _, (), ⟨h1, h2, h3⟩, (bound_iff c ps vs _ s').2 ⟨_, hb⟩⟩

/-- C45: a function entered with the arguments `args`, one for each parameter, binds its parameters,
the last one first, to the arguments or their defaults, and when its body starts none of its values
are left on the stack; unless a limit is reached. -/
theorem C45_entry (hL : L.Lawful) (n : Nat) (ps : Params) (b : Stmt) (hw : (FunDef.mk ps b).wf = true)
    (exes : List (List Instr)) (s s' : SSt W) (st args vs : List Ref) (f : NFrame) (fs : List Frame) (t : St W)
    (hlen : args.length = ps.count) (ht : At L exes s (args.reverse ++ st) { f with used := args.length } fs t)
    (hcode : CodeAt exes f.exe f.idx ((FunDef.mk ps b).code f.idx))
    (hb : Bound ⟨L, n, callN L n, f.locals, f.closure⟩ ps args.reverse s vs s') :
    Lim L cap t ∨ ∃ k u, runN L cap k t = .run u ∧ At L exes s' st { f with idx := f.idx + ps.len, used := 0 } fs u ∧
      CodeAt exes f.exe (f.idx + ps.len) (b.code none (f.idx + ps.len)) := by
  simp only [FunDef.code] at hcode
  simp only [FunDef.wf, Bool.and_eq_true] at hw
  have := ps.sim hL (callSim (cap := cap) hL n) hw.1 exes s args.reverse st f fs t 0 (by simpa using hlen)
    (ht.cast rfl (by simp)) hcode.left.left
  rw [(bound_iff _ ps _ s s').2 ⟨vs, hb⟩] at this
  rcases this with h | ⟨k, u, h1, h2⟩
  · exact .inl h
  · exact .inr ⟨k, u, h1, h2, hcode.left.right' (by simp)⟩

/-- The `checkType` instruction of a parameter names the parameter and its position among all
parameters of the program text (`ps.count` parameters come before it). -/
theorem C45_names (exes : List (List Instr)) (e p : Nat) (n : Name) (d : OExpr) (ty : Expr) (ps : Params)
    (h : CodeAt exes e p (Params.code (.cons n d (.yes ty) ps) p)) :
    fetch exes e (p + d.lenDflt + ty.len) = some (.checkType ps.count n) := by
  simp only [Params.code] at h
  have h0 := h.left.left.right' (q := p + d.lenDflt) (by simp)
  simp only [OExpr.codeTyp] at h0
  exact (h0.right' (by simp)).head

/-- A value that does not satisfy the annotation makes the call fail at that instruction; one that
does stays where it is. -/
theorem C45_check (f : NFrame) (fs : List Frame) (fnm : Ref → Option Func) (ex : List (List Instr))
    (st : List Ref) (ty v : Ref) (w w' : W) (i u k : Nat) (nm : Name) (b : Bool)
    (hf : fetch ex f.exe i = some (.checkType k nm)) (ht : L.isType ty v w = .ok w' b) :
    step L cap (stAt w fnm ex f fs i (u + 2) (ty :: v :: st)) =
      if b then .run (stAt w' fnm ex f fs (i + 1) (u + 1) (v :: st))
      else .err (stAt w' fnm ex f fs (i + 1) (u + 1) (v :: st)) := by
  rw [step_at hf]
  cases b <;> simp [execI, St.pop, St.peek, stAt, St.prim, ht]

/-- C45, failure: if the parameters `ps` before the parameter `n` got their values and the
(possibly defaulted) value of `n` does not satisfy its annotation, the call fails. -/
theorem C45_refused (hL : L.Lawful) (n : Nat) (nm : Name) (d ty : OExpr) (ps : Params) (hw : (Params.cons nm d ty ps).wf = true)
    (exes : List (List Instr)) (s s1 s2 : SSt W) (st args : List Ref) (v v' : Ref) (f : NFrame) (fs : List Frame) (t : St W)
    (hlen : args.length = ps.count) (ht : At L exes s (v :: args ++ st) { f with used := args.length + 1 } fs t)
    (hcode : CodeAt exes f.exe f.idx ((Params.cons nm d ty ps).code f.idx))
    (hd : Defaulted ⟨L, n, callN L n, f.locals, f.closure⟩ v d s v' s1)
    (hy : Typed ⟨L, n, callN L n, f.locals, f.closure⟩ v' ty s1 false s2) :
    Lim L cap t ∨ ∃ k u, runN L cap k t = .err u ∧ u.w = s2.w := by
  have key := (Params.cons nm d ty ps).sim hL (callSim (cap := cap) hL n) hw exes s (v :: args) st f fs t 0
    (by simpa [Params.count] using hlen) (ht.cast rfl (by simp)) hcode
  have he : (Params.cons nm d ty ps).bind ⟨L, n, callN L n, f.locals, f.closure⟩ (v :: args) s = .err s2.w := by
    simp only [Params.bind]
    show M.bind _ _ s = _
    unfold M.bind
    have := (defaulted_iff ⟨L, n, callN L n, f.locals, f.closure⟩ v d s s1 v').2 hd
    dsimp only at this ⊢
    rw [this]
    dsimp only
    show M.bind _ _ s1 = _
    unfold M.bind
    cases hy with
    | yes h1 h2 h3 h4 =>
      rename_i s3 e tv
      have hx : checkArg L v' ((OExpr.yes e).eval ⟨L, n, callN L n, f.locals, f.closure⟩) s1 = .err s2.w := by
        simp only [OExpr.eval, checkArg]
        show M.bind _ _ s1 = _
        unfold M.bind
        rw [h1]
        dsimp only
        show M.bind _ _ s3 = _
        unfold M.bind
        have := (lift_ok (L := L) (o := L.isType tv v') (s := s3) (s' := s2) (a := false)).2 ⟨h2, h3, h4⟩
        rw [this]
        rfl
      rw [hx]
  rw [he] at key
  exact key

/-! ## C46 -/

/-- Storing one value. -/
inductive Put (c : Ctx W) (v : Ref) : Target → SSt W → SSt W → Prop
  | var {s s1 : SSt W} {n : Name} : c.L.setVar c.locals n v s.w = .ok s1.w () → c.L.pending s1.w = false →
      s1.funs = s.funs → Put c v (.var n) s s1
  | sel {s s1 s2 s3 : SSt W} {a b : Expr} {x y : Ref} : a.eval c s = .ok s1 x → b.eval c s1 = .ok s2 y →
      c.L.insert x y v s2.w = .ok s3.w () → c.L.pending s3.w = false → s3.funs = s2.funs → Put c v (.sel a b) s s3

/-- Storing values, the last one first. -/
inductive PutAll (c : Ctx W) : List (Target × Ref) → SSt W → SSt W → Prop
  | nil {s : SSt W} : PutAll c [] s s
  | cons {t : Target} {v : Ref} {l : List (Target × Ref)} {s s1 s2 : SSt W} : PutAll c l s s1 → Put c v t s1 s2 →
      PutAll c ((t, v) :: l) s s2

def Targets.toList : Targets → List Target
  | .one t => [t]
  | .cons t ts => t :: ts.toList

theorem toList_length : ∀ ts : Targets, ts.toList.length = ts.count
  | .one t => rfl
  | .cons t ts => by simp [Targets.toList, Targets.count, toList_length ts]

theorem put_iff (c : Ctx W) (v : Ref) (t : Target) (s s' : SSt W) : t.store c v s = .ok s' () ↔ Put c v t s s' := by
  cases t with
  | var n =>
    simp only [Target.store, lift_ok]
    constructor
    · rintro ⟨h1, h2, h3⟩; exact .var h1 h2 h3
    · rintro ⟨h1, h2, h3⟩; exact ⟨h1, h2, h3⟩
  | sel a b =>
    simp only [Target.store, bind_ok, lift_ok]
    constructor
    · rintro ⟨s1, x, h1, s2, y, h2, h3, h4, h5⟩; exact .sel h1 h2 h3 h4 h5
    · intro h
      cases h with
      | sel h1 h2 h3 h4 h5 => exact ⟨_, _, h1, _, _, h2, h3, h4, h5⟩

theorem putAll_iff (c : Ctx W) : ∀ (ts : Targets) (vs : List Ref) (s s' : SSt W), vs.length = ts.count →
    (ts.store c vs s = .ok s' () ↔ PutAll c (ts.toList.zip vs) s s')
  | .one t, [v], s, s', _ => by
    simp only [Targets.store, Targets.toList, put_iff]
    constructor
    · intro h; exact .cons .nil h
    · intro h
      cases h with
      | cons h0 h => cases h0; exact h
  | .cons t ts, v :: vs, s, s', hl => by
    have hl' : vs.length = ts.count := by simpa [Targets.count] using hl
    simp only [Targets.store, bind_ok, put_iff, Targets.toList, List.zip_cons_cons]
    constructor
    · rintro ⟨s1, _, h1, h2⟩
      exact .cons ((putAll_iff c ts vs s s1 hl').1 h1) h2
    · intro h
      cases h with
      | cons h1 h2 => exact ⟨_, (), (putAll_iff c ts vs s _ hl').2 h1, h2⟩

theorem results_length {k : Nat} {vs rs : List Ref} {s s' : SSt W} (h : results L k vs s = .ok s' rs) :
    rs.length = k ∧ ∀ i, i < k → rs[i]? = some (vs[i]?.getD L.none) := by
  unfold results at h
  by_cases hm : 8 < min vs.length k
  · rw [if_pos hm] at h; cases h
  · rw [if_neg hm] at h
    cases h
    exact ⟨by simp; omega, fun i hi => fit_get L k vs i hi⟩

theorem callN_length : ∀ (n : Nat) {f : Ref} {args rs : List Ref} {k : Nat} {s s' : SSt W},
    callN L n f args k s = .ok s' rs → rs.length = k
  | 0, f, args, rs, k, s, s', h => by simp only [callN] at h; cases h
  | n + 1, f, args, rs, k, s, s', h => by
    simp only [callN, bind_ok] at h
    obtain ⟨s1, c, -, h⟩ := h
    cases c with
    | no => cases h
    | noja clo =>
      simp only [bind_ok] at h
      obtain ⟨s2, fd, -, h⟩ := h
      cases fd with
      | none => cases h
      | some fd =>
        simp only [bind_ok] at h
        obtain ⟨s3, sc, -, s4, vs, -, h⟩ := h
        exact (results_length h).1
    | native id argc =>
      simp only [bind_ok] at h
      obtain ⟨s2, r, -, h⟩ := h
      cases r with
      | done vs => exact (results_length h).1
      | load p =>
        dsimp only at h
        by_cases hp : p.wf false = true
        · rw [if_pos hp] at h
          simp only [bind_ok] at h
          obtain ⟨s3, sc, -, s4, vs, -, h⟩ := h
          exact (results_length h).1
        · rw [if_neg hp] at h; cases h

theorem call_length {n : Nat} {locals : Ref} {clo : Option Ref} (k : Call) {m : Nat} {rs : List Ref} {s s' : SSt W}
    (h : k.eval ⟨L, n, callN L n, locals, clo⟩ m s = .ok s' rs) : rs.length = m := by
  cases k with
  | fn g args =>
    simp only [Call.eval, bind_ok] at h
    obtain ⟨s1, vs, -, s2, g, -, h⟩ := h
    exact callN_length n h
  | method a i args =>
    simp only [Call.eval, bind_ok] at h
    obtain ⟨s1, vs, -, s2, x, -, s3, y, -, s4, g, -, h⟩ := h
    exact callN_length n h

/-- C46: if the call gives the values `v :: vs`, as many as there are targets, each target is given
its value, the last one first, and the assignment leaves the value of the first target; unless a
limit is reached.  By `C34_results_partial` the values are those returned, missing ones being none. -/
theorem C46_assign (hL : L.Lawful) (n : Nat) (t : Target) (ts : Targets) (k : Call) (hw : (Expr.massign t ts k).wf = true)
    (exes : List (List Instr)) (s s1 s2 : SSt W) (st vs : List Ref) (f : NFrame) (fs : List Frame) (u : St W)
    (hu : At L exes s st f fs u) (hcode : CodeAt exes f.exe f.idx ((Expr.massign t ts k).code f.idx))
    (hk : k.eval ⟨L, n, callN L n, f.locals, f.closure⟩ (ts.count + 1) s = .ok s1 vs)
    (hp : PutAll ⟨L, n, callN L n, f.locals, f.closure⟩ ((t :: ts.toList).zip vs) s1 s2) :
    ∃ v rest, vs = v :: rest ∧ rest.length = ts.count ∧
    (Lim L cap u ∨ ∃ m u', runN L cap m u = .run u' ∧
      At L exes s2 (v :: st) { f with idx := f.idx + (Expr.massign t ts k).len, used := f.used + 1 } fs u') := by
  have hl := call_length k hk
  match vs, hl with
  | v :: vs, hl =>
    have hl' : vs.length = ts.count := by simpa using hl
    refine ⟨v, vs, rfl, hl', ?_⟩
    have key := (Expr.massign t ts k).sim hL (callSim (cap := cap) hL n) hw exes s st f fs u hu hcode
    have he : (Expr.massign t ts k).eval ⟨L, n, callN L n, f.locals, f.closure⟩ s = .ok s2 v := by
      simp only [Expr.eval]
      rw [bind_ok]
      refine ⟨s1, v :: vs, hk, ?_⟩
      simp only [List.zip_cons_cons] at hp
      cases hp with
      | cons h1 h2 =>
        rw [bind_ok]
        refine ⟨_, (), (putAll_iff _ ts vs s1 _ hl').2 h1, ?_⟩
        rw [bind_ok]
        exact ⟨s2, (), (put_iff _ v t _ _).2 h2, rfl⟩
    rw [he] at key
    exact key

/-- An assignment that is evaluated to a value has done this. -/
theorem C46_only (n : Nat) (t : Target) (ts : Targets) (k : Call) (s s2 : SSt W) (locals : Ref) (clo : Option Ref) (v : Ref)
    (h : (Expr.massign t ts k).eval ⟨L, n, callN L n, locals, clo⟩ s = .ok s2 v) :
    ∃ s1 vs, k.eval ⟨L, n, callN L n, locals, clo⟩ (ts.count + 1) s = .ok s1 (v :: vs) ∧
      PutAll ⟨L, n, callN L n, locals, clo⟩ ((t :: ts.toList).zip (v :: vs)) s1 s2 := by
  simp only [Expr.eval] at h
  rw [bind_ok] at h
  obtain ⟨s1, vs, hk, h⟩ := h
  have hl := call_length k hk
  match vs, hl with
  | x :: vs, hl =>
    have hl' : vs.length = ts.count := by simpa using hl
    rw [bind_ok] at h
    obtain ⟨s3, _, h1, h⟩ := h
    rw [bind_ok] at h
    obtain ⟨s4, _, h2, h⟩ := h
    cases h
    exact ⟨s1, vs, hk, .cons ((putAll_iff _ ts vs s1 s3 hl').1 h1) ((put_iff _ v t s3 s2).1 h2)⟩

/-! ### What cannot be assigned to -/

/-- Expressions that can stand on the left of `=`. -/
inductive Assignable : RExpr → Prop
  | ident {n : Name} {p : Pos} : Assignable (.ident n p)
  | select {s i : RExpr} {p : Pos} : Assignable (.select s i p)
  | pair {a b : RExpr} {p : Pos} : Assignable a → Assignable b → Assignable (.pair a b p)

theorem assignable_of : ∀ (e : RExpr) (ts : Targets), e.elabTargets = some ts → Assignable e
  | .pair a b p, ts, h => by
    simp only [RExpr.elabTargets, bind, Option.bind_eq_some_iff] at h
    obtain ⟨as, ha, bs, hb, -⟩ := h
    exact .pair (assignable_of a as ha) (assignable_of b bs hb)
  | .ident _ _, _, _ => .ident
  | .select _ _ _, _, _ => .select
  | .none _, _, h | .tru _, _, h | .fls _, _, h | .int _ _, _, h | .float _ _, _, h | .str _ _, _, h | .un _ _ _, _, h
  | .bin _ _ _ _, _, h | .and _ _ _, _, h | .or _ _ _, _, h | .ass _ _ _, _, h | .arw _ _ _, _, h | .list _ _, _, h
  | .map _ _, _, h | .call _ _, _, h | .func _ _, _, h => by simp only [RExpr.elabTargets] at h; cases h

mutual
/-- Somewhere among its statements there is an assignment to something that cannot be assigned to. -/
inductive BadAssign : RStmt → Prop
  | here {l r : RExpr} {p : Pos} : ¬ Assignable l → BadAssign (.expr (.ass l r p))
  | thenElse {c : RExpr} {t f : RStmt} {p : Pos} : BadAssign t → BadAssign (.ifElse c t f p)
  | orElse {c : RExpr} {t f : RStmt} {p : Pos} : BadAssign f → BadAssign (.ifElse c t f p)
  | thenOnly {c : RExpr} {t : RStmt} {p : Pos} : BadAssign t → BadAssign (.ifOnly c t p)
  | while {c : RExpr} {b : RStmt} {p : Pos} : BadAssign b → BadAssign (.while c b p)
  | doWhile {c : RExpr} {b : RStmt} {p : Pos} : BadAssign b → BadAssign (.doWhile b c p)
  | comp {ss : RStmts} {p : Pos} : BadAssigns ss → BadAssign (.comp ss p)
  | func {n : Name} {ps : RParams} {b : RStmt} {p q : Pos} : BadAssign b → BadAssign (.func n (.mk ps b) p q)
inductive BadAssigns : RStmts → Prop
  | here {s : RStmt} {ss : RStmts} : BadAssign s → BadAssigns (.cons s ss)
  | there {s : RStmt} {ss : RStmts} : BadAssigns ss → BadAssigns (.cons s ss)
end

mutual
theorem bad_elab : ∀ (s : RStmt) (l : Bool), BadAssign s → s.elab l = none
  | .expr (.ass l r p), _, .here h => by
    have : l.elabTargets = none := by
      cases hl : l.elabTargets with
      | none => rfl
      | some ts => exact absurd (assignable_of l ts hl) h
    simp only [RStmt.elab, RExpr.elabT, bind, this, Option.bind_none]
  | .ifElse c t f _, l, h => by
    simp only [RStmt.elab, bind]
    cases h with
    | thenElse h => rw [bad_elab t l h]; simp
    | orElse h => rw [bad_elab f l h]; simp
  | .ifOnly c t _, l, .thenOnly h => by
    simp only [RStmt.elab, bind]
    rw [bad_elab t l h]
    simp
  | .while c b _, l, .while h => by
    simp only [RStmt.elab, bind]
    rw [bad_elab b true h]
    simp
  | .doWhile b c _, l, .doWhile h => by
    simp only [RStmt.elab, bind]
    rw [bad_elab b true h]
    simp
  | .comp ss _, l, .comp h => by
    simp only [RStmt.elab, bind]
    rw [bads_elab ss l h]
    simp
  | .func n (.mk ps b) _ _, l, .func h => by
    simp only [RStmt.elab, RFun.elab, bind]
    rw [bad_elab b false h]
    simp
theorem bads_elab : ∀ (ss : RStmts) (l : Bool), BadAssigns ss → ss.elab l = none
  | .cons s ss, l, h => by
    simp only [RStmts.elab, bind]
    cases h with
    | here h => rw [bad_elab s l h]; rfl
    | there h => rw [bads_elab ss l h]; simp
end

/-- C46, last part: such programs are refused. -/
def C46Statement : Prop := ∀ root size, BadAssigns root → codegen root size = .err

/-- They get no executable, but they are not refused either: reporting the error writes through a
pointer that nothing has set. -/
theorem C46_bad (root : RStmts) (size : Int) (h : BadAssigns root) : codegen root size = .ub :=
  codegen_rejects root size (bads_elab root false h)

/-- C46 is violated by every such program, for instance `1 = 2;`. -/
theorem C46_violated : ¬ C46Statement := by
  intro h
  have hl : BadAssigns (.cons (.expr (.ass (.int 1 ⟨0, 1⟩) (.int 2 ⟨4, 1⟩) ⟨0, 5⟩)) .nil) := .here (.here (by rintro ⟨⟩))
  have h1 := h _ 6 hl
  rw [C46_bad _ 6 hl] at h1
  cases h1

/-! ### Cases that meet the hypotheses -/

namespace Toy

/-- Values are numbers, 0 being none and 1 true; every value can be called and returns 5; every type
accepts what is below it. -/
def toy : Layer (List (Name × Ref)) where
  none := 0
  tru := 1
  fls := 2
  noneType := 0
  pending _ := false
  int v w := .ok w v.toNat
  float _ w := .ok w 3
  str _ w := .ok w 4
  un _ x w := .ok w x
  bin op x y w := if op = .eql then .ok w (if x = y then 1 else 2) else .ok w (x + y)
  asBool x w := .ok w (x == 1)
  typeOf x w := .ok w x
  isNone x w := .ok w (x == 0)
  isType t x w := .ok w (decide (x < t))
  newList _ w := .ok w 6
  newMap _ w := .ok w 7
  select x y w := .ok w (x + y)
  insert _ _ v w := .ok (([], v) :: w) ()
  newScope w := .ok w 8
  setVar _ n v w := .ok ((n, v) :: w) ()
  getVar _ _ n w := .ok w n.length
  newFunc _ _ w := .ok w 9
  callee _ w := .ok w (.native 0 .none)
  native _ _ w := .ok w (.done [5])

theorem lawful : toy.Lawful := by
  intro v w
  show (Out.ok w (((if v = 0 then 1 else 2 : Nat)) == 1) : Out (List (Name × Ref)) Bool) = .ok w (v == 0)
  by_cases h : v = 0 <;> simp [h]

def s (w : List (Name × Ref)) : SSt (List (Name × Ref)) := ⟨w, fun _ => none⟩

/-- the parameters of `fun f(a: 8, b = 7)`, the last one first -/
def params : Params := .cons [98] (.yes (.int 7)) .no (.cons [97] .no (.yes (.int 8)) .nil)

def def' : FunDef := .mk params (.expr .none)

def frame : NFrame := ⟨0, 0, 8, some 9, 0, 1⟩

def c : Ctx (List (Name × Ref)) := ⟨toy, 3, callN toy 3, frame.locals, frame.closure⟩

/-- `C45_entry` for the call `f(6)`: `b` takes its default, `a` passes its check. -/
example : def'.wf = true ∧ ([6, 0] : List Ref).length = params.count ∧
    At toy [def'.code 0] (s []) ([0, 6] ++ [77]) { frame with used := 2 } [] ⟨[], fun _ => none, [def'.code 0], [0, 6, 77], [.normal { frame with used := 2 }]⟩ ∧
    CodeAt [def'.code 0] frame.exe frame.idx (def'.code frame.idx) ∧
    Bound c params [0, 6] (s []) [7, 6] (s [([97], 6), ([98], 7)]) :=
  ⟨by decide, rfl, ⟨_, _, rfl, ⟨[], rfl⟩, fun _ => trivial, rfl⟩, fun i hi => by simp [fetch, frame],
    .cons (s3 := s [([98], 7)]) (.default (s1 := s []) rfl rfl rfl rfl) .no rfl rfl rfl
      (.cons (s2 := s [([98], 7)]) (s3 := s [([97], 6), ([98], 7)]) .no (.yes (s1 := s [([98], 7)]) rfl rfl rfl rfl) rfl rfl rfl .nil)⟩

/-- `C45_refused` for the second parameter and the argument 9. -/
example : (Params.cons [97] .no (.yes (.int 8)) .nil).wf = true ∧ Defaulted c 9 .no (s []) 9 (s []) ∧
    Typed c 9 (.yes (.int 8)) (s []) false (s []) ∧
    fetch [Params.code (.cons [97] .no (.yes (.int 8)) .nil) 0] 0 1 = some (.checkType 0 [97]) :=
  ⟨by decide, .no, .yes (s1 := s []) rfl rfl rfl rfl, rfl⟩

/-- `C46_assign` for `x, xs[1] = f(2)`, of which the call returns one value. -/
example : (Expr.massign (.var [120]) (.one (.sel (.ident [120, 115]) (.int 1))) (.fn (.ident [102]) (.cons (.int 2) .nil))).wf = true ∧
    (Call.fn (.ident [102]) (.cons (.int 2) .nil)).eval c 2 (s []) = .ok (s []) [5, 0] ∧
    PutAll c [(.var [120], 5), (.sel (.ident [120, 115]) (.int 1), 0)] (s []) (s [([120], 5), ([], 0)]) :=
  ⟨by decide, rfl, .cons (s1 := s [([], 0)]) (.cons .nil (.sel (s1 := s []) (s2 := s []) rfl rfl rfl rfl rfl)) (.var rfl rfl rfl)⟩

end Toy

end Noja.VM
