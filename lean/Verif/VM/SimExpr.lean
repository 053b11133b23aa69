import Verif.VM.SimBase

/-! # Simulation of expressions and statements -/

namespace Noja.VM

set_option linter.unusedSimpArgs false

variable {W : Type} {L : Layer W} {cap : Nat} {α : Type} {n : Nat}

/-! ## Related states -/

/-- The code of a function object is the code of the function it stands for. -/
def FunRel (ex : List (List Instr)) (fn : Func) (fd : FunDef) : Prop :=
  fn.argc = fd.params.count ∧ CodeAt ex fn.exe fn.addr (fd.code fn.addr) ∧ fd.wf = true

def Rel (ex : List (List Instr)) (fn : Ref → Option Func) (fd : Ref → Option FunDef) : Prop :=
  ∀ r,
    match fn r, fd r with
    | none, none => True
    | some a, some b => FunRel ex a b
    | _, _ => False

theorem FunRel.append {ex l : List (List Instr)} {fn : Func} {fd : FunDef} (h : FunRel ex fn fd) :
    FunRel (ex ++ l) fn fd := ⟨h.1, h.2.1.append, h.2.2⟩

theorem Rel.append {ex l : List (List Instr)} {fn : Ref → Option Func} {fd : Ref → Option FunDef}
    (h : Rel ex fn fd) : Rel (ex ++ l) fn fd := by
  intro r
  have := h r
  revert this
  cases fn r <;> cases fd r <;> simp
  exact FunRel.append

theorem Rel.add {ex : List (List Instr)} {fn : Ref → Option Func} {fd : Ref → Option FunDef}
    (h : Rel ex fn fd) (r : Ref) {a : Func} {b : FunDef} (hab : FunRel ex a b) :
    Rel ex (fun x => if x = r then some a else fn x) (fun x => if x = r then some b else fd x) := by
  intro x
  by_cases hx : x = r
  · simpa [hx] using hab
  · simpa [hx] using h x

/-- The machine state `t` is at the given place and agrees with the source state `s`. -/
def At (L : Layer W) (exes : List (List Instr)) (s : SSt W) (st : List Ref) (f : NFrame)
    (fs : List Frame) (t : St W) : Prop :=
  ∃ fn ex, t = ⟨s.w, fn, ex, st, .normal f :: fs⟩ ∧ (∃ l, ex = exes ++ l) ∧ Rel ex fn s.funs ∧
    L.pending s.w = false

theorem At.cast {exes : List (List Instr)} {s : SSt W} {st st' : List Ref} {f f' : NFrame}
    {fs : List Frame} {t : St W} (h : At L exes s st f fs t) (h1 : st = st') (h2 : f = f') :
    At L exes s st' f' fs t := by
  subst h1 h2; exact h

/-- Carrying out one instruction. -/
theorem Sim.instr {exes : List (List Instr)} {s : SSt W} {st : List Ref} {f : NFrame}
    {fs : List Frame} {t : St W} {i : Instr} {r : Res W α} {post : SSt W → α → St W → Prop}
    (hu : At L exes s st f fs t) (hf : fetch exes f.exe f.idx = some i)
    (h : ∀ fn ex, (∃ l, ex = exes ++ l) → Rel ex fn s.funs → L.pending s.w = false →
      SimX L cap n r (execI L cap i ⟨s.w, fn, ex, st, .normal { f with idx := f.idx + 1 } :: fs⟩)
        post) :
    Sim L cap n r t post := by
  obtain ⟨fn, ex, rfl, ⟨l, rfl⟩, h2, h3⟩ := hu
  apply Sim.step
  unfold VM.step
  simp only [fetch_append hf]
  exact h fn _ ⟨l, rfl⟩ h2 h3

theorem SimX.off {x : Status W} {post : SSt W → α → St W → Prop} :
    SimX L cap n .off x post := by
  cases x with
  | run t => exact .inr trivial
  | _ => trivial

theorem lt22 (u : Nat) : (u + 1 + 1 < 2) = False := by simp
theorem lt33 (u : Nat) : (u + 1 + 1 + 1 < 3) = False := by simp
theorem lt32 (u : Nat) : (u + 1 + 1 + 1 < 2) = False := by simp
theorem sub22 (u : Nat) : u + 1 + 1 - 2 = u := by omega
theorem sub32 (u : Nat) : u + 1 + 1 + 1 - 2 = u + 1 := by omega

/-- What is known about calls. -/
def CallSim (L : Layer W) (cap n : Nat) (call : Ref → List Ref → Nat → M W (List Ref)) : Prop :=
  ∀ exes s st f fs t g argv k, At L exes s st f fs t →
    SimX L cap n (call g argv k s) (callObj L cap g argv k t) fun s' vs u =>
      vs.length = k ∧ At L exes s' (vs.reverse ++ st) { f with used := f.used + k } fs u

syntax "frame" : tactic
macro_rules
  | `(tactic| frame) => `(tactic| (
      simp [Expr.len, Target.len, Targets.len, Call.len, Exprs.len, Exprs.lenItems, Pairs.len,
        Params.len, OExpr.lenDflt, OExpr.lenTyp, Stmt.len, Stmts.len, Targets.count, Exprs.count,
        Params.count] <;> omega))

/-- An instruction that only puts a value on the stack. -/
theorem sim_push {exes : List (List Instr)} {s : SSt W} {st : List Ref} {f : NFrame}
    {fs : List Frame} {t : St W} {i : Instr} {v : Ref}
    (hu : At L exes s st f fs t) (hf : fetch exes f.exe f.idx = some i)
    (hi : ∀ x : St W, execI L cap i x = x.push cap v) :
    Sim L cap n (.ok s v) t fun s' v u =>
      At L exes s' (v :: st) { f with idx := f.idx + 1, used := f.used + 1 } fs u := by
  refine Sim.instr hu hf fun fn ex h1 h2 h3 => ?_
  rw [hi]
  exact SimX.push (Sim.ok ⟨fn, ex, rfl, h1, h2, h3⟩)

/-- An instruction that puts the result of an operation on the stack. -/
theorem sim_prim {exes : List (List Instr)} {s : SSt W} {st : List Ref} {f : NFrame}
    {fs : List Frame} {t : St W} {i : Instr} {o : W → Out W Ref}
    (hu : At L exes s st f fs t) (hf : fetch exes f.exe f.idx = some i)
    (hi : ∀ fn ex, execI L cap i ⟨s.w, fn, ex, st, .normal { f with idx := f.idx + 1 } :: fs⟩ =
      St.prim ⟨s.w, fn, ex, st, .normal { f with idx := f.idx + 1 } :: fs⟩ (o s.w)
        fun r s => s.push cap r) :
    Sim L cap n (lift L o s) t fun s' v u =>
      At L exes s' (v :: st) { f with idx := f.idx + 1, used := f.used + 1 } fs u := by
  refine Sim.instr hu hf fun fn ex h1 h2 h3 => ?_
  rw [hi]
  exact SimX.prim' (f := o) rfl fun w a _ hp => SimX.push (Sim.ok ⟨fn, ex, rfl, h1, h2, hp⟩)

/-- The same after dropping `k` values. -/
theorem sim_prim_drop {exes : List (List Instr)} {s : SSt W} {st st' : List Ref} {f : NFrame}
    {fs : List Frame} {t : St W} {i : Instr} {o : W → Out W Ref} {m : Nat}
    (hu : At L exes s st f fs t) (hf : fetch exes f.exe f.idx = some i)
    (hi : ∀ fn ex, execI L cap i ⟨s.w, fn, ex, st, .normal { f with idx := f.idx + 1 } :: fs⟩ =
      St.prim ⟨s.w, fn, ex, st', .normal { f with idx := f.idx + 1, used := m } :: fs⟩ (o s.w)
        fun r s => s.push cap r) :
    Sim L cap n (lift L o s) t fun s' v u =>
      At L exes s' (v :: st') { f with idx := f.idx + 1, used := m + 1 } fs u := by
  refine Sim.instr hu hf fun fn ex h1 h2 h3 => ?_
  rw [hi]
  exact SimX.prim' (f := o) rfl fun w a _ hp => SimX.push (Sim.ok ⟨fn, ex, rfl, h1, h2, hp⟩)

/-- An operation without result, after dropping `k` values. -/
theorem sim_unit_drop {exes : List (List Instr)} {s : SSt W} {st st' : List Ref} {f : NFrame}
    {fs : List Frame} {t : St W} {i : Instr} {o : W → Out W Unit} {m : Nat}
    (hu : At L exes s st f fs t) (hf : fetch exes f.exe f.idx = some i)
    (hi : ∀ fn ex, execI L cap i ⟨s.w, fn, ex, st, .normal { f with idx := f.idx + 1 } :: fs⟩ =
      St.prim ⟨s.w, fn, ex, st', .normal { f with idx := f.idx + 1, used := m } :: fs⟩ (o s.w)
        fun _ s => .run s) :
    Sim L cap n (lift L o s) t fun s' _ u =>
      At L exes s' st' { f with idx := f.idx + 1, used := m } fs u := by
  refine Sim.instr hu hf fun fn ex h1 h2 h3 => ?_
  rw [hi]
  exact SimX.prim' (f := o) rfl fun w a _ hp => SimX.run (Sim.ok ⟨fn, ex, rfl, h1, h2, hp⟩)

/-- A conditional jump. -/
theorem sim_jumpIfNot {exes : List (List Instr)} {s : SSt W} {st : List Ref} {f : NFrame}
    {fs : List Frame} {t : St W} {a : Nat} {v : Ref} {u : Nat}
    (hu : At L exes s (v :: st) { f with used := u + 1 } fs t)
    (hf : fetch exes f.exe f.idx = some (.jumpIfNot a)) :
    Sim L cap n (lift L (L.asBool v) s) t fun s' b t' =>
      At L exes s' st { f with idx := if b then f.idx + 1 else a, used := u } fs t' := by
  refine Sim.instr hu hf fun fn ex h1 h2 h3 => ?_
  simp only [execI, St.pop]
  rw [if_neg (by simp)]
  simp only [List.take_succ_cons, List.take_zero, List.drop_succ_cons, List.drop_zero]
  refine SimX.prim' (f := L.asBool v) rfl fun w b _ hp => ?_
  cases b with
  | true => exact SimX.run (Sim.ok ⟨fn, ex, rfl, h1, h2, hp⟩)
  | false => exact SimX.run (Sim.ok ⟨fn, ex, rfl, h1, h2, hp⟩)

theorem sim_jumpIf {exes : List (List Instr)} {s : SSt W} {st : List Ref} {f : NFrame}
    {fs : List Frame} {t : St W} {a : Nat} {v : Ref} {u : Nat}
    (hu : At L exes s (v :: st) { f with used := u + 1 } fs t)
    (hf : fetch exes f.exe f.idx = some (.jumpIf a)) :
    Sim L cap n (lift L (L.asBool v) s) t fun s' b t' =>
      At L exes s' st { f with idx := if b then a else f.idx + 1, used := u } fs t' := by
  refine Sim.instr hu hf fun fn ex h1 h2 h3 => ?_
  simp only [execI, St.pop]
  rw [if_neg (by simp)]
  simp only [List.take_succ_cons, List.take_zero, List.drop_succ_cons, List.drop_zero]
  refine SimX.prim' (f := L.asBool v) rfl fun w b _ hp => ?_
  cases b with
  | true => exact SimX.run (Sim.ok ⟨fn, ex, rfl, h1, h2, hp⟩)
  | false => exact SimX.run (Sim.ok ⟨fn, ex, rfl, h1, h2, hp⟩)

/-- A jump, with the step it takes. -/
theorem sim_jump {exes : List (List Instr)} {s : SSt W} {st : List Ref} {f : NFrame}
    {fs : List Frame} {t : St W} {a : Nat} {r : Res W α} {post : SSt W → α → St W → Prop}
    (hu : At L exes s st f fs t) (hf : fetch exes f.exe f.idx = some (.jump a))
    (h : ∀ t', At L exes s st { f with idx := a } fs t' → Sim L cap (n - 1) r t' post) :
    Sim L cap n r t post := by
  refine Sim.instr hu hf fun fn ex h1 h2 h3 => ?_
  exact h _ ⟨fn, ex, rfl, h1, h2, h3⟩

/-- `POP 1`. -/
theorem sim_pop {exes : List (List Instr)} {s : SSt W} {st : List Ref} {f : NFrame}
    {fs : List Frame} {t : St W} {v : Ref} {u : Nat} {r : Res W α}
    {post : SSt W → α → St W → Prop}
    (hu : At L exes s (v :: st) { f with used := u + 1 } fs t)
    (hf : fetch exes f.exe f.idx = some (.pop 1))
    (h : ∀ t', At L exes s st { f with idx := f.idx + 1, used := u } fs t' →
      Sim L cap n r t' post) :
    Sim L cap n r t post := by
  refine Sim.instr hu hf fun fn ex h1 h2 h3 => ?_
  simp only [execI, St.pop]
  rw [if_neg (by simp)]
  exact SimX.run (h _ ⟨fn, ex, rfl, h1, h2, h3⟩)

theorem sim_pushFun {exes : List (List Instr)} {s : SSt W} {st : List Ref} {f : NFrame}
    {fs : List Frame} {t : St W} {fd : FunDef} {a : Nat} {nm : Name}
    (hu : At L exes s st f fs t)
    (hf : fetch exes f.exe f.idx = some (.pushFun a fd.params.count nm))
    (hc : CodeAt exes f.exe a (fd.code a)) (hw : fd.wf = true) :
    Sim L cap n ((lift L (L.newFunc f.closure f.locals) >>= fun r => addFun r fd >>= fun _ => pure r) s)
      t fun s' v u =>
      At L exes s' (v :: st) { f with idx := f.idx + 1, used := f.used + 1 } fs u := by
  refine Sim.instr hu hf fun fn ex h1 h2 h3 => ?_
  simp only [execI]
  refine SimX.prim (f := L.newFunc f.closure f.locals) rfl fun w r _ hp => ?_
  show SimX L cap n (.ok ⟨w, fun x => if x = r then some fd else s.funs x⟩ r) _ _
  obtain ⟨l, rfl⟩ := h1
  exact SimX.push (Sim.ok ⟨_, _, rfl, ⟨l, rfl⟩, h2.add r ⟨rfl, hc.append, hw⟩, hp⟩)

/-! ## Pieces of code -/

theorem CodeAt.right' {ex : List (List Instr)} {e p q : Nat} {c d : List Instr}
    (h : CodeAt ex e p (c ++ d)) (hq : p + c.length = q) : CodeAt ex e q d := hq ▸ h.right

theorem CodeAt.cast' {ex : List (List Instr)} {e p : Nat} {c d : List Instr}
    (h : CodeAt ex e p c) (hq : c = d) : CodeAt ex e p d := hq ▸ h

theorem M.bind_assoc {α β γ : Type} (x : M W α) (f : α → M W β) (g : β → M W γ) :
    ((x >>= f) >>= g) = (x >>= fun a => f a >>= g) := by
  funext s
  show M.bind (M.bind x f) g s = M.bind x (fun a => M.bind (f a) g) s
  unfold M.bind
  cases x s <;> rfl

theorem bind_func {α : Type} (o : W → Out W Ref) (fd : FunDef) (k : Ref → M W α) :
    (lift L o >>= fun r => addFun r fd >>= fun _ => k r) =
    ((lift L o >>= fun r => addFun r fd >>= fun _ => pure r) >>= k) := by
  rw [M.bind_assoc]
  rfl

/-! ## Arguments that are missing, and their types -/

theorem sim_orElse (hL : L.Lawful) {exes : List (List Instr)} {s : SSt W} {st : List Ref}
    {f : NFrame} {fs : List Frame} {t : St W} {v : Ref} {d : M W Ref} {u q : Nat}
    {c : List Instr}
    (hu : At L exes s (v :: st) { f with used := u + 1 } fs t)
    (hc : CodeAt exes f.exe f.idx ([.pushTyp, .pushNneTyp, .bin .eql, .jumpIfNot q, .pop 1] ++ c))
    (hd : ∀ s' t', At L exes s' st { f with idx := f.idx + 5, used := u } fs t' →
      Sim L cap n (d s') t' fun s' v t' =>
        At L exes s' (v :: st) { f with idx := q, used := u + 1 } fs t') :
    Sim L cap n (orElse L v (some d) s) t fun s' v t' =>
      At L exes s' (v :: st) { f with idx := q, used := u + 1 } fs t' := by
  have hl := hL v s.w
  have f0 := hc.head
  have f1 := hc.tail.head
  have f2 := hc.tail.tail.head
  have f3 := hc.tail.tail.tail.head
  have f4 := hc.tail.tail.tail.tail.head
  simp only [orElse]
  obtain ⟨fn, ex, rfl, ⟨l, rfl⟩, h2, h3⟩ := hu
  show Sim L cap n (M.bind (lift L (L.isNone v)) _ s) _ _
  unfold M.bind lift
  rw [← hl]
  apply Sim.step
  unfold VM.step
  simp only [fetch_append f0, execI, St.peek]
  rw [if_neg (by simp)]
  simp only [List.take_succ_cons, List.take_zero]
  cases ht : L.typeOf v s.w with
  | ub => exact trivial
  | err w => exact rfl
  | ok w1 ty =>
    simp only [St.prim, Out.bind]
    apply SimX.push
    apply Sim.step
    unfold VM.step
    simp only [fetch_append f1, execI]
    apply SimX.push
    apply Sim.step
    unfold VM.step
    simp only [fetch_append f2, execI, St.pop]
    rw [if_neg (by omega)]
    simp only [List.take_succ_cons, List.take_zero, List.drop_succ_cons, List.drop_zero]
    cases hb : L.bin .eql ty L.noneType w1 with
    | ub => exact trivial
    | err w => exact rfl
    | ok w2 r =>
      simp only [St.prim]
      apply SimX.push
      apply Sim.step
      unfold VM.step
      simp only [fetch_append f3, execI, St.pop]
      rw [if_neg (by omega)]
      simp only [List.take_succ_cons, List.take_zero, List.drop_succ_cons, List.drop_zero]
      cases ha : L.asBool r w2 with
      | ub => exact trivial
      | err w => exact rfl
      | ok w3 b =>
        simp only [St.prim]
        cases hp : L.pending w3 with
        | true => simp only [if_true]; exact SimX.off
        | false =>
          simp only [Bool.false_eq_true, if_false]
          cases b with
          | false =>
            exact SimX.run (Sim.ok ⟨fn, _, rfl, ⟨l, rfl⟩, h2, hp⟩)
          | true =>
            simp only [if_true]
            apply SimX.run
            apply Sim.step
            unfold VM.step
            simp only [fetch_append f4, execI, St.pop]
            rw [if_neg (by omega)]
            simp only [List.drop_succ_cons, List.drop_zero]
            exact SimX.run (hd _ _ ⟨fn, _, rfl, ⟨l, rfl⟩, h2, hp⟩)

theorem sim_checkArg {exes : List (List Instr)} {s : SSt W} {st : List Ref}
    {f : NFrame} {fs : List Frame} {t : St W} {v : Ref} {d : M W Ref} {u q i : Nat} {nm : Name}
    (hf : fetch exes f.exe q = some (.checkType i nm))
    (hd : Sim L cap n (d s) t fun s' tv t' =>
        At L exes s' (tv :: v :: st) { f with idx := q, used := u + 2 } fs t') :
    Sim L cap n (checkArg L v (some d) s) t fun s' _ t' =>
      At L exes s' (v :: st) { f with idx := q + 1, used := u + 1 } fs t' := by
  simp only [checkArg]
  refine Sim.bind hd ?_
  intro s' tv t' ht'
  refine Sim.instr ht' hf fun fn ex h1 h2 h3 => ?_
  simp only [execI, St.peek]
  rw [if_neg (by omega)]
  simp only [List.take_succ_cons, List.take_zero, St.pop]
  rw [if_neg (by omega)]
  refine SimX.prim (f := L.isType tv v) rfl fun w b _ hp => ?_
  cases b with
  | true => exact SimX.run (Sim.ok ⟨fn, ex, rfl, h1, h2, hp⟩)
  | false => exact rfl

/-! ## The simulation -/

/-- Shape of the claims about expressions. -/
def ExprSim (L : Layer W) (cap n : Nat) (call : Ref → List Ref → Nat → M W (List Ref))
    (e : Expr) : Prop :=
  ∀ exes s st f fs t, At L exes s st f fs t → CodeAt exes f.exe f.idx (e.code f.idx) →
    Sim L cap n (e.eval ⟨L, n, call, f.locals, f.closure⟩ s) t fun s' v u =>
      At L exes s' (v :: st) { f with idx := f.idx + e.len, used := f.used + 1 } fs u

def TargetSim (L : Layer W) (cap n : Nat) (call : Ref → List Ref → Nat → M W (List Ref))
    (e : Target) : Prop :=
  ∀ exes s v st (f : NFrame) fs t k, At L exes s (v :: st) { f with used := k + 1 } fs t →
    CodeAt exes f.exe f.idx (e.code f.idx) →
    Sim L cap n (e.store ⟨L, n, call, f.locals, f.closure⟩ v s) t fun s' _ u =>
      At L exes s' (v :: st) { f with idx := f.idx + e.len, used := k + 1 } fs u

def TargetsSim (L : Layer W) (cap n : Nat) (call : Ref → List Ref → Nat → M W (List Ref))
    (e : Targets) : Prop :=
  ∀ exes s vs st (f : NFrame) fs t k, List.length vs = e.count →
    At L exes s (vs.reverse ++ st) { f with used := k + vs.length } fs t →
    CodeAt exes f.exe f.idx (e.code f.idx) →
    Sim L cap n (e.store ⟨L, n, call, f.locals, f.closure⟩ vs s) t fun s' _ u =>
      ∃ v, At L exes s' (v :: st) { f with idx := f.idx + e.len, used := k + 1 } fs u

def CallNodeSim (L : Layer W) (cap n : Nat) (call : Ref → List Ref → Nat → M W (List Ref))
    (e : Call) : Prop :=
  ∀ exes s st f fs t k, At L exes s st f fs t → CodeAt exes f.exe f.idx (e.code k f.idx) →
    Sim L cap n (e.eval ⟨L, n, call, f.locals, f.closure⟩ k s) t fun s' vs u =>
      vs.length = k ∧
      At L exes s' (vs.reverse ++ st) { f with idx := f.idx + e.len, used := f.used + k } fs u

def ExprsSim (L : Layer W) (cap n : Nat) (call : Ref → List Ref → Nat → M W (List Ref))
    (e : Exprs) : Prop :=
  ∀ exes s st f fs t, At L exes s st f fs t → CodeAt exes f.exe f.idx (e.code f.idx) →
    Sim L cap n (e.eval ⟨L, n, call, f.locals, f.closure⟩ s) t fun s' vs u =>
      vs.length = e.count ∧
      At L exes s' (vs.reverse ++ st) { f with idx := f.idx + e.len, used := f.used + e.count } fs u

def FillSim (L : Layer W) (cap n : Nat) (call : Ref → List Ref → Nat → M W (List Ref))
    (e : Exprs) : Prop :=
  ∀ exes s l st (f : NFrame) fs t i k, At L exes s (l :: st) { f with used := k + 1 } fs t →
    CodeAt exes f.exe f.idx (e.codeItems i f.idx) →
    Sim L cap n (e.fill ⟨L, n, call, f.locals, f.closure⟩ l i s) t fun s' _ u =>
      At L exes s' (l :: st) { f with idx := f.idx + e.lenItems, used := k + 1 } fs u

def PairsSim (L : Layer W) (cap n : Nat) (call : Ref → List Ref → Nat → M W (List Ref))
    (e : Pairs) : Prop :=
  ∀ exes s l st (f : NFrame) fs t k, At L exes s (l :: st) { f with used := k + 1 } fs t →
    CodeAt exes f.exe f.idx (e.code f.idx) →
    Sim L cap n (e.fill ⟨L, n, call, f.locals, f.closure⟩ l s) t fun s' _ u =>
      At L exes s' (l :: st) { f with idx := f.idx + e.len, used := k + 1 } fs u

def ParamsSim (L : Layer W) (cap n : Nat) (call : Ref → List Ref → Nat → M W (List Ref))
    (e : Params) : Prop :=
  ∀ exes s vs st (f : NFrame) fs t k, List.length vs = e.count →
    At L exes s (vs ++ st) { f with used := k + vs.length } fs t →
    CodeAt exes f.exe f.idx (e.code f.idx) →
    Sim L cap n (e.bind ⟨L, n, call, f.locals, f.closure⟩ vs s) t fun s' _ u =>
      At L exes s' st { f with idx := f.idx + e.len, used := k } fs u

/-- Where the machine is when a statement has ended. -/
def CtlAt (L : Layer W) (exes : List (List Instr)) (st : List Ref) (f : NFrame) (fs : List Frame)
    (stop : Nat) (brk : Option Nat) (s : SSt W) (c : Ctl) (t : St W) : Prop :=
  match c with
  | .normal => At L exes s st { f with idx := stop } fs t
  | .brk => ∃ q, brk = some q ∧ At L exes s st { f with idx := q } fs t
  | .ret vs => ∃ m i, fetch exes f.exe i = some (.ret m) ∧
      At L exes s (vs.reverse ++ st) { f with idx := i, used := vs.length } fs t

def StmtSim (L : Layer W) (cap n : Nat) (call : Ref → List Ref → Nat → M W (List Ref))
    (e : Stmt) : Prop :=
  ∀ exes s st (f : NFrame) fs t b, e.wf (Option.isSome b) = true → f.used = 0 → At L exes s st f fs t →
    CodeAt exes f.exe f.idx (e.code b f.idx) →
    Sim L cap n (e.eval ⟨L, n, call, f.locals, f.closure⟩ s) t
      (CtlAt L exes st f fs (f.idx + e.len) b)

def StmtsSim (L : Layer W) (cap n : Nat) (call : Ref → List Ref → Nat → M W (List Ref))
    (e : Stmts) : Prop :=
  ∀ exes s st (f : NFrame) fs t b, e.wf (Option.isSome b) = true → f.used = 0 → At L exes s st f fs t →
    CodeAt exes f.exe f.idx (e.code b f.idx) →
    Sim L cap n (e.eval ⟨L, n, call, f.locals, f.closure⟩ s) t
      (CtlAt L exes st f fs (f.idx + e.len) b)

variable {call : Ref → List Ref → Nat → M W (List Ref)}

theorem sim_call (hc : CallSim L cap n call) {exes : List (List Instr)} {s : SSt W}
    {st vs : List Ref} {f : NFrame} {fs : List Frame} {t : St W} {g : Ref} {argc k : Nat}
    (hlen : vs.length = argc)
    (hu : At L exes s (g :: (vs ++ st)) { f with used := f.used + argc + 1 } fs t)
    (hf : fetch exes f.exe f.idx = some (.call argc k)) :
    Sim L cap n (call g vs k s) t fun s' vs u =>
      vs.length = k ∧
      At L exes s' (vs.reverse ++ st) { f with idx := f.idx + 1, used := f.used + k } fs u := by
  subst hlen
  refine Sim.instr hu hf fun fn ex h1 h2 h3 => ?_
  simp only [execI, St.pop]
  rw [if_neg (by omega)]
  simp only [List.take_succ_cons, List.take_zero, List.drop_succ_cons, List.drop_zero]
  by_cases ha : maxArgs < vs.length
  · rw [if_pos ha]; trivial
  · rw [if_neg ha, if_neg (by omega), List.take_left', List.drop_left'] <;> try rfl
    exact hc exes s st { f with idx := f.idx + 1 } fs _ g vs k
      ⟨fn, ex, by simp [Nat.add_sub_cancel], h1, h2, h3⟩

mutual
theorem Expr.sim (hL : L.Lawful) (hc : CallSim L cap n call) :
    (e : Expr) → e.wf = true → ExprSim L cap n call e
  | .none, _ => fun _ _ _ _ _ _ hu h => sim_push hu (CodeAt.head (by simpa [Expr.code] using h)) fun _ => rfl
  | .tru, _ => fun _ _ _ _ _ _ hu h => sim_push hu (CodeAt.head (by simpa [Expr.code] using h)) fun _ => rfl
  | .fls, _ => fun _ _ _ _ _ _ hu h => sim_push hu (CodeAt.head (by simpa [Expr.code] using h)) fun _ => rfl
  | .int v, _ => fun _ _ _ _ _ _ hu h => sim_prim hu (CodeAt.head (by simpa [Expr.code] using h)) fun _ _ => rfl
  | .float v, _ => fun _ _ _ _ _ _ hu h => sim_prim hu (CodeAt.head (by simpa [Expr.code] using h)) fun _ _ => rfl
  | .str v, _ => fun _ _ _ _ _ _ hu h => sim_prim hu (CodeAt.head (by simpa [Expr.code] using h)) fun _ _ => rfl
  | .ident v, _ => fun _ _ _ _ _ _ hu h => sim_prim hu (CodeAt.head (by simpa [Expr.code] using h)) fun _ _ => rfl
  | .un op a, hw => by
    intro exes s st f fs t hu h
    simp only [Expr.code] at h
    simp only [Expr.wf] at hw
    simp only [Expr.eval]
    refine Sim.bind (a.sim hL hc hw exes s st f fs t hu h.left) ?_
    intro s1 x u hu
    have hf := (h.right' (q := f.idx + a.len) (by simp)).head
    by_cases hop : op = .pos
    · subst hop
      rw [if_pos rfl]
      refine Sim.instr hu hf fun fn ex h1 h2 h3 => ?_
      simp only [execI, St.peek]
      rw [if_neg (by omega)]
      exact SimX.run (Sim.ok ⟨fn, ex, rfl, h1, h2, h3⟩)
    · rw [if_neg hop]
      refine (sim_prim_drop (st' := st) (m := f.used) hu hf fun fn ex => ?_)
      cases op <;> simp_all [execI, St.pop]
  | .bin op a b, hw => by
    intro exes s st f fs t hu h
    simp only [Expr.code] at h
    simp only [Expr.wf, Bool.and_eq_true] at hw
    simp only [Expr.eval]
    refine Sim.bind (a.sim hL hc hw.1 exes s st f fs t hu h.left.left) ?_
    intro s1 x u hu
    refine Sim.bind (b.sim hL hc hw.2 exes _ _ { f with idx := f.idx + a.len, used := _ } fs _ hu (h.left.right' (by simp))) ?_
    intro s2 y u hu
    have hf := (h.right' (q := f.idx + a.len + b.len) (by simp; omega)).head
    refine (sim_prim_drop (st' := st) (m := f.used) hu hf fun fn ex => ?_).post ?_
    · simp [execI, St.pop, lt22, sub22]
    · exact fun s v u h => h.cast rfl (by frame)
  | .and a b, hw => by
    intro exes s st f fs t hu h
    simp only [Expr.code] at h
    simp only [Expr.wf, Bool.and_eq_true] at hw
    simp only [Expr.eval]
    have e1 := h.right' (q := f.idx + a.len + 1 + b.len + 1) (by simp; omega)
    have f1 := e1.head
    have f2 := e1.tail.head
    have f3 := e1.tail.tail.head
    refine Sim.bind (a.sim hL hc hw.1 exes s st f fs t hu h.left.left.left.left) ?_
    intro s1 x u hu
    refine Sim.bind (sim_jumpIfNot (f := { f with idx := f.idx + a.len }) hu
      (h.left.left.left.right' (by simp)).head) ?_
    intro s2 p u hu
    cases p with
    | false =>
      refine (sim_push hu (by simpa using f3) fun _ => rfl).post ?_
      exact fun s v u h => h.cast rfl (by frame)
    | true =>
      refine Sim.bind (b.sim hL hc hw.2 exes _ _ { f with idx := f.idx + a.len + 1, used := _ } fs _ hu
        (h.left.left.right' (by simp; omega))) ?_
      intro s3 y u hu
      refine Sim.bind (sim_jumpIfNot (f := { f with idx := f.idx + a.len + 1 + b.len }) hu
        (h.left.right' (by simp; omega)).head) ?_
      intro s4 q u hu
      cases q with
      | false =>
        refine (sim_push hu (by simpa using f3) fun _ => rfl).post ?_
        exact fun s v u h => h.cast rfl (by frame)
      | true =>
        refine Sim.bind (x := pure L.tru) (f := pure) (sim_push hu (by simpa using f1) fun _ => rfl) ?_
        intro s5 z u hu
        refine sim_jump hu (by simpa using f2) ?_
        exact fun t h => Sim.ok (h.cast rfl (by frame))
  | .or a b, hw => by
    intro exes s st f fs t hu h
    simp only [Expr.code] at h
    simp only [Expr.wf, Bool.and_eq_true] at hw
    simp only [Expr.eval]
    have e1 := h.right' (q := f.idx + a.len + 1 + b.len + 1) (by simp; omega)
    have f1 := e1.head
    have f2 := e1.tail.head
    have f3 := e1.tail.tail.head
    refine Sim.bind (a.sim hL hc hw.1 exes s st f fs t hu h.left.left.left.left) ?_
    intro s1 x u hu
    refine Sim.bind (sim_jumpIf (f := { f with idx := f.idx + a.len }) hu
      (h.left.left.left.right' (by simp)).head) ?_
    intro s2 p u hu
    cases p with
    | true =>
      refine (sim_push hu (by simpa using f3) fun _ => rfl).post ?_
      exact fun s v u h => h.cast rfl (by frame)
    | false =>
      refine Sim.bind (b.sim hL hc hw.2 exes _ _ { f with idx := f.idx + a.len + 1, used := _ } fs _ hu
        (h.left.left.right' (by simp; omega))) ?_
      intro s3 y u hu
      refine Sim.bind (sim_jumpIf (f := { f with idx := f.idx + a.len + 1 + b.len }) hu
        (h.left.right' (by simp; omega)).head) ?_
      intro s4 q u hu
      cases q with
      | true =>
        refine (sim_push hu (by simpa using f3) fun _ => rfl).post ?_
        exact fun s v u h => h.cast rfl (by frame)
      | false =>
        refine Sim.bind (x := pure L.fls) (f := pure) (sim_push hu (by simpa using f1) fun _ => rfl) ?_
        intro s5 z u hu
        refine sim_jump hu (by simpa using f2) ?_
        exact fun t h => Sim.ok (h.cast rfl (by frame))
  | .assign tg e, hw => by
    intro exes s st f fs t hu h
    simp only [Expr.code] at h
    simp only [Expr.wf, Bool.and_eq_true] at hw
    simp only [Expr.eval]
    refine Sim.bind (e.sim hL hc hw.2 exes s st f fs t hu h.left) ?_
    intro s1 x u hu
    refine Sim.bind (tg.sim hL hc hw.1 exes _ _ _ { f with idx := f.idx + e.len } fs _ _ hu
      (h.right' (by simp))) ?_
    intro s2 _ u hu
    exact Sim.ok (hu.cast rfl (by frame))
  | .massign tg tgs k, hw => by
    intro exes s st f fs t hu h
    simp only [Expr.code] at h
    simp only [Expr.wf, Bool.and_eq_true] at hw
    simp only [Expr.eval]
    refine Sim.bind (k.sim hL hc hw.2 exes s st f fs t _ hu h.left.left.left) ?_
    rintro s1 vs u ⟨hlen, hu⟩
    cases vs with
    | nil => simp at hlen
    | cons v vs =>
      have hlen' : vs.length = tgs.count := by simpa using hlen
      refine Sim.bind (tgs.sim hL hc hw.1.2 exes _ vs (v :: st) { f with idx := f.idx + k.len } fs _
        (f.used + 1) hlen' (hu.cast (by simp) (by simp [hlen']; omega))
        (h.left.left.right' (by simp))) ?_
      rintro s2 _ u ⟨y, hu⟩
      refine sim_pop (f := { f with idx := f.idx + k.len + tgs.len }) hu
        (h.left.right' (by simp; omega)).head ?_
      intro t' hu
      refine Sim.bind (tg.sim hL hc hw.1.1 exes _ _ _ { f with idx := f.idx + k.len + tgs.len + 1 } fs _ _
        hu (h.right' (by simp; omega))) ?_
      intro s3 _ u hu
      exact Sim.ok (hu.cast rfl (by frame))
  | .list items, hw => by
    intro exes s st f fs t hu h
    simp only [Expr.code] at h
    simp only [Expr.wf] at hw
    simp only [Expr.eval]
    refine Sim.bind (sim_prim hu h.head fun _ _ => rfl) ?_
    intro s1 l u hu
    refine Sim.bind (items.simItems hL hc hw exes _ _ _ { f with idx := f.idx + 1 } fs _ 0 _ hu h.tail) ?_
    intro s2 _ u hu
    exact Sim.ok (hu.cast rfl (by frame))
  | .map items, hw => by
    intro exes s st f fs t hu h
    simp only [Expr.code] at h
    simp only [Expr.wf] at hw
    simp only [Expr.eval]
    refine Sim.bind (sim_prim hu h.head fun _ _ => rfl) ?_
    intro s1 l u hu
    refine Sim.bind (items.sim hL hc hw exes _ _ _ { f with idx := f.idx + 1 } fs _ _ hu h.tail) ?_
    intro s2 _ u hu
    exact Sim.ok (hu.cast rfl (by frame))
  | .call k, hw => by
    intro exes s st f fs t hu h
    simp only [Expr.code] at h
    simp only [Expr.wf] at hw
    simp only [Expr.eval]
    refine Sim.bind (k.sim hL hc hw exes s st f fs t _ hu h) ?_
    rintro s1 vs u ⟨hlen, hu⟩
    match vs, hlen with
    | [v], _ => exact Sim.ok (hu.cast rfl (by frame))
  | .select a b, hw => by
    intro exes s st f fs t hu h
    simp only [Expr.code] at h
    simp only [Expr.wf, Bool.and_eq_true] at hw
    simp only [Expr.eval]
    refine Sim.bind (a.sim hL hc hw.1 exes s st f fs t hu h.left.left) ?_
    intro s1 x u hu
    refine Sim.bind (b.sim hL hc hw.2 exes _ _ { f with idx := f.idx + a.len, used := _ } fs _ hu (h.left.right' (by simp))) ?_
    intro s2 y u hu
    have hf := (h.right' (q := f.idx + a.len + b.len) (by simp; omega)).head
    refine (sim_prim_drop (st' := st) (m := f.used) hu hf fun fn ex => ?_).post ?_
    · simp [execI, St.pop, St.peek, lt22, lt33, lt32, sub22, sub32]
    · exact fun s v u h => h.cast rfl (by frame)
  | .func nm fd, hw => by
    intro exes s st f fs t hu h
    simp only [Expr.code] at h
    simp only [Expr.wf] at hw
    simp only [Expr.eval]
    rw [← bind_pure' (_ >>= _)]
    refine Sim.bind (sim_pushFun hu h.head (h.right' (by simp)) hw) ?_
    intro s1 r u hu
    refine sim_jump hu h.tail.head ?_
    exact fun t h => Sim.ok (h.cast rfl (by frame))
theorem Target.sim (hL : L.Lawful) (hc : CallSim L cap n call) :
    (e : Target) → e.wf = true → TargetSim L cap n call e
  | .var nm, _ => by
    intro exes s v st f fs t k hu h
    simp only [Target.code] at h
    simp only [Target.store]
    refine (sim_unit_drop (st' := v :: st) (m := k + 1) hu h.head fun fn ex => ?_).post ?_
    · simp [execI, St.peek]
    · exact fun s v u h => h.cast rfl (by frame)
  | .sel a b, hw => by
    intro exes s v st f fs t k hu h
    simp only [Target.code] at h
    simp only [Target.wf, Bool.and_eq_true] at hw
    simp only [Target.store]
    refine Sim.bind (a.sim hL hc hw.1 exes s _ { f with used := k + 1 } fs t hu h.left.left) ?_
    intro s1 x u hu
    refine Sim.bind (b.sim hL hc hw.2 exes _ _ { f with idx := f.idx + a.len, used := _ } fs _ hu (h.left.right' (by simp))) ?_
    intro s2 y u hu
    have hf := (h.right' (q := f.idx + a.len + b.len) (by simp; omega)).head
    refine (sim_unit_drop (st' := v :: st) (m := k + 1) hu hf fun fn ex => ?_).post ?_
    · simp [execI, St.pop, St.peek, lt22, lt33, lt32, sub22, sub32]
    · exact fun s v u h => h.cast rfl (by frame)
theorem Targets.sim (hL : L.Lawful) (hc : CallSim L cap n call) :
    (e : Targets) → e.wf = true → TargetsSim L cap n call e
  | .one tg, hw => by
    intro exes s vs st f fs t k hlen hu h
    simp only [Targets.code] at h
    simp only [Targets.wf] at hw
    match vs, hlen with
    | [v], _ =>
      simp only [Targets.store]
      refine (tg.sim hL hc hw exes _ v st f fs _ k hu h).post ?_
      exact fun s _ u h => ⟨v, h.cast rfl (by frame)⟩
  | .cons tg tgs, hw => by
    intro exes s vs st f fs t k hlen hu h
    simp only [Targets.code] at h
    simp only [Targets.wf, Bool.and_eq_true] at hw
    match vs, hlen with
    | v :: vs, hlen =>
      have hlen' : vs.length = tgs.count := by simpa [Targets.count] using hlen
      simp only [Targets.store]
      refine Sim.bind (tgs.sim hL hc hw.2 exes _ vs (v :: st) f fs _ (k + 1) hlen'
        (hu.cast (by simp) (by simp; omega)) h.left.left) ?_
      rintro s2 _ u ⟨y, hu⟩
      refine sim_pop (f := { f with idx := f.idx + tgs.len }) hu
        (h.left.right' (by simp)).head ?_
      intro t' hu
      refine (tg.sim hL hc hw.1 exes _ v st { f with idx := f.idx + tgs.len + 1 } fs _ k hu
        (h.right' (by simp; omega))).post ?_
      exact fun s _ u h => ⟨v, h.cast rfl (by frame)⟩
theorem Call.sim (hL : L.Lawful) (hc : CallSim L cap n call) :
    (e : Call) → e.wf = true → CallNodeSim L cap n call e
  | .fn g args, hw => by
    intro exes s st f fs t k hu h
    simp only [Call.code] at h
    simp only [Call.wf, Bool.and_eq_true] at hw
    simp only [Call.eval]
    refine Sim.bind (args.sim hL hc hw.2 exes s st f fs t hu h.left.left) ?_
    rintro s1 vs u ⟨hlen, hu⟩
    refine Sim.bind (g.sim hL hc hw.1 exes _ _ { f with idx := f.idx + args.len, used := _ } fs _ hu
      (h.left.right' (by simp))) ?_
    intro s2 x u hu
    refine (sim_call (f := { f with idx := f.idx + args.len + g.len, used := f.used }) hc
      (vs := vs.reverse) (by simp [hlen])
      (hu.cast rfl (by simp)) (h.right' (by simp; omega)).head).post ?_
    rintro s3 vs u ⟨h1, h2⟩
    exact ⟨h1, h2.cast rfl (by frame)⟩
  | .method a b args, hw => by
    intro exes s st f fs t k hu h
    simp only [Call.code] at h
    simp only [Call.wf, Bool.and_eq_true] at hw
    simp only [Call.eval]
    refine Sim.bind (args.sim hL hc hw.2 exes s st f fs t hu h.left.left.left) ?_
    rintro s1 vs u ⟨hlen, hu⟩
    refine Sim.bind (a.sim hL hc hw.1.1 exes _ _ { f with idx := f.idx + args.len, used := _ } fs _ hu
      (h.left.left.right' (by simp))) ?_
    intro s2 x u hu
    refine Sim.bind (b.sim hL hc hw.1.2 exes _ _
      { f with idx := f.idx + args.len + a.len, used := _ } fs _ hu
      (h.left.right' (by simp; omega))) ?_
    intro s3 y u hu
    have hf := h.right' (q := f.idx + args.len + a.len + b.len) (by simp; omega)
    refine Sim.bind (sim_prim_drop (st' := x :: (vs.reverse ++ st)) (m := f.used + args.count + 1)
      hu hf.head fun fn ex => ?_) ?_
    · simp [execI, St.pop, St.peek, lt22, lt33, lt32, sub22, sub32]
    · intro s4 g u hu
      refine (sim_call (f := { f with idx := f.idx + args.len + a.len + b.len + 1, used := f.used }) hc
        (vs := x :: vs.reverse) (by simp [hlen])
        (hu.cast rfl (by simp; omega)) hf.tail.head).post ?_
      rintro s3 vs u ⟨h1, h2⟩
      exact ⟨h1, h2.cast rfl (by frame)⟩
theorem Exprs.sim (hL : L.Lawful) (hc : CallSim L cap n call) :
    (e : Exprs) → e.wf = true → ExprsSim L cap n call e
  | .nil, _ => by
    intro exes s st f fs t hu h
    exact Sim.ok ⟨rfl, hu⟩
  | .cons e es, hw => by
    intro exes s st f fs t hu h
    simp only [Exprs.code] at h
    simp only [Exprs.wf, Bool.and_eq_true] at hw
    simp only [Exprs.eval]
    refine Sim.bind (e.sim hL hc hw.1 exes s st f fs t hu h.left) ?_
    intro s1 x u hu
    refine Sim.bind (es.sim hL hc hw.2 exes _ _ { f with idx := f.idx + e.len, used := _ } fs _ hu
      (h.right' (by simp))) ?_
    rintro s2 vs u ⟨hlen, hu⟩
    exact Sim.ok ⟨by simp [hlen, Exprs.count], hu.cast (by simp) (by frame)⟩
theorem Exprs.simItems (hL : L.Lawful) (hc : CallSim L cap n call) :
    (e : Exprs) → e.wf = true → FillSim L cap n call e
  | .nil, _ => by
    intro exes s l st f fs t i k hu h
    exact Sim.ok hu
  | .cons e es, hw => by
    intro exes s l st f fs t i k hu h
    simp only [Exprs.codeItems] at h
    simp only [Exprs.wf, Bool.and_eq_true] at hw
    simp only [Exprs.fill]
    refine Sim.bind (sim_prim hu h.left.left.head fun _ _ => rfl) ?_
    intro s1 kk u hu
    refine Sim.bind (e.sim hL hc hw.1 exes _ _ { f with idx := f.idx + 1, used := _ } fs _ hu h.left.left.tail) ?_
    intro s2 v u hu
    have hf := (h.left.right' (q := f.idx + 1 + e.len) (by simp; omega)).head
    refine Sim.bind (sim_unit_drop (st' := l :: st) (m := k + 1) hu hf fun fn ex => ?_) ?_
    · simp [execI, St.pop, St.peek, lt22, lt33, lt32, sub22, sub32]
    · intro s3 _ u hu
      refine (es.simItems hL hc hw.2 exes _ _ _ { f with idx := f.idx + 1 + e.len + 1 } fs _ _ _ hu
        (h.right' (by simp; omega))).post ?_
      exact fun s v u h => h.cast rfl (by frame)
theorem Pairs.sim (hL : L.Lawful) (hc : CallSim L cap n call) :
    (e : Pairs) → e.wf = true → PairsSim L cap n call e
  | .nil, _ => by
    intro exes s l st f fs t k hu h
    exact Sim.ok hu
  | .cons a b ps, hw => by
    intro exes s l st f fs t k hu h
    simp only [Pairs.code] at h
    simp only [Pairs.wf, Bool.and_eq_true] at hw
    simp only [Pairs.fill]
    refine Sim.bind (a.sim hL hc hw.1.1 exes _ _ { f with used := k + 1 } fs _ hu h.left.left.left) ?_
    intro s1 kk u hu
    refine Sim.bind (b.sim hL hc hw.1.2 exes _ _ { f with idx := f.idx + a.len, used := _ } fs _ hu
      (h.left.left.right' (by simp))) ?_
    intro s2 v u hu
    have hf := (h.left.right' (q := f.idx + a.len + b.len) (by simp; omega)).head
    refine Sim.bind (sim_unit_drop (st' := l :: st) (m := k + 1) hu hf fun fn ex => ?_) ?_
    · simp [execI, St.pop, St.peek, lt22, lt33, lt32, sub22, sub32]
    · intro s3 _ u hu
      refine (ps.sim hL hc hw.2 exes _ _ _ { f with idx := f.idx + a.len + b.len + 1 } fs _ _ hu
        (h.right' (by simp; omega))).post ?_
      exact fun s v u h => h.cast rfl (by frame)
end


theorem Params.sim (hL : L.Lawful) (hc : CallSim L cap n call) :
    (e : Params) → e.wf = true → ParamsSim L cap n call e
  | .nil, _ => by
    intro exes s vs st f fs t k hlen hu h
    match vs, hlen with
    | [], _ => exact Sim.ok hu
  | .cons nm d ty ps, hw => by
    intro exes s vs st f fs t k hlen hu h
    simp only [Params.code] at h
    simp only [Params.wf, Bool.and_eq_true] at hw
    match vs, hlen with
    | v :: vs, hlen =>
      have hlen' : vs.length = ps.count := by simpa [Params.count] using hlen
      simp only [Params.bind]
      have hD : Sim L cap n (orElse L v (d.eval ⟨L, n, call, f.locals, f.closure⟩) s) t fun s' v u =>
          At L exes s' (v :: (vs ++ st)) { f with idx := f.idx + d.lenDflt, used := k + vs.length + 1 }
            fs u := by
        cases d with
        | no => exact Sim.ok (hu.cast (by simp) (by frame))
        | yes e =>
          have h0 := h.left.left.left
          simp only [OExpr.codeDflt] at h0
          refine sim_orElse hL (f := f) (u := k + vs.length) (c := e.code (f.idx + 5))
            (hu.cast (by simp) (by frame)) (h0.cast' (by simp [OExpr.lenDflt, Nat.add_assoc])) ?_
          intro s' t' ht
          refine (e.sim hL hc hw.1.1 exes _ _ { f with idx := f.idx + 5, used := k + vs.length }
            fs _ ht (h0.right' (by simp))).post ?_
          exact fun s v u h => h.cast rfl (by frame)
      refine Sim.bind hD ?_
      intro s1 v u hu
      have hT : Sim L cap n (checkArg L v (ty.eval ⟨L, n, call, f.locals, f.closure⟩) s1) u
          fun s' _ u =>
          At L exes s' (v :: (vs ++ st))
            { f with idx := f.idx + d.lenDflt + ty.lenTyp, used := k + vs.length + 1 } fs u := by
        cases ty with
        | no => exact Sim.ok hu
        | yes e =>
          have h0 := h.left.left.right' (q := f.idx + d.lenDflt) (by simp)
          simp only [OExpr.codeTyp] at h0
          refine (sim_checkArg (q := f.idx + d.lenDflt + e.len) (f := f) (u := k + vs.length)
            (h0.right' (by simp)).head
            ((e.sim hL hc hw.1.2 exes _ _ { f with idx := f.idx + d.lenDflt, used := k + vs.length + 1 } fs _
              hu h0.left).post fun s v u h => h.cast rfl (by frame))).post ?_
          exact fun s v u h => h.cast rfl (by frame)
      refine Sim.bind hT ?_
      intro s2 _ u hu
      have hA := h.left.right' (q := f.idx + d.lenDflt + ty.lenTyp) (by simp; omega)
      refine Sim.bind (sim_unit_drop (st' := v :: (vs ++ st)) (m := k + vs.length + 1) hu hA.head
        fun fn ex => ?_) ?_
      · simp [execI, St.peek]
      · intro s3 _ u hu
        refine sim_pop (f := { f with idx := f.idx + d.lenDflt + ty.lenTyp + 1 }) hu hA.tail.head ?_
        intro t' hu
        refine (ps.sim hL hc hw.2 exes _ vs st
          { f with idx := f.idx + d.lenDflt + ty.lenTyp + 1 + 1 } fs _ k hlen' hu
          (h.right' (by simp; omega))).post ?_
        exact fun s v u h => h.cast rfl (by frame)

/-! ## Statements -/

theorem CtlAt.cast {exes : List (List Instr)} {st : List Ref} {f f' : NFrame} {fs : List Frame}
    {p p' : Nat} {q : Option Nat} {s : SSt W} {c : Ctl} {t : St W} (h : CtlAt L exes st f fs p q s c t)
    (hf : { f with idx := 0 } = { f' with idx := 0 }) (hp : p = p') :
    CtlAt L exes st f' fs p' q s c t := by
  subst hp
  cases f; cases f'
  simp only [NFrame.mk.injEq] at hf
  obtain ⟨rfl, -, rfl, rfl, rfl, rfl⟩ := hf
  exact h

theorem sim_while (hn : Nat) {exes : List (List Instr)} {st : List Ref} {f : NFrame}
    {fs : List Frame} {p q r : Nat} {c : M W Bool} {b : M W Ctl}
    (hj : fetch exes f.exe r = some (.jump p))
    (hcond : ∀ s t, At L exes s st { f with idx := p } fs t →
      Sim L cap hn (c s) t fun s' x t' => ∃ i, At L exes s' st { f with idx := if x then i else r + 1 } fs t' ∧ i = q)
    (hbody : ∀ s t, At L exes s st { f with idx := q } fs t →
      Sim L cap hn (b s) t (CtlAt L exes st f fs r (some (r + 1)))) (b0 : Option Nat) :
    ∀ k, k ≤ hn → ∀ s t, At L exes s st { f with idx := p } fs t →
      Sim L cap k (whileLoop k c b s) t (CtlAt L exes st f fs (r + 1) b0) := by
  intro k
  induction k with
  | zero => intro _ s t _; exact .inr ⟨t, rfl⟩
  | succ k ih =>
    intro hk s t hu
    simp only [whileLoop]
    refine Sim.bind ((hcond s t hu).mono hk) ?_
    rintro s1 x u ⟨i, hu, rfl⟩
    cases x with
    | false => exact Sim.ok hu
    | true =>
      simp only [if_true]
      refine Sim.bind ((hbody s1 u hu).mono hk) ?_
      intro s2 ctl u hu
      cases ctl with
      | normal =>
        refine sim_jump hu hj ?_
        intro t' hu
        exact ih (by omega) _ _ hu
      | brk => obtain ⟨_, hq, hu⟩ := hu; cases hq; exact Sim.ok hu
      | ret vs => exact Sim.ok hu

theorem sim_do (hn : Nat) {exes : List (List Instr)} {st : List Ref} {f : NFrame}
    {fs : List Frame} {p q r : Nat} {o : Ref → W → Out W Bool} {c : M W Ref} {b : M W Ctl}
    (ho : o = L.asBool) (hu0 : f.used = 0)
    (hj : fetch exes f.exe r = some (.jumpIf p))
    (hcond : ∀ s t, At L exes s st { f with idx := q } fs t →
      Sim L cap hn (c s) t fun s' v t' => At L exes s' (v :: st) { f with idx := r, used := 1 } fs t')
    (hbody : ∀ s t, At L exes s st { f with idx := p } fs t →
      Sim L cap hn (b s) t (CtlAt L exes st f fs q (some (r + 1)))) (b0 : Option Nat) :
    ∀ k, k ≤ hn → ∀ s t, At L exes s st { f with idx := p } fs t →
      Sim L cap k (doLoop k (c >>= fun v => lift L (o v)) b s) t (CtlAt L exes st f fs (r + 1) b0) := by
  subst ho
  intro k
  induction k with
  | zero => intro _ s t _; exact .inr ⟨t, rfl⟩
  | succ k ih =>
    intro hk s t hu
    simp only [doLoop]
    refine Sim.bind ((hbody s t hu).mono hk) ?_
    intro s2 ctl u hu
    cases ctl with
    | brk => obtain ⟨_, hq, hu⟩ := hu; cases hq; exact Sim.ok hu
    | ret vs => exact Sim.ok hu
    | normal =>
      show Sim L cap (k + 1) (((c >>= fun v => lift L (L.asBool v)) >>= _) s2) _ _
      rw [M.bind_assoc]
      refine Sim.bind ((hcond s2 u hu).mono hk) ?_
      intro s3 v u hu
      refine Sim.instr hu hj fun fn ex h1 h2 h3 => ?_
      simp only [execI, St.pop]
      rw [if_neg (by omega)]
      simp only [List.take_succ_cons, List.take_zero, List.drop_succ_cons, List.drop_zero]
      refine SimX.prim (f := L.asBool v) rfl fun w x _ hp => ?_
      cases x with
      | true =>
        exact ih (by omega) _ _ ⟨fn, ex, by simp [hu0], h1, h2, hp⟩
      | false =>
        exact SimX.run (Sim.ok ⟨fn, ex, by simp [hu0], h1, h2, hp⟩)

mutual
theorem Stmt.sim (hL : L.Lawful) (hc : CallSim L cap n call) :
    (e : Stmt) → StmtSim L cap n call e
  | .expr e => by
    intro exes s st f fs t b hw hu0 hu h
    simp only [Stmt.code] at h
    simp only [Stmt.wf] at hw
    simp only [Stmt.eval]
    refine Sim.bind (e.sim hL hc hw exes s st f fs t hu h.left) ?_
    intro s1 v u hu
    refine sim_pop (f := { f with idx := f.idx + e.len }) hu (h.right' (by simp)).head ?_
    exact fun t' h => Sim.ok (h.cast rfl (by frame))
  | .ifElse c a b => by
    intro exes s st f fs t bk hw hu0 hu h
    simp only [Stmt.code] at h
    simp only [Stmt.wf, Bool.and_eq_true] at hw
    simp only [Stmt.eval]
    refine Sim.bind (c.sim hL hc hw.1.1 exes s st f fs t hu h.left.left.left.left) ?_
    intro s1 v u hu
    refine Sim.bind (sim_jumpIfNot (f := { f with idx := f.idx + c.len }) hu
      (h.left.left.left.right' (by simp)).head) ?_
    intro s2 x u hu
    cases x with
    | true =>
      rw [if_pos rfl, ← bind_pure' (a.eval _)]
      refine Sim.bind (a.sim hL hc exes _ st { f with idx := f.idx + c.len + 1 } fs _ bk
        hw.1.2 hu0 hu (h.left.left.right' (by simp; omega))) ?_
      intro s3 ctl u hu
      cases ctl with
      | normal =>
        refine sim_jump hu (h.left.right' (by simp; omega)).head ?_
        exact fun t' h => Sim.ok (h.cast rfl (by frame))
      | brk => exact Sim.ok hu
      | ret vs => exact Sim.ok hu
    | false =>
      refine (b.sim hL hc exes _ st { f with idx := f.idx + c.len + 1 + a.len + 1 } fs _ bk
        hw.2 hu0 hu (h.right' (by simp; omega))).post ?_
      exact fun s c u h => h.cast (by simp) (by frame)
  | .ifOnly c a => by
    intro exes s st f fs t bk hw hu0 hu h
    simp only [Stmt.code] at h
    simp only [Stmt.wf, Bool.and_eq_true] at hw
    simp only [Stmt.eval]
    refine Sim.bind (c.sim hL hc hw.1 exes s st f fs t hu h.left.left) ?_
    intro s1 v u hu
    refine Sim.bind (sim_jumpIfNot (f := { f with idx := f.idx + c.len }) hu
      (h.left.right' (by simp)).head) ?_
    intro s2 x u hu
    cases x with
    | true =>
      refine (a.sim hL hc exes _ st { f with idx := f.idx + c.len + 1 } fs _ bk
        hw.2 hu0 hu (h.right' (by simp; omega))).post ?_
      exact fun s c u h => h.cast (by simp) (by frame)
    | false =>
      exact Sim.ok (hu.cast rfl (by frame))
  | .while c a => by
    intro exes s st f fs t bk hw hu0 hu h
    simp only [Stmt.code] at h
    simp only [Stmt.wf, Bool.and_eq_true] at hw
    simp only [Stmt.eval]
    refine (sim_while (q := f.idx + c.len + 1) (r := f.idx + c.len + 1 + a.len) n
      (h.right' (by simp; omega)).head ?_ ?_ bk n (Nat.le_refl _) s t hu).post ?_
    · intro s t hu
      refine Sim.bind (c.sim hL hc hw.1 exes s st f fs t hu h.left.left.left) ?_
      intro s1 v u hu
      refine (sim_jumpIfNot (f := { f with idx := f.idx + c.len }) hu
        (h.left.left.right' (by simp)).head).post ?_
      intro s2 x u hu
      exact ⟨_, hu.cast rfl (by cases x <;> simp), rfl⟩
    · intro s t hu
      exact a.sim hL hc exes s st { f with idx := f.idx + c.len + 1 } fs t (some _) hw.2 hu0 hu
        (h.left.right' (by simp; omega))
    · exact fun s c u h => h.cast rfl (by frame)
  | .doWhile a c => by
    intro exes s st f fs t bk hw hu0 hu h
    simp only [Stmt.code] at h
    simp only [Stmt.wf, Bool.and_eq_true] at hw
    simp only [Stmt.eval]
    refine (sim_do (q := f.idx + a.len) (r := f.idx + a.len + c.len) n rfl hu0
      (h.right' (by simp; omega)).head ?_ ?_ bk n (Nat.le_refl _) s t hu).post ?_
    · intro s t hu
      refine (c.sim hL hc hw.2 exes s st { f with idx := f.idx + a.len } fs t hu
        (h.left.right' (by simp))).post ?_
      exact fun s c u h => h.cast rfl (by simp [hu0])
    · intro s t hu
      exact a.sim hL hc exes s st f fs t (some _) hw.1 hu0 hu h.left.left
    · exact fun s c u h => h.cast rfl (by frame)
  | .comp ss => by
    intro exes s st f fs t bk hw hu0 hu h
    simp only [Stmt.code] at h
    simp only [Stmt.wf] at hw
    simp only [Stmt.eval, Stmt.len]
    exact ss.sim hL hc exes s st f fs t bk hw hu0 hu h
  | .ret es => by
    intro exes s st f fs t bk hw hu0 hu h
    simp only [Stmt.code] at h
    simp only [Stmt.wf] at hw
    simp only [Stmt.eval]
    refine Sim.bind (es.sim hL hc hw exes s st f fs t hu h.left) ?_
    rintro s1 vs u ⟨hlen, hu⟩
    exact Sim.ok ⟨_, _, (h.right' rfl).head, hu.cast rfl (by simp [hu0, hlen])⟩
  | .func nm fd => by
    intro exes s st f fs t bk hw hu0 hu h
    simp only [Stmt.code] at h
    simp only [Stmt.wf] at hw
    simp only [Stmt.eval]
    have hf := h.right' (q := f.idx + 2 + fd.len) (by simp; omega)
    rw [bind_func]
    refine Sim.bind (sim_pushFun hu h.left.left.head (h.left.right' (by simp)) hw) ?_
    intro s1 r u hu
    refine sim_jump hu h.left.left.tail.head ?_
    intro t' hu
    refine Sim.mono (n := n) ?_ (by omega)
    refine Sim.bind (sim_unit_drop (st' := r :: st) (m := f.used + 1) hu hf.head
        fun fn ex => ?_) ?_
    · simp [execI, St.peek]
    · intro s3 _ u hu
      refine sim_pop (f := { f with idx := f.idx + 2 + fd.len + 1 }) hu hf.tail.head ?_
      exact fun t' h => Sim.ok (h.cast rfl (by frame))
  | .brk => by
    intro exes s st f fs t bk hw hu0 hu h
    simp only [Stmt.code] at h
    simp only [Stmt.eval]
    cases bk with
    | none => simp [Stmt.wf] at hw
    | some q =>
      refine sim_jump hu h.head ?_
      exact fun t' h => Sim.ok ⟨q, rfl, h⟩
theorem Stmts.sim (hL : L.Lawful) (hc : CallSim L cap n call) :
    (e : Stmts) → StmtsSim L cap n call e
  | .nil => by
    intro exes s st f fs t bk hw hu0 hu h
    exact Sim.ok hu
  | .cons a ss => by
    intro exes s st f fs t bk hw hu0 hu h
    simp only [Stmts.code] at h
    simp only [Stmts.wf, Bool.and_eq_true] at hw
    simp only [Stmts.eval]
    refine Sim.bind (a.sim hL hc exes s st f fs t bk hw.1 hu0 hu h.left) ?_
    intro s1 ctl u hu
    cases ctl with
    | normal =>
      refine (ss.sim hL hc exes _ st { f with idx := f.idx + a.len } fs _ bk hw.2 hu0 hu
        (h.right' (by simp))).post ?_
      exact fun s c u h => h.cast (by simp) (by frame)
    | brk => exact Sim.ok hu
    | ret vs => exact Sim.ok hu
end

end Noja.VM
